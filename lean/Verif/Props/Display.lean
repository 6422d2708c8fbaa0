import Verif.View.DisplayKids
/-!
# C65: the displayed tree is what the template shows for the last value

`Scene.present` (`Verif.Spec.Display`) reads a template as a function of a value, `View.draw` walks over a
view from its body (`View::body`, `Fragment::children`).
-/
namespace Verif
open Json

variable {translate : String → String} {inline : String → Option (List Declaration)} {tr : Transformers}

/-- C65 (part): after updates with fitting values, the last of which is `w`, a walk over the view gives
exactly what the template shows for `w`: texts, tags, attributes, and children in order.
`present` gives no meaning to repeats with siblings after them, to the same attribute twice on an element
and to pipes on repeats; with `nulls = false` it gives none to places that are null, and with `nulls = true`
such places must have had a value before.
Missing: those, arrays that were not there all the time (`C65_nested_array_counterexample`), sources of
names as in C23-C25, and nulls that were never anything else (`C19_placeholder_stays`). -/
theorem C65_display_partial {fuel document s vs w v0 v}
    (h : FittingView translate inline tr fuel document s (vs ++ [w]) v0 v)
    (hd : EveryNode (docEnv translate inline document)
      (fun c => DistinctAliases (docEnv translate inline document) c ∧ LoopNameFresh c) (docBody document))
    (hc : Consistent (mentionedPaths
      (mentions (docEnv translate inline document) fuel (fun _ => none) (docBody document))))
    (hsteady : SteadyArrays s vs w) (nulls : Bool)
    (hnull : nulls = true → ∀ p sh, s.read w p = some (sh, .null) → Settled s p False (w :: vs.reverse))
    {shown : Shown}
    (hx : Scene.present ⟨docEnv translate inline document, tr, w, nulls⟩ fuel (fun _ => none) (docBody document) = some shown)
    {d : Nat} (hdepth : fuel < d) : v.draw d = some shown := by
  obtain ⟨σ, S⟩ := setup_of h.opened h.shapeOk h.noArrArr h.blank hd hc
  have R : Ready inline ⟨docEnv translate inline document, tr, w, nulls⟩ s σ fuel (docBody document) vs v0 v :=
    ⟨S, h.fits, h.reached, hsteady, hnull⟩
  have hroots : v.root = v0.root ∧ v.body = v0.body := by
    refine (history_induct (P := fun _ u => u.root = v0.root ∧ u.body = v0.body) (vs ++ [w]) S.follows h.fits h.reached
      ⟨rfl, rfl⟩ ?_).1
    rintro hist u w u' - - - huu ⟨r1, r2⟩
    have := update_root huu
    exact ⟨this.1.trans r1, this.2.trans r2⟩
  unfold View.draw
  rw [hroots.2]
  exact R.draws fuel d hdepth _ _ _ _ _ S.mirrors (fun x => rfl) S.mentioned S.bodyNotRoot hx

/-- C65 (part): what is displayed depends on the last value only: two histories of updates of an opened
document that end with the same value show the same, under the conditions of `C65_display_partial`. -/
theorem C65_last_value_partial {fuel document s vs us w v0 v u}
    (hv : FittingView translate inline tr fuel document s (vs ++ [w]) v0 v)
    (hu : FittingView translate inline tr fuel document s (us ++ [w]) v0 u)
    (hd : EveryNode (docEnv translate inline document)
      (fun c => DistinctAliases (docEnv translate inline document) c ∧ LoopNameFresh c) (docBody document))
    (hc : Consistent (mentionedPaths
      (mentions (docEnv translate inline document) fuel (fun _ => none) (docBody document))))
    (hs : SteadyArrays s vs w) (hs' : SteadyArrays s us w)
    (hx : (Scene.present ⟨docEnv translate inline document, tr, w, false⟩ fuel (fun _ => none) (docBody document)).isSome)
    {d : Nat} (hdepth : fuel < d) : v.draw d = u.draw d ∧ (v.draw d).isSome := by
  obtain ⟨shown, hx⟩ := Option.isSome_iff_exists.1 hx
  rw [C65_display_partial hv hd hc hs false (by simp) hx hdepth, C65_display_partial hu hd hc hs' false (by simp) hx hdepth]
  exact ⟨rfl, rfl⟩

/-! ## A document -/

/-- `<template id="t"><li>- {y.name}</li></template>
<body><p class="big {size}" @hidden="{off}">Hello {name}</p><div ?="{on}">now</div><img src="a.png"/>
<ul><link href="#t" *y="3 {xs}"/></ul></body>`. -/
def showDoc : Html := .mk "" [] none [
  .mk "template" [.none "id" "t"] none [.mk "li" [] none
    [.mk "" [] (some [.string "- ", .binder ⟨"y", ["name"], []⟩]) []]],
  .mk "body" [] none [
    .mk "p" [.attribute "class" [.string "big ", .binder (path1 "size")], .tag "hidden" (path1 "off")] none
      [.mk "" [] (some [.string "Hello ", .binder (path1 "name")]) []],
    .mk "div" [.visibility true (path1 "on")] none [.mk "" [] (some [.string "now"]) []],
    .mk "img" [.none "src" "a.png"] none [],
    .mk "ul" [] none [.mk "link" [.none "href" "#t", .repeat "y" 3 (path1 "xs")] none []]]]

/-- The template of `showDoc`. -/
def showItem : Html := .mk "li" [] none [.mk "" [] (some [.string "- ", .binder ⟨"y", ["name"], []⟩]) []]

def showShape : Shape := .obj [("name", .leaf), ("off", .leaf), ("on", .leaf), ("size", .leaf),
  ("xs", .arr (.obj [("name", .leaf)]))]

def showBlank : Json := .obj [("name", .null), ("off", .null), ("on", .null), ("size", .null),
  ("xs", .arr [.obj [("name", .null)], .obj [("name", .null)], .obj [("name", .null)]])]

/-- Two values. -/
def showFirst : Json := .obj [("name", .str "Bob"), ("off", .bool true), ("on", .bool false), ("size", .str "s"),
  ("xs", .arr [])]
def showLast : Json := .obj [("name", .str "Eve"), ("off", .bool false), ("on", .bool true), ("size", .str "m"),
  ("xs", .arr [.obj [("name", .str "a")], .obj [("name", .str "b")]])]

/-- Printing what is displayed, with some attributes. -/
def Shown.print : Shown → String
  | .text t => t
  | .element tag attrs cs => "<" ++ tag ++ String.join (["class", "hidden", "src"].map fun k =>
      match attrs k with | some v => " " ++ k ++ "=" ++ v | none => "") ++ ">" ++
      String.join (printAll cs) ++ "</" ++ tag ++ ">"
where
  printAll : List Shown → List String
    | [] => []
    | c :: cs => c.print :: printAll cs

def showText : String :=
  "<body><p class=big m>Hello Eve</p><div>now</div><img src=a.png><></></img><ul><li>- a</li><li>- b</li></ul></body>"

theorem showDoc_conditions : EveryNode (docEnv id (fun _ => none) showDoc)
    (fun c => DistinctAliases (docEnv id (fun _ => none) showDoc) c ∧ LoopNameFresh c) (docBody showDoc) := by
  have key : ∀ c : Html, c.tag ≠ "link" → (aliasNames c.bindings).Nodup → LoopNameFresh c →
      DistinctAliases (docEnv id (fun _ => none) showDoc) c ∧ LoopNameFresh c :=
    fun c h2 h1 h3 => ⟨⟨h1, fun _ _ h => absurd h h2⟩, h3⟩
  have hbody : docBody showDoc = .mk "body" [] none [
    .mk "p" [.attribute "class" [.string "big ", .binder (path1 "size")], .tag "hidden" (path1 "off")] none
      [.mk "" [] (some [.string "Hello ", .binder (path1 "name")]) []],
    .mk "div" [.visibility true (path1 "on")] none [.mk "" [] (some [.string "now"]) []],
    .mk "img" [.none "src" "a.png"] none [],
    .mk "ul" [] none [.mk "link" [.none "href" "#t", .repeat "y" 3 (path1 "xs")] none []]] := rfl
  have htpl : ((beforeBody showDoc.children).filterMap Html.definition).map Prod.snd = [showItem] := rfl
  have ht : ∀ id, (docEnv (fun s : String => s) (fun _ => none) showDoc).templates id = if id = "#t" then some showItem else none := by
    intro id
    show templateFor showDoc.children id = _
    by_cases h : id = "#t"
    · subst h; rfl
    · rw [if_neg h]
      unfold templateFor
      have : ((beforeBody showDoc.children).filterMap Html.definition).reverse = [("#t", showItem)] := rfl
      rw [this]
      simp [List.lookup, show (id == "#t") = false by simpa using h]
  apply everyNode_of 4
  · rw [hbody]; simp [Html.depth]
  · rw [hbody]
    intro c hc
    simp only [Html.nodes, Html.children, List.flatMap_cons, List.flatMap_nil, List.append_nil, List.cons_append,
      List.nil_append, List.mem_cons, List.not_mem_nil, or_false] at hc
    rcases hc with rfl | rfl | rfl | rfl | rfl | rfl | rfl
    case inr.inr.inr.inr.inr.inr =>
      refine ⟨⟨by decide, ?_⟩, ?_⟩
      · intro id t _ hm h
        have h := (ht id).symm.trans h
        split at h
        · injection h with h; subst h; decide
        · simp at h
      · intro name count b hm
        simp only [Html.bindings, List.mem_cons, List.not_mem_nil, or_false, reduceCtorEq, false_or,
          ElementBinding.repeat.injEq] at hm
        obtain ⟨rfl, -, rfl⟩ := hm
        decide
    all_goals exact key _ (by decide) (by decide) (by simp [LoopNameFresh, Html.bindings])
  · rw [htpl]
    intro t ht
    rw [List.mem_singleton] at ht; subst ht
    refine ⟨by simp [showItem, Html.depth], key _ (by decide) (by decide) (by simp [showItem, LoopNameFresh, Html.bindings]), ?_⟩
    intro c hc
    simp only [showItem, Html.nodes, Html.children, List.flatMap_cons, List.flatMap_nil, List.append_nil,
      List.mem_cons, List.not_mem_nil, or_false] at hc
    rcases hc with rfl
    exact key _ (by decide) (by decide) (by simp [LoopNameFresh, Html.bindings])

theorem showDoc_consistent : Consistent
    (mentionedPaths (mentions (docEnv id (fun _ => none) showDoc) 20 (fun _ => none) (docBody showDoc))) := by
  have : mentionedPaths (mentions (docEnv id (fun _ => none) showDoc) 20 (fun _ => none) (docBody showDoc))
    = ["/size", "/off", "/name", "/on", "/xs", "/xs/0", "/xs/0/name", "/xs/1", "/xs/1/name", "/xs/2", "/xs/2/name"] := by
    decide +kernel
  rw [this]
  exact consistent_of (by decide +kernel) (by simp)

/-- The conditions of the theorems are met: `showDoc` with two updates, in which the number of items, the
condition and the texts change. -/
example : ∃ v0 v shown, FittingView id (fun _ => none) (fun _ => none) 20 showDoc showShape ([showFirst] ++ [showLast]) v0 v ∧
    SteadyArrays showShape [showFirst] showLast ∧
    Scene.present ⟨docEnv id (fun _ => none) showDoc, fun _ => none, showLast, false⟩ 20 (fun _ => none) (docBody showDoc)
      = some shown ∧ shown.print = showText ∧ v.draw 21 = some shown := by
  obtain ⟨v0, v, h1, h2, h3, -⟩ := checkView_sound (doc := showDoc) (vs := [showFirst] ++ [showLast]) (blank := showBlank)
    (P := fun _ => true) (by decide +kernel)
  have hf : FittingView id (fun _ => none) (fun _ => none) 20 showDoc showShape ([showFirst] ++ [showLast]) v0 v := by
    refine ⟨h1, ?_, ?_, ?_, ?_, h3⟩
    · simp [showShape, Shape.Ok, Shape.OkFields, SlashFree]
    · simp [showShape, Shape.NoArrArr, Shape.NoArrArrFields]
    · rw [h2]; simp [showShape, showBlank, HasShape, HasFields, Scalar]
    · simp [showShape, showFirst, showLast, Fits, FitsFields, member, Json.get, Scalar]
  have hs : SteadyArrays showShape [showFirst] showLast := by
    intro p item x hr u hu
    rw [List.mem_singleton] at hu; subst hu
    match p with
    | [] => simp [Shape.read, showShape] at hr
    | .idx i :: p => simp [Shape.read, showShape] at hr
    | .key k :: p =>
      simp only [Shape.read, showShape, Option.bind_eq_some_iff] at hr ⊢
      obtain ⟨sh, hk, hr⟩ := hr
      by_cases hxs : k = "xs"
      · subst hxs
        simp only [Shape.field, List.find?_cons, List.find?_nil] at hk
        simp at hk
        subst hk
        match p with
        | [] => rfl
        | .key k :: p => simp [Shape.read] at hr
        | .idx i :: p =>
          exfalso
          simp only [Shape.read, Option.bind_eq_some_iff] at hr
          obtain ⟨y, -, hr⟩ := hr
          match p with
          | [] => simp [Shape.read] at hr
          | .idx i :: p => simp [Shape.read] at hr
          | .key k :: p =>
            simp only [Shape.read, Option.bind_eq_some_iff] at hr
            obtain ⟨sh, hk, hr⟩ := hr
            have hm := field_eq hk
            simp only [List.mem_singleton, Prod.mk.injEq] at hm
            rw [hm.2] at hr
            cases p <;> simp [Shape.read] at hr
      · exfalso
        have hm := field_eq hk
        simp only [List.mem_cons, Prod.mk.injEq, List.not_mem_nil, or_false] at hm
        rcases hm with hm | hm | hm | hm | hm
        case inr.inr.inr.inr => exact hxs hm.1
        all_goals (rw [hm.2] at hr; cases p <;> simp [Shape.read] at hr)
  have hp : (Scene.present ⟨docEnv id (fun _ => none) showDoc, fun _ => none, showLast, false⟩ 20 (fun _ => none)
      (docBody showDoc)).map Shown.print = some showText := by decide +kernel
  obtain ⟨shown, e1, e2⟩ := Option.map_eq_some_iff.1 hp
  exact ⟨v0, v, shown, hf, hs, e1, e2,
    C65_display_partial hf showDoc_conditions showDoc_consistent hs false (by simp) e1 (by decide)⟩

/-! ## Findings -/

/-- `<body><ul *x="2 {xs}"><li *y="2 {x.ys}">{y}</li></ul></body>`. -/
def nestDoc : Html := .mk "" [] none [.mk "body" [] none [.mk "ul" [.repeat "x" 2 (path1 "xs")] none
  [.mk "li" [.repeat "y" 2 ⟨"x", ["ys"], []⟩] none [.mk "" [] (some [.binder (path1 "y")]) []]]]]

def nestShape : Shape := .obj [("xs", .arr (.obj [("ys", .arr .leaf)]))]

def nestBlank : Json := .obj [("xs", .arr [.obj [("ys", .arr [.null, .null])], .obj [("ys", .arr [.null, .null])]])]

/-- One list of numbers. -/
def nestOne (l : List Json) : Json := .obj [("xs", .arr [.obj [("ys", .arr l)]])]

theorem nest_view {vs : List Json} {text : String}
    (h : checkView nestDoc vs nestBlank (fun v => decide ((v.draw 21).map Shown.print = some text)) = true)
    (hf : ∀ w ∈ vs, Fits nestShape w) :
    ∃ v0 v, FittingView id (fun _ => none) (fun _ => none) 20 nestDoc nestShape vs v0 v ∧
      (v.draw 21).map Shown.print = some text := by
  obtain ⟨v0, v, h1, h2, h3, h4⟩ := checkView_sound h
  refine ⟨v0, v, ⟨h1, ?_, ?_, ?_, hf, h3⟩, by simpa using h4⟩
  · simp [nestShape, Shape.Ok, Shape.OkFields, SlashFree]
  · simp [nestShape, Shape.NoArrArr, Shape.NoArrArrFields]
  · rw [h2]; simp [nestShape, nestBlank, HasShape, HasFields, Scalar]

/-- Finding for C65: two histories that end with the same value show different things: an item that
disappeared and came back with a longer inner list still hides the last entries of that list. -/
theorem C65_nested_array_counterexample :
    (∃ v0 v, FittingView id (fun _ => none) (fun _ => none) 20 nestDoc nestShape
      ([] ++ [nestOne [.str "a", .str "b"]]) v0 v ∧
      (v.draw 21).map Shown.print = some "<body><ul><li>a</li><li>b</li></ul></body>") ∧
    (∃ v0 v, FittingView id (fun _ => none) (fun _ => none) 20 nestDoc nestShape
      ([nestOne [.str "a"], .obj [("xs", .arr [])]] ++ [nestOne [.str "a", .str "b"]]) v0 v ∧
      (v.draw 21).map Shown.print = some "<body><ul><li>a</li></ul></body>") := by
  refine ⟨nest_view (by decide +kernel) ?_, nest_view (by decide +kernel) ?_⟩ <;>
    simp [nestOne, nestShape, Fits, FitsFields, member, Json.get, Scalar]

end Verif
