import Verif.Props.Whole
import Verif.View.Eval
import Verif.Props.StyleExamples
import Verif.Props.Display
/-!
# C73-C75: a program
-/
namespace Verif
open Sheet (Stylesheet meaning)
open Written (Document)

/-! ## Running programs on literals -/

/-- The part of `App.update` after binding the value. -/
def App.rest (p : Platform) (fuel : Nat) (order : FrameOrder) (a : App) (input : Input) : Except Fail View → Except Halt (App × Output)
  | .error f => .error f.halt
  | .ok v =>
    let layouts := upd a.layouts v.root (resizeRoot input.viewport (a.layouts v.root))
    match styleView (a.env p fuel order input.time) fuel v.body input.viewport ⟨v.stage.tree, layouts⟩ with
    | .error t => .error t.halt
    | .ok styled =>
      match placeView (p.solve (styled.recall order.recall)) fuel v.body styled.tree with
      | .error t => .error t.halt
      | .ok tree =>
        match handleOutput v.emitter v.body input.events (tree, a.screen.ui) with
        | .error f => .error f.halt
        | .ok ((tree, ui), out) =>
          .ok (⟨⟨{ v with stage := { v.stage with tree := tree } }, ui⟩, a.css, a.kept, styled.layouts⟩, out)

theorem App.update_rest (p : Platform) (fuel : Nat) (order : FrameOrder) (a : App) (input : Input) (value : Json) :
    a.update p fuel order input value = a.rest p fuel order input (a.screen.view.update p.inline value) := by
  unfold App.update App.rest
  cases a.screen.view.update p.inline value <;> rfl

/-- `App.run` with `evalValue`; `none` if the number does not suffice. -/
def App.evalRun (p : Platform) (fuel : Nat) (a : App) : List Frame → Option (Except Halt (App × List Output))
  | [] => some (.ok (a, []))
  | f :: fs =>
    (a.screen.view.evalUpdates p.inline fuel [f.value]).bind fun r =>
      match a.rest p fuel f.order f.input r with
      | .error h => some (.error h)
      | .ok (a, out) => (a.evalRun p fuel fs).map fun
        | .error h => .error h
        | .ok (a, outs) => .ok (a, out :: outs)

theorem App.evalRun_sound {p : Platform} {fuel : Nat} (fs : List Frame) : ∀ {a : App} {r}, a.evalRun p fuel fs = some r → a.run p fuel fs = r := by
  induction fs with
  | nil => intro a r h; simpa [App.evalRun, App.run] using h
  | cons f fs ih =>
    intro a r h
    simp only [App.evalRun, Option.bind_eq_some_iff] at h
    obtain ⟨u, hu, h⟩ := h
    have hu' := View.evalUpdates_sound _ _ _ _ _ hu
    have hu'' : a.screen.view.update p.inline f.value = u := by
      rw [← hu']
      simp only [View.updates]
      cases a.screen.view.update p.inline f.value <;> rfl
    simp only [App.run, App.update_rest, hu'']
    cases hr : a.rest p fuel f.order f.input u with
    | error e => rw [hr] at h; simpa using h
    | ok x =>
      rw [hr] at h
      simp only [Option.map_eq_some_iff] at h
      obtain ⟨y, hy, h⟩ := h
      simp only [ih hy]
      cases y <;> exact h

/-- Texts, opened and updated. -/
def checkApp (p : Platform) (fuel : Nat) (html css : String) (fs : List Frame) (P : Except Halt (App × List Output) → Bool) : Bool :=
  match fromHtml p fuel html css with
  | .error _ => false
  | .ok a => match a.evalRun p fuel fs with
    | none => false
    | some r => P r

theorem checkApp_sound {p : Platform} {fuel : Nat} {html css : String} {fs : List Frame} {P} (h : checkApp p fuel html css fs P = true) :
    ∃ a, fromHtml p fuel html css = .ok a ∧ P (a.run p fuel fs) = true := by
  unfold checkApp at h
  split at h
  · cases h
  · rename_i a ha
    split at h
    · cases h
    · rename_i r hr
      rw [← App.evalRun_sound fs hr] at h
      exact ⟨a, ha, h⟩

/-- What `from_html` comes to. -/
def openEnd (p : Platform) (fuel : Nat) (html css : String) : Option Halt :=
  match fromHtml p fuel html css with
  | .ok _ => none
  | .error h => some h

theorem openEnd_sound {p : Platform} {fuel : Nat} {html css : String} {h : Halt} (e : openEnd p fuel html css = some h) : fromHtml p fuel html css = .error h := by
  unfold openEnd at e
  split at e
  · cases e
  · rename_i x hx; injection e with e; subst e; exact hx

/-! ## A program -/

/-- A platform with checked arithmetic, no translations, inline styles and transformers, and boxes of one size. -/
def wholePlatform : Platform := ⟨true, id, fun _ => none, fun _ => none, fun _ _ => { width := 10, height := 10 }⟩

def wholeText : String := "<html><template id=\"t\"><li>- {y}</li></template><body><p>Hi {name}</p><link href=\"#t\" *y=\"2 {xs}\"/></body></html>"
def wholeCss : String := "p{width:10px;transition:width 1s;}li{height:5px;animation:2s grow;}@keyframes grow{from{height:0;}to{height:9px;}}"

def wholeItem : Html := .mk "li" [] none [.mk "" [] (some [.string "- ", .binder (path1 "y")]) []]
def wholeDoc : Html := .mk "html" [] none [.mk "template" [.none "id" "t"] none [wholeItem],
  .mk "body" [] none [.mk "p" [] none [.mk "" [] (some [.string "Hi ", .binder (path1 "name")]) []],
    .mk "link" [.none "href" "#t", .repeat "y" 2 (path1 "xs")] none []]]
def wholeItems : List CssItem := [.style ⟨[[.type "p"]], [.property .Width [[.explicit (.dimension ⟨10, .px⟩)]],
    .property .Transition [[.explicit (.keyword "width"), .explicit (.time 1)]]]⟩,
  .style ⟨[[.type "li"]], [.property .Height [[.explicit (.dimension ⟨5, .px⟩)]], .property .Animation [[.explicit (.time 2), .explicit (.keyword "grow")]]]⟩,
  .animation ⟨"grow", [⟨0, [.property .Height [[.explicit .zero]]]⟩, ⟨100, [.property .Height [[.explicit (.dimension ⟨9, .px⟩)]]]⟩]⟩]

def wholeShape : Shape := .obj [("name", .leaf), ("xs", .arr .leaf)]
def wholeBlank : Json := .obj [("name", .null), ("xs", .arr [.null, .null])]
def wholeValue (name : String) (xs : List String) : Json := .obj [("name", .str name), ("xs", .arr (xs.map .str))]
/-- Frames with different orders of hash maps, times, window sizes and input. -/
def wholeFrames : List Frame := [⟨orderId, ⟨1 / 60, (800, 600), [.mouseMove (5, 5)]⟩, wholeValue "Bob" []⟩,
  ⟨orderReverse, ⟨1 / 30, (1000, 700), [.mouseButtonDown .left]⟩, wholeValue "Eve" ["a", "b"]⟩]
def wholeLast : Frame := ⟨orderReverse, ⟨0, (1000, 700), []⟩, wholeValue "Ann" ["c"]⟩

namespace Written

theorem plainBinder (n : String) (h : (!n.toList.isEmpty && n.toList.all isKeyChar) = true) : BinderText (path1 n) ('{' :: (n.toList ++ ['}'])) := by
  have := BinderText.mk (b := path1 n) (b1 := []) (b2 := []) (t := []) (u := []) .nil .nil (word_of h) .nil .nil
  simpa [path1] using this

theorem noSpaces : Spaces [] := ⟨.nil, by simp⟩
theorem oneSpace : Spaces [' '] := ⟨.space (by decide) .nil, by intro c u e; injection e with e _; subst e; decide⟩

/-- `<tag>…</tag>`. -/
theorem plainElement (tag : String) {isLast : Bool} {cs : List Html} {u : List Char} (h : (!tag.toList.isEmpty && tag.toList.all isTagChar) = true) (hv : ¬ VoidPrefix tag.toList)
    (hs : tag ≠ "script") (hc : Contents cs u) : Content isLast (.mk tag [] none cs) ('<' :: (tag.toList ++ '>' :: (u ++ '<' :: '/' :: (tag.toList ++ ['>'])))) := by
  have := Content.element (isLast := isLast) (tag := tag) (t := []) (bl := []) (word_of h) hv hs (.nil noSpaces) hc .nil
  simpa using this

theorem oneContent {c : Html} {t : List Char} (h : Content true c t) : Contents [c] t := by
  have := Contents.cons (cs := []) (bl := []) .nil h (.nil .nil) (by simp)
  simpa using this

theorem moreContent {c : Html} {t u : List Char} {d : Html} {cs : List Html} (h : Content false c t) (hs : Contents (d :: cs) u) (ht : c.text = none) : Contents (c :: d :: cs) (t ++ u) := by
  have := Contents.cons (cs := d :: cs) (bl := []) .nil h hs (by simp [ht])
  simpa using this

/-- A string before a binder. -/
theorem greeting (s n : String) (hs : (!s.toList.isEmpty && s.toList.all isTextChar) = true) (h : (!n.toList.isEmpty && n.toList.all isKeyChar) = true)
    (hc : Solid (s.toList ++ '{' :: (n.toList ++ ['}'])))
    (ht : tidySpans true [.string s, .binder (path1 n)] = [.string s, .binder (path1 n)]) :
    Content true (.mk "" [] (some [.string s, .binder (path1 n)]) []) (s.toList ++ '{' :: (n.toList ++ ['}'])) := by
  have := Content.text (isLast := true) (.string (word_of hs) (.lastBinder (plainBinder n h))) hc
  rwa [ht] at this

end Written

open Written in
theorem whole_written : Document wholeDoc wholeText.toList := by
  have li : Content true wholeItem "<li>- {y}</li>".toList :=
    plainElement "li" (by decide) (by unfold VoidPrefix; decide) (by decide) (oneContent (greeting "- " "y" (by decide) (by decide)
      ⟨by intro c u e; injection e with e _; subst e; decide, by decide⟩ (by decide +kernel)))
  have b1 : BindingText (.none "id" "t") "id=\"t\"".toList := .none (name := "id") (value := "t") (b1 := []) (b2 := []) (b3 := []) (word_of (by decide)) noSpaces .nil .nil
    (.plain (by decide) (by decide) .nil) ⟨by intro c u e; injection e with e _; subst e; decide, by decide⟩
  have tpl : Content false (.mk "template" [.none "id" "t"] none [wholeItem]) "<template id=\"t\"><li>- {y}</li></template>".toList :=
    .element (tag := "template") (t := " id=\"t\"".toList) (u := "<li>- {y}</li>".toList) (bl := []) (word_of (by decide)) (by unfold VoidPrefix; decide) (by decide)
      (.cons (bl := [' ']) oneSpace (by decide) b1 (.nil noSpaces)) (oneContent li) .nil
  have p : Content false (.mk "p" [] none [.mk "" [] (some [.string "Hi ", .binder (path1 "name")]) []]) "<p>Hi {name}</p>".toList :=
    plainElement "p" (by decide) (by unfold VoidPrefix; decide) (by decide) (oneContent (greeting "Hi " "name" (by decide) (by decide)
      ⟨by intro c u e; injection e with e _; subst e; decide, by decide⟩ (by decide +kernel)))
  have b2 : BindingText (.none "href" "#t") "href=\"#t\"".toList := .none (name := "href") (value := "#t") (b1 := []) (b2 := []) (b3 := []) (word_of (by decide)) noSpaces .nil .nil
    (.plain (by decide) (by decide) (.plain (by decide) (by decide) .nil)) ⟨by intro c u e; injection e with e _; subst e; decide, by decide⟩
  have b3 : BindingText (.repeat "y" 2 (path1 "xs")) "*y=\"2 {xs}\"".toList :=
    .repeat (digits := ['2']) (bl1 := [' ']) (t := "{xs}".toList) (bl2 := []) (word_of (by decide)) (by decide) (by decide) (.space (by decide) .nil) (plainBinder "xs" (by decide)) .nil
      (.mk (b1 := []) (b2 := []) (b3 := []) (b4 := []) .nil .nil .nil .nil (word_of (by decide)))
  have link : Content true (.mk "link" [.none "href" "#t", .repeat "y" 2 (path1 "xs")] none []) "<link href=\"#t\" *y=\"2 {xs}\"/>".toList :=
    .void (tag := "link") (t := " href=\"#t\" *y=\"2 {xs}\"".toList) (by unfold VoidTag; decide)
      (.cons (bl := [' ']) (t := "href=\"#t\"".toList) oneSpace (by decide) b2 (.cons (bl := [' ']) oneSpace (by decide) b3 (.nil noSpaces))) (.slash .nil)
  have body := plainElement (isLast := true) "body" (by decide) (by unfold VoidPrefix; decide) (by decide) (moreContent p (oneContent link) rfl)
  have html := plainElement (isLast := true) "html" (by decide) (by unfold VoidPrefix; decide) (by decide) (moreContent tpl (oneContent body) rfl)
  exact Document.mk (b1 := []) (b2 := []) .nil html .nil (by simp [Html.text])

open Sheet in
/-- `name:values;` in a block. -/
theorem sheetDeclaration {name : String} {key : PropertyKey} {values : List Shorthand} {t : List Char} (hk : PropertyKey.parse name = some key)
    (hn : (!name.toList.isEmpty && name.toList.all isLetter) = true) (h : Values values t) {ds : List Declaration} {u : List Char} (hs : Declarations ds u) :
    Declarations (.property key values :: ds) ((name.toList ++ ':' :: (t ++ [';'])) ++ u) := by
  have := Declarations.cons (bl := []) (DeclarationText.property (PropertyKey.parse_iff.1 hk) (Assigns.mk (b1 := []) (b2 := []) (b3 := []) (word_of hn) .nil .nil .nil h)) .nil hs
  simpa using this

open Sheet in
theorem sheetPixels {v : Rat} {t : List Char} (h : Unsigned v t) : Values [[.explicit (.dimension ⟨v, .px⟩)]] (t ++ "px".toList) :=
  .one (.one (.explicit (.dimension (name := "px") (.plain h) (by decide))))

open Sheet in
/-- `type{…}`. -/
theorem sheetRule {type : String} (h : (!type.toList.isEmpty && type.toList.all Written.isKeyChar) = true) {ds : List Declaration} {t : List Char} (hd : Declarations ds t) :
    Item (.style ⟨[[.type type]], ds⟩) (type.toList ++ '{' :: (t ++ ['}'])) := by
  have := Item.style (bl := []) (.one (.mk (c := [.type type]) (l := []) (u := []) (.type (n := type) (u := []) (word_of h) .nil) .nil)) .nil (Block.mk (bl := []) .nil hd)
  simpa using this

open Sheet in
theorem whole_sheet : Stylesheet wholeItems wholeCss.toList := by
  have ten : Unsigned (decimal "10".toList) "10".toList := .int (word_of (by decide))
  have one : Unsigned (decimal ['1']) ['1'] := .int (word_of (by decide))
  have two : Unsigned (decimal ['2']) ['2'] := .int (word_of (by decide))
  have five : Unsigned (decimal ['5']) ['5'] := .int (word_of (by decide))
  have nine : Unsigned (decimal ['9']) ['9'] := .int (word_of (by decide))
  have trans : Values [[.explicit (.keyword "width"), .explicit (.time (decimal ['1']))]] "width 1s".toList :=
    .one (.cons (c := ' ') (.explicit (.keyword ⟨word_of (by decide), by decide, by decide⟩)) (by decide) (.one (.explicit (.seconds (.plain one)))))
  have anim : Values [[.explicit (.time (decimal ['2'])), .explicit (.keyword "grow")]] "2s grow".toList :=
    .one (.cons (c := ' ') (.explicit (.seconds (.plain two))) (by decide) (.one (.explicit (.keyword ⟨word_of (by decide), by decide, by decide⟩))))
  have r1 := sheetRule (type := "p") (by decide) (sheetDeclaration (name := "width") (key := .Width) (by decide +kernel) (by decide) (sheetPixels ten)
    (sheetDeclaration (name := "transition") (key := .Transition) (by decide +kernel) (by decide) trans .nil))
  have r2 := sheetRule (type := "li") (by decide) (sheetDeclaration (name := "height") (key := .Height) (by decide +kernel) (by decide) (sheetPixels five)
    (sheetDeclaration (name := "animation") (key := .Animation) (by decide +kernel) (by decide) anim .nil))
  have k1 := Block.mk (bl := []) .nil (sheetDeclaration (name := "height") (key := .Height) (by decide +kernel) (by decide) (.one (.one (.explicit .zero))) .nil)
  have k2 := Block.mk (bl := []) .nil (sheetDeclaration (name := "height") (key := .Height) (by decide +kernel) (by decide) (sheetPixels nine) .nil)
  have r3 := Item.animation (b1 := [' ']) (name := "grow") (b2 := []) (b3 := []) (.space (by decide) .nil) (word_of (by decide)) .nil .nil
    (.cons (b1 := []) (b2 := []) .from .nil k1 .nil (.cons (b1 := []) (b2 := []) .to .nil k2 .nil .nil))
  have := Stylesheet.mk (bl := []) .nil (.cons (bl := []) r1 .nil (.cons (bl := []) r2 .nil (.cons (bl := []) r3 .nil .nil)))
  exact this

theorem whole_body : docBody wholeDoc = .mk "body" [] none [.mk "p" [] none [.mk "" [] (some [.string "Hi ", .binder (path1 "name")]) []],
    .mk "link" [.none "href" "#t", .repeat "y" 2 (path1 "xs")] none []] := rfl

theorem whole_template (id : String) : templateFor wholeDoc.children id = if id = "#t" then some wholeItem else none := by
  by_cases h : id = "#t"
  · subst h; rfl
  · rw [if_neg h]
    unfold templateFor
    have : ((beforeBody wholeDoc.children).filterMap Html.definition).reverse = [("#t", wholeItem)] := rfl
    rw [this]
    simp [List.lookup, show (id == "#t") = false by simpa using h]

/-- The nodes of the document and its template. -/
theorem whole_nodes {P : Html → Prop} (h1 : P wholeItem) (h2 : P (.mk "" [] (some [.string "- ", .binder (path1 "y")]) []))
    (h3 : P (.mk "p" [] none [.mk "" [] (some [.string "Hi ", .binder (path1 "name")]) []])) (h4 : P (.mk "" [] (some [.string "Hi ", .binder (path1 "name")]) []))
    (h5 : P (.mk "link" [.none "href" "#t", .repeat "y" 2 (path1 "xs")] none [])) :
    EveryNode (docEnv id (fun _ => none) wholeDoc) P (docBody wholeDoc) := by
  apply everyNode_of 4
  · rw [whole_body]; simp [Html.depth]
  · rw [whole_body]
    intro c hc
    simp only [Html.nodes, Html.children, List.flatMap_cons, List.flatMap_nil, List.append_nil, List.cons_append,
      List.nil_append, List.mem_cons, List.not_mem_nil, or_false] at hc
    rcases hc with rfl | rfl | rfl <;> assumption
  · have : ((beforeBody wholeDoc.children).filterMap Html.definition).map Prod.snd = [wholeItem] := rfl
    rw [this]
    intro t ht
    rw [List.mem_singleton] at ht; subst ht
    refine ⟨by simp [wholeItem, Html.depth], h1, ?_⟩
    intro c hc
    simp only [wholeItem, Html.nodes, Html.children, List.flatMap_cons, List.flatMap_nil, List.append_nil,
      List.mem_cons, List.not_mem_nil, or_false] at hc
    rcases hc with rfl
    exact h2

theorem whole_noSelf : NoSelfReference (templateFor wholeDoc.children) := by
  have step : ∀ a b, ¬ Refers (templateFor wholeDoc.children) a b := by
    rintro a b ⟨t, ht, c, hc, hl⟩
    rw [whole_template] at ht
    split at ht
    · injection ht with ht; subst ht
      have hc := below_nodes hc 4 (by simp [wholeItem, Html.depth])
      simp only [wholeItem, Html.nodes, Html.children, List.flatMap_cons, List.flatMap_nil, List.append_nil,
        List.mem_cons, List.not_mem_nil, or_false] at hc
      rcases hc with rfl
      simp [Html.target, Html.tag] at hl
    · cases ht
  intro a h
  cases h with
  | single h => exact step _ _ h
  | tail _ h => exact step _ _ h

theorem whole_links : LinksDefined wholeDoc := by
  have key : EveryNode (docEnv id (fun _ => none) wholeDoc) (fun c => ∀ id, c.target = some id → id = "#t") (docBody wholeDoc) := by
    apply whole_nodes
    case h5 => intro id h; exact (Option.some.inj (h.symm.trans rfl)).trans rfl
    all_goals (intro id h; cases h)
  rintro c (hc | ⟨i, t, ht, hc⟩) id hid
  · rw [key.1 c hc id hid, whole_template]; rfl
  · rw [(key.2 i t ht).2 c hc id hid, whole_template]; rfl

theorem whole_smooth : (meaning wholeItems).Smooth (fun _ => True) (fun _ => 0) := by
  have name : ∀ {n key}, n = "width" → PropertyKey.parse n = some key → key = .Width := by
    rintro n key rfl h
    have : PropertyKey.parse "width" = some .Width := by decide +kernel
    rw [this] at h; exact (Option.some.inj h).symm
  refine ⟨?_, ?_, ?_⟩
  · intro s hs
    simp only [meaning, wholeItems, List.filterMap_cons, List.filterMap_nil, List.mem_cons, List.not_mem_nil, or_false] at hs
    rcases hs with rfl | rfl
    · refine ⟨by simp [Style.NoPlus], ?_, by simp, ?_, by simp, by simp, ?_⟩
      · simp [Declaration.Ranked]
      · intro x hx
        simp only [List.mem_cons, List.not_mem_nil, or_false] at hx
        rcases hx with rfl | rfl
        · simp [Declaration.Timed]
        · refine ⟨by simp, by simp, by simp, fun _ v hv => ?_⟩
          rw [List.mem_singleton] at hv
          exact ⟨"width", 1, by decide +kernel, [], hv⟩
      · rintro key ⟨k, values, v, n, rest, hm, hk, hv, rfl, hp⟩
        simp only [List.mem_cons, List.not_mem_nil, or_false, Declaration.property.injEq] at hm
        rcases hm with ⟨rfl, rfl⟩ | ⟨rfl, rfl⟩
        · rcases hk with hk | hk <;> cases hk
        · simp only [List.mem_singleton, List.cons.injEq, Definition.explicit.injEq, ComputedValue.keyword.injEq] at hv
          obtain rfl := name hv.1 hp
          exact ⟨by decide, .inr ⟨by decide, .dimension ⟨10, .px⟩, [], by simp⟩⟩
    · refine ⟨by simp [Style.NoPlus], ?_, by simp, ?_, by simp, by simp, ?_⟩
      · simp [Declaration.Ranked]
      · intro x hx
        simp only [List.mem_cons, List.not_mem_nil, or_false] at hx
        rcases hx with rfl | rfl
        · simp [Declaration.Timed]
        · refine ⟨by simp, fun _ v hv => ?_, by simp, by simp⟩
          rw [List.mem_singleton] at hv
          exact ⟨2, by decide +kernel, [.keyword "grow"], hv⟩
      · rintro key ⟨k, values, v, n, rest, hm, hk, hv, rfl, hp⟩
        simp only [List.mem_cons, List.not_mem_nil, or_false, Declaration.property.injEq] at hm
        rcases hm with ⟨rfl, rfl⟩ | ⟨rfl, rfl⟩ <;> rcases hk with hk | hk <;> cases hk
  · intro name a ha k hk x hx
    have : a = ⟨"grow", [⟨0, [.property .Height [[.explicit .zero]]]⟩, ⟨100, [.property .Height [[.explicit (.dimension ⟨9, .px⟩)]]]⟩]⟩ := by
      by_cases hn : "grow" = name
      · simp [meaning, wholeItems, hn] at ha; rw [← ha, hn]
      · simp [meaning, wholeItems, hn] at ha
    subst this
    simp only [List.mem_cons, List.not_mem_nil, or_false] at hk
    rcases hk with rfl | rfl <;> (simp only [List.mem_singleton] at hx; subst hx; simp [Declaration.Still, motionProperties])
  · simp [meaning, wholeItems]

theorem whole_smoothDocument : SmoothDocument wholePlatform (fun _ => True) (fun _ => 0) wholeDoc := by
  refine ⟨?_, whole_nodes (P := Html.SmoothStyle _ _ _) ?_ ?_ ?_ ?_ ?_⟩ <;> simp [Html.SmoothStyle, whole_body, wholeItem, Html.bindings]

theorem whole_conditions : EveryNode (docEnv id (fun _ => none) wholeDoc)
    (fun c => DistinctAliases (docEnv id (fun _ => none) wholeDoc) c ∧ LoopNameFresh c) (docBody wholeDoc) := by
  have key : ∀ c : Html, c.tag ≠ "link" → (aliasNames c.bindings).Nodup → LoopNameFresh c →
      DistinctAliases (docEnv id (fun _ => none) wholeDoc) c ∧ LoopNameFresh c :=
    fun c h2 h1 h3 => ⟨⟨h1, fun _ _ h => absurd h h2⟩, h3⟩
  apply whole_nodes
  case h5 =>
    refine ⟨⟨by decide, ?_⟩, ?_⟩
    · intro id t _ hm h
      have h := (whole_template id).symm.trans h
      split at h
      · injection h with h; subst h; decide
      · simp at h
    · intro name count b hm
      simp only [Html.bindings, List.mem_cons, List.not_mem_nil, or_false, reduceCtorEq, false_or,
        ElementBinding.repeat.injEq] at hm
      obtain ⟨rfl, -, rfl⟩ := hm
      decide
  all_goals exact key _ (by decide) (by decide) (by simp [LoopNameFresh, wholeItem, Html.bindings])

theorem whole_shape : wholeShape.Ok ∧ wholeShape.NoArrArr ∧ HasShape wholeShape wholeBlank := by
  simp [wholeShape, wholeBlank, Shape.Ok, Shape.OkFields, SlashFree, Shape.NoArrArr, Shape.NoArrArrFields, HasShape, HasFields, Scalar]

theorem whole_fits (f : Frame) (h : f ∈ wholeFrames ++ [wholeLast]) : f.order.Fair ∧ Fits wholeShape f.value := by
  simp only [wholeFrames, wholeLast, List.cons_append, List.nil_append, List.mem_cons, List.not_mem_nil, or_false] at h
  rcases h with rfl | rfl | rfl <;> refine ⟨by first | exact orderId_fair | exact orderReverse_fair, ?_⟩ <;>
    simp [wholeShape, wholeValue, Fits, FitsFields, member, Json.get, Scalar]

theorem whole_steady : SteadyArrays wholeShape (wholeFrames.map (·.value)) wholeLast.value := by
  intro q item x hr u hu
  match q with
  | [] => simp [Shape.read, wholeShape] at hr
  | .idx i :: q => simp [Shape.read, wholeShape] at hr
  | .key k :: q =>
    simp only [Shape.read, wholeShape, Option.bind_eq_some_iff] at hr ⊢
    obtain ⟨sh, hk, hr⟩ := hr
    have hm := field_eq hk
    simp only [List.mem_cons, Prod.mk.injEq, List.not_mem_nil, or_false] at hm
    rcases hm with hm | hm
    · rw [hm.2] at hr; cases q <;> simp [Shape.read] at hr
    · obtain ⟨rfl, rfl⟩ := hm
      match q with
      | [] =>
        simp only [wholeFrames, List.map_cons, List.map_nil, List.mem_cons, List.not_mem_nil, or_false] at hu
        rcases hu with rfl | rfl <;> rfl
      | .key k :: q => simp [Shape.read] at hr
      | .idx i :: q =>
        exfalso
        simp only [Shape.read, Option.bind_eq_some_iff] at hr
        obtain ⟨y, -, hr⟩ := hr
        cases q <;> simp [Shape.read] at hr

theorem whole_paths (m : Nat) : mentionedPaths (mentions (docEnv id (fun _ => none) wholeDoc) (m + 6) (fun _ => none) (docBody wholeDoc)) =
    ["/name", "/xs", "/xs/0", "/xs/0", "/xs/1", "/xs/1"] := by
  rfl

theorem whole_present (m : Nat) : (Scene.present ⟨docEnv id (fun _ => none) wholeDoc, fun _ => none, wholeLast.value, false⟩ (m + 6) (fun _ => none) (docBody wholeDoc)).map
    Shown.print = some "<body><p>Hi Ann</p><li>- c</li></body>" := by
  rfl

theorem whole_opens : ∃ a, (∀ fuel ≥ 100, openApp wholePlatform fuel wholeDoc (meaning wholeItems) = .ok a) ∧ a.screen.view.vm.model = wholeBlank := by
  have h : (match openApp wholePlatform 100 wholeDoc (meaning wholeItems) with
    | .ok a => decide (a.screen.view.vm.model = wholeBlank)
    | .error _ => false) = true := by decide +kernel
  split at h
  · rename_i a ha
    exact ⟨a, fun fuel hf => openApp_more hf ha, by simpa using h⟩
  · cases h

/-- The conditions of C73-C75 are met: this program opens, and after three updates it shows what its template says. -/
example : ∃ a F, (∀ fuel ≥ F, fromHtml wholePlatform fuel wholeText wholeCss = .ok a) ∧
    ∃ a' outs F', outs.length = 3 ∧ (∀ fuel ≥ F', a.run wholePlatform fuel (wholeFrames ++ [wholeLast]) = .ok (a', outs)) ∧
      ∃ d, (a'.screen.view.draw d).map Shown.print = some "<body><p>Hi Ann</p><li>- c</li></body>" := by
  obtain ⟨a, F, h1, h2⟩ := C75_texts_to_display_partial (p := wholePlatform) whole_written whole_sheet whole_noSelf whole_links whole_smooth
  obtain ⟨F0, h0⟩ := C73_opens_as_written wholePlatform whole_written whole_sheet
  obtain ⟨b, hb, hm⟩ := whole_opens
  have hab : a = b := by
    have e1 := (h1 (max F (max F0 100)) (by omega)).symm.trans ((h0 (max F (max F0 100)) (by omega)).trans (hb _ (by omega)))
    injection e1
  subst hab
  obtain ⟨a', outs, F', h3, h4, h5⟩ := h2 wholeShape whole_shape.1 whole_shape.2.1 (by rw [hm]; exact whole_shape.2.2) wholeFrames wholeLast whole_fits (.inl whole_smoothDocument)
  refine ⟨a, F, ?_, a', outs, F', h3, h4, F + 7, ?_⟩
  · simpa only [String.ofList_toList] using h1
  · obtain ⟨shown, e1, e2⟩ := Option.map_eq_some_iff.1 (whole_present F)
    rw [h5 whole_conditions whole_steady (F + 6) (by omega) (by rw [show wholePlatform.translate = id from rfl, show wholePlatform.inline = fun _ => none from rfl, whole_paths]; exact consistent_of (by decide +kernel) (by simp)) shown e1 (F + 7) (by omega)]
    simpa using e2

/-- The conditions of `C74_update_succeeds_partial` are met after two updates of it. -/
example : ∃ a a' outs F, openApp wholePlatform 100 wholeDoc (meaning wholeItems) = .ok a ∧ a.run wholePlatform F wholeFrames = .ok (a', outs) ∧
    ∀ v, a'.screen.view.update wholePlatform.inline wholeLast.value = .ok v → Tame (a'.env wholePlatform 0 wholeLast.order wholeLast.input.time) v.stage.tree := by
  obtain ⟨a, ha, hm⟩ := whole_opens
  have hs := Steady.opened (ha 100 le_rfl) whole_smooth (whole_smoothDocument.styles (ha 100 le_rfl) (wholeFrames.map (·.value) ++ [wholeLast.value])) whole_shape.1 whole_shape.2.1 (by rw [hm]; exact whole_shape.2.2)
  obtain ⟨a', outs, F, h1, h2⟩ := hs.run wholeFrames (fun f hf => whole_fits f (by simp [hf]))
  exact ⟨a, a', outs, F, ha 100 le_rfl, h1 F le_rfl, fun v hv => (h2.tame _ _ hv).2⟩

/-- The conditions of `C42_program_partial` are met by the `p` of it: its width is set by one of the two rules. -/
example : ∃ a a' outs F v, openApp wholePlatform 100 wholeDoc (meaning wholeItems) = .ok a ∧ a.run wholePlatform F wholeFrames = .ok (a', outs) ∧
    a'.screen.view.update wholePlatform.inline wholeLast.value = .ok v ∧ Displayed v.stage.tree v.root 2 ∧ 2 ≠ v.root ∧
    (∀ path b, b ∈ v.vm.bindings path → b.params ≠ .tag 2 "class" ∧ b.params ≠ .tag 2 "id") ∧ (∀ s ∈ (meaning wholeItems).styles, ¬ s.HasChild) ∧
    (applied true viewPseudo v.stage.tree 2 (a'.kept 2)).map List.length = .ok 1 := by
  have h : (match openApp wholePlatform 100 wholeDoc (meaning wholeItems) with
    | .error _ => false
    | .ok a => match a.evalRun wholePlatform 100 wholeFrames with
      | some (.ok (a', _)) => match a'.screen.view.evalUpdates wholePlatform.inline 100 [wholeLast.value] with
        | some (.ok v) => decide (1 ∈ v.stage.tree.kids v.root ∧ 2 ∈ v.stage.tree.kids 1 ∧ 2 ≠ v.root ∧ (applied true viewPseudo v.stage.tree 2 (a'.kept 2)).map List.length = .ok 1) &&
          (match renderView (docEnv wholePlatform.translate wholePlatform.inline wholeDoc) 100 (docBody wholeDoc) with
            | .error _ => false
            | .ok (_, _, σ) => σ.regs.all (fun r => match r.2.params with | .tag _ _ => false | _ => true))
        | _ => false
      | _ => false) = true := by decide +kernel
  split at h
  · cases h
  · rename_i a ha
    split at h
    · rename_i a' outs hr
      split at h
      · rename_i v hv
        have hr' := App.evalRun_sound _ hr
        have hv' : a'.screen.view.update wholePlatform.inline wholeLast.value = .ok v := by
          have := View.evalUpdates_sound _ _ _ _ _ hv
          simp only [View.updates] at this
          cases hx : a'.screen.view.update wholePlatform.inline wholeLast.value with
          | error f => rw [hx] at this; cases this
          | ok w => rw [hx] at this; injection this with this; rw [this]
        rw [Bool.and_eq_true, decide_eq_true_eq] at h
        obtain ⟨⟨h1, h2, h3, h4⟩, h5⟩ := h
        refine ⟨a, a', outs, 100, v, ha, hr', hv', .child (.child .root h1) h2, h3, ?_, ?_, h4⟩
        · obtain ⟨v0, hr0, htw0⟩ := (session_ok (run_session wholeFrames (Living.opened ha).session hr')).twin
          obtain ⟨v2, hr2, htw, -⟩ := twin_update hr0 htw0 hv'
          obtain ⟨σ, hσ, hk⟩ := reached_kept hr2
          rw [hσ] at h5
          rw [List.all_eq_true] at h5
          intro path b hb
          rw [htw.vm, hk.good.bindings, mem_lookupRegs] at hb
          have := h5 _ hb
          constructor <;> (intro he; simp [he] at this)
        · intro s hs
          simp only [meaning, wholeItems, List.filterMap_cons, List.filterMap_nil, List.mem_cons, List.not_mem_nil, or_false] at hs
          rcases hs with rfl | rfl <;> simp [Style.HasChild]
      · cases h
    · cases h

/-- The same program, run on literals. -/
theorem C75_example : ∃ a a' outs, fromHtml wholePlatform 2000 wholeText wholeCss = .ok a ∧ a.run wholePlatform 2000 (wholeFrames ++ [wholeLast]) = .ok (a', outs) ∧
    (a'.screen.view.draw 21).map Shown.print = some "<body><p>Hi Ann</p><li>- c</li></body>" := by
  obtain ⟨a, h1, h2⟩ := checkApp_sound (p := wholePlatform) (fuel := 2000) (html := wholeText) (css := wholeCss) (fs := wholeFrames ++ [wholeLast])
    (P := fun r => match r with
      | .ok (a, _) => decide ((a.screen.view.draw 21).map Shown.print = some "<body><p>Hi Ann</p><li>- c</li></body>")
      | .error _ => false) (by decide +kernel)
  split at h2
  · rename_i a' outs hr
    exact ⟨a, a', outs, h1, hr, by simpa using h2⟩
  · cases h2

/-- The condition of C76 is met by its frames. -/
example : List.IsChain ResizedInBoth (wholeFrames ++ [wholeLast]) := by
  simp [wholeFrames, wholeLast, ResizedInBoth]

/-! ## Findings -/

/-- Finding for C73: with a rule `p + p` in the stylesheet a document with two elements in a row is not even opened, if
arithmetic is checked. -/
theorem C73_plus_counterexample : fromHtml wholePlatform 2000 "<html><body><p></p><p></p></body></html>" "p + p{width:1px;}" = .error .panic :=
  openEnd_sound (by decide +kernel)

/-- Finding for C73: opening a document whose template contains itself does not end. -/
theorem C73_self_reference_counterexample (p : Platform) (css : Css) (fuel : Nat) : openApp p fuel selfDoc css = .error .endless := by
  have h := C26_self_reference_diverges (translate := p.translate) (inline := p.inline) (tr := p.transformers) fuel
  rw [openView_error (by simp)] at h
  unfold openApp
  rw [collect_doc]
  simp only
  have : renderView ⟨templateFor selfDoc.children, p.translate, p.inline⟩ fuel (docBody selfDoc) = .error .outOfFuel := by
    unfold renderView
    simp only
    rw [show renderNode ⟨templateFor selfDoc.children, p.translate, p.inline⟩ fuel (docBody selfDoc) _ = _ from h _ rfl]
  rw [this]
  rfl

/-- Finding for C76: the size of the root follows the window only when both of its numbers change: after the window has become
wider, but not higher, the layout is still made for the old width. -/
theorem C76_resize_counterexample : ∃ a a' outs, fromHtml wholePlatform 2000 "<html><body></body></html>" "" = .ok a ∧
    a.run wholePlatform 2000 [⟨orderId, ⟨0, (800, 600), []⟩, .obj []⟩, ⟨orderId, ⟨0, (1000, 600), []⟩, .obj []⟩] = .ok (a', outs) ∧
    ¬ a'.Fills (1000, 600) := by
  obtain ⟨a, h1, h2⟩ := checkApp_sound (p := wholePlatform) (fuel := 2000) (html := "<html><body></body></html>") (css := "")
    (fs := [⟨orderId, ⟨0, (800, 600), []⟩, .obj []⟩, ⟨orderId, ⟨0, (1000, 600), []⟩, .obj []⟩])
    (P := fun r => match r with
      | .ok (a, _) => decide ((a.layouts a.screen.view.root).width = .length 800)
      | .error _ => false) (by decide +kernel)
  split at h2
  · rename_i a' outs hr
    refine ⟨a, a', outs, h1, hr, fun h => ?_⟩
    rw [decide_eq_true_eq] at h2
    rw [h.1] at h2
    cases h2
  · cases h2

end Verif
