import Verif.View.Follow
import Verif.View.Eval
/-!
# C16, C18, C19, C20 for views opened from a document

`b ∈ v0.vm.bindings path` says that the template has registered binding `b` for that path while the
document was opened; `.text n i` is span `i` of text node `n`, `.visibility q c want` is child `c` of
element `q` under `?` (`want = true`) or `!` (`want = false`).
-/
namespace Verif
open Json

variable {inline : String → Option (List Declaration)}

/-! ## C16 -/

/-- C16: opening a document succeeds, or reports an unknown template, or runs out of nesting depth; no
tree operation fails and nothing panics.  The opened view displays a tree inside its template. -/
theorem C16_open (translate : String → String) (tr : Transformers) (fuel : Nat) (document : Html) :
    match openView translate inline tr fuel document with
    | .ok v => v.stage.tree.Wf v.root v.body
    | .error (.tree _) => False
    | .error (.templateNotFound _) => True
    | .error .outOfFuel => True := by
  rcases openView_cases (inline := inline) translate tr fuel document with ⟨v, σ, r, b, h, -, ho⟩ | h | ⟨id, h⟩
  · rw [h]; exact ho.good.wf
  · rw [h]; trivial
  · rw [h]; trivial

/-- A view reached from an opened document by any values at all. -/
inductive Reached (translate : String → String) (inline : String → Option (List Declaration))
    (tr : Transformers) (fuel : Nat) (document : Html) : View → Prop
  | opened {v} : openView translate inline tr fuel document = .ok v → Reached translate inline tr fuel document v
  | updated {v v' value} : Reached translate inline tr fuel document v → v.update inline value = .ok v' →
      Reached translate inline tr fuel document v'

theorem reached_good {translate tr fuel document v} (h : Reached translate inline tr fuel document v) :
    ∃ regs, ViewGood regs v := by
  induction h with
  | opened h =>
    rcases openView_cases (inline := inline) translate tr fuel document with ⟨v, σ, r, b, h', -, ho⟩ | h' | ⟨id, h'⟩
    · rw [h] at h'; injection h' with h'; subst h'; exact ⟨_, ho.good⟩
    · rw [h] at h'; simp at h'
    · rw [h] at h'; simp at h'
  | updated _ hu ih =>
    rename_i v v' value hr
    obtain ⟨regs, hg⟩ := ih
    cases hb : v.vm.bind value with
    | none => unfold View.update at hu; rw [hb] at hu; simp at hu
    | some p =>
      obtain ⟨vm, rs⟩ := p
      obtain ⟨stage, -, h2, h3, -⟩ := viewGood_update (inline := inline) hg value hb
      rw [h2] at hu; injection hu with hu; subst hu
      exact ⟨regs, h3⟩

/-- C16: after any updates with any values the displayed tree is a tree inside the template, and the
next update fails only if binding the value itself panics (C07). -/
theorem C16_update {translate tr fuel document v} (h : Reached translate inline tr fuel document v) :
    v.stage.tree.Wf v.root v.body ∧
    ∀ value, match v.update inline value with
      | .ok v' => v'.stage.tree.Wf v'.root v'.body
      | .error _ => v.vm.bind value = none := by
  obtain ⟨regs, hg⟩ := reached_good h
  refine ⟨hg.wf, fun value => ?_⟩
  cases hb : v.vm.bind value with
  | none => unfold View.update; rw [hb]
  | some p =>
    obtain ⟨vm, rs⟩ := p
    obtain ⟨stage, -, h2, h3, -⟩ := viewGood_update (inline := inline) hg value hb
    rw [h2]; exact h3.wf

/-- A fitting view satisfies the invariant of `Verif.View.Follow`. -/
theorem fitting_follows {translate tr fuel document s vs v0 v}
    (h : FittingView translate inline tr fuel document s vs v0 v) :
    ∃ σ : Render, v0.vm.bindings = lookupRegs σ.regs ∧ Follows s σ tr vs.reverse v := by
  rcases openView_cases (inline := inline) translate tr fuel document with ⟨v1, σ, r, b, h', -, ho⟩ | h' | ⟨id, h'⟩
  · rw [h.opened] at h'; injection h' with h'; subst h'
    obtain ⟨v', h1, h2⟩ := follows_updates (inline := inline) (follows_open ho h.shapeOk h.noArrArr h.blank) vs h.fits
    rw [h.reached] at h1; injection h1 with h1; subst h1
    exact ⟨σ, ho.good.bindings, by simpa using h2⟩
  · rw [h.opened] at h'; simp at h'
  · rw [h.opened] at h'; simp at h'

/-- C16, C07: updates with values that fit the shape of the template always succeed. -/
theorem C16_fitting_updates_succeed {translate tr fuel document s} {v0 : View} {vs : List Json}
    (ho : openView translate inline tr fuel document = .ok v0) (hok : s.Ok) (hno : s.NoArrArr)
    (hs : HasShape s v0.vm.model) (hf : ∀ w ∈ vs, Fits s w) :
    ∃ v, FittingView translate inline tr fuel document s vs v0 v := by
  rcases openView_cases (inline := inline) translate tr fuel document with ⟨v1, σ, r, b, h', -, h1⟩ | h' | ⟨id, h'⟩
  · rw [ho] at h'; injection h' with h'; subst h'
    obtain ⟨v', h2, -⟩ := follows_updates (inline := inline) (follows_open h1 hok hno hs) vs hf
    exact ⟨v', ho, hok, hno, hs, hf, h2⟩
  · rw [ho] at h'; simp at h'
  · rw [ho] at h'; simp at h'

/-! ## C18 -/

/-- C18: after any fitting updates the last of which is `w`, a text span bound to a scalar place of the
template whose current value is `x`, not null, shows the text of `x` after the pipe. -/
theorem C18_text_shows_value {translate tr fuel document s vs w v0 v}
    (h : FittingView translate inline tr fuel document s (vs ++ [w]) v0 v)
    {p : List Tok} {b : Binding} (hb : b ∈ v0.vm.bindings (ptr p)) {n : NodeId} {i : Nat}
    (hp : b.params = .text n i) {x : Json} (hx : s.read w p = some (.leaf, x)) (hne : x ≠ .null) :
    v.spanText n i = some (applyPipe tr b.pipe x).evalString := by
  obtain ⟨σ, h1, h2⟩ := fitting_follows h
  rw [h1] at hb
  have hset : Settled s p False (vs ++ [w]).reverse := by
    simp only [List.reverse_append, List.reverse_singleton, List.singleton_append, Settled]
    exact ⟨x, hx, .inl hne⟩
  exact h2.text _ (mem_lookupRegs.1 hb) n i hp p rfl hset x (by simp [current, hx])

/-! ## C19 -/

/-- C19 (part): a text span bound to a scalar place that is null now shows the text of null after the
pipe (the empty text without a pipe), provided the place was not null at some earlier update since when
it has existed without interruption.
Missing: before the first non-null value, and after the place (an item of an array) disappeared and
came back, where the old text stays: `C19_placeholder_stays`, `C19_stale_after_regrow`. -/
theorem C19_null_text_partial {translate tr fuel document s vs v0 v}
    (h : FittingView translate inline tr fuel document s vs v0 v)
    {p : List Tok} {b : Binding} (hb : b ∈ v0.vm.bindings (ptr p)) {n : NodeId} {i : Nat}
    (hp : b.params = .text n i) (hset : Settled s p False vs.reverse) (hnull : current s p vs.reverse = some .null) :
    v.spanText n i = some (applyPipe tr b.pipe .null).evalString ∧
    (b.pipe = [] → v.spanText n i = some "") := by
  obtain ⟨σ, h1, h2⟩ := fitting_follows h
  rw [h1] at hb
  have := h2.text _ (mem_lookupRegs.1 hb) n i hp p rfl hset .null hnull
  refine ⟨this, fun hpipe => ?_⟩
  rw [this, hpipe]
  rfl

/-! ## C20 -/

/-- C20: after any fitting updates the last of which is `w`, an element conditioned by `?` or `!` on a
scalar place whose current value is `x`, not null, is displayed exactly when `x` after the pipe is
truthy (`?`) or falsy (`!`). -/
theorem C20_condition_not_null {translate tr fuel document s vs w v0 v}
    (h : FittingView translate inline tr fuel document s (vs ++ [w]) v0 v)
    {p : List Tok} {b : Binding} (hb : b ∈ v0.vm.bindings (ptr p)) {q c : NodeId} {want : Bool}
    (hp : b.params = .visibility q c want) {x : Json} (hx : s.read w p = some (.leaf, x)) (hne : x ≠ .null) :
    v.displays q c ↔ (applyPipe tr b.pipe x).evalBoolean = want := by
  obtain ⟨σ, h1, h2⟩ := fitting_follows h
  rw [h1] at hb
  have hset : Settled s p (want = true ∧ b.pipe = []) (vs ++ [w]).reverse := by
    simp only [List.reverse_append, List.reverse_singleton, List.singleton_append, Settled]
    exact ⟨x, hx, .inl hne⟩
  exact h2.vis _ (mem_lookupRegs.1 hb) q c want hp p rfl hset x (by simp [current, hx])

/-- C20 (part): the same for a place that may be null, provided it has existed without interruption since
it was not null, or for a `?` without pipe since the beginning.
Missing: a `!` on a place that was never set (`C20_not_stays_hidden`), and places that disappeared and
came back (`C20_stale_after_regrow`). -/
theorem C20_condition_partial {translate tr fuel document s vs v0 v}
    (h : FittingView translate inline tr fuel document s vs v0 v)
    {p : List Tok} {b : Binding} (hb : b ∈ v0.vm.bindings (ptr p)) {q c : NodeId} {want : Bool}
    (hp : b.params = .visibility q c want) {x : Json} (hx : current s p vs.reverse = some x)
    (hset : Settled s p (want = true ∧ b.pipe = []) vs.reverse) :
    v.displays q c ↔ (applyPipe tr b.pipe x).evalBoolean = want := by
  obtain ⟨σ, h1, h2⟩ := fitting_follows h
  rw [h1] at hb
  exact h2.vis _ (mem_lookupRegs.1 hb) q c want hp p rfl hset x hx

/-! ## Concrete documents -/

/-- An expression without pipe. -/
def path1 (s : String) : Binder := ⟨s, [], []⟩

/-- `<body><p>Hello {name}</p><div ?="{flag}"/><div !="{flag}"/>
<ul><li *x="2 {xs}">{x.t}<b ?="{x.f}"/></li></ul></body>`; nodes: 1 body, 2 p, 3 its text, 4 and 5 the divs,
6 ul, 7 and 10 li, 8 and 11 their texts, 9 and 12 the b. -/
def liveDoc : Html := .mk "" [] none [.mk "body" [] none [
   .mk "p" [] none [.mk "" [] (some [.string "Hello ", .binder (path1 "name")]) []],
   .mk "div" [.visibility true (path1 "flag")] none [],
   .mk "div" [.visibility false (path1 "flag")] none [],
   .mk "ul" [] none [.mk "li" [.repeat "x" 2 (path1 "xs")] none
     [.mk "" [] (some [.binder ⟨"x", ["t"], []⟩]) [], .mk "b" [.visibility true ⟨"x", ["f"], []⟩] none []]]]]

def liveShape : Shape := .obj [("flag", .leaf), ("name", .leaf), ("xs", .arr (.obj [("f", .leaf), ("t", .leaf)]))]

def liveBlank : Json := .obj [("flag", .null), ("name", .null),
  ("xs", .arr [.obj [("f", .null), ("t", .null)], .obj [("f", .null), ("t", .null)]])]

theorem liveShape_ok : liveShape.Ok ∧ liveShape.NoArrArr ∧ HasShape liveShape liveBlank := by
  refine ⟨?_, ?_, ?_⟩
  · simp [liveShape, Shape.Ok, Shape.OkFields, SlashFree]
  · simp [liveShape, Shape.NoArrArr, Shape.NoArrArrFields]
  · simp [liveShape, liveBlank, HasShape, HasFields, Scalar]

theorem live_view {vs : List Json} {P : View → Bool} (h : checkView liveDoc vs liveBlank P = true)
    (hf : ∀ w ∈ vs, Fits liveShape w) :
    ∃ v0 v, FittingView id (fun _ => none) (fun _ => none) 20 liveDoc liveShape vs v0 v ∧ P v = true := by
  obtain ⟨v0, v, h1, h2, h3, h4⟩ := checkView_sound h
  exact ⟨v0, v, ⟨h1, liveShape_ok.1, liveShape_ok.2.1, h2 ▸ liveShape_ok.2.2, hf, h3⟩, h4⟩

/-- A value with a name, a flag and one item. -/
def liveValue : Json := .obj [("name", .str "Bob"), ("flag", .bool true),
  ("xs", .arr [.obj [("t", .str "u"), ("f", .bool true)]])]

theorem liveValue_fits : Fits liveShape liveValue := by
  simp [liveValue, liveShape, Fits, FitsFields, member, Json.get, Scalar]

/-- The hypotheses of the theorems above are met: a document, a shape and two updates, with a text
binding on `/xs/0/t` and a condition on `/flag`, both not null. -/
example : ∃ v0 v, FittingView id (fun _ => none) (fun _ => none) 20 liveDoc liveShape ([.obj []] ++ [liveValue]) v0 v ∧
    ⟨.text 8 0, []⟩ ∈ v0.vm.bindings (ptr [.key "xs", .idx 0, .key "t"]) ∧
    ⟨.visibility 1 5 false, []⟩ ∈ v0.vm.bindings (ptr [.key "flag"]) ∧
    liveShape.read liveValue [.key "xs", .idx 0, .key "t"] = some (.leaf, .str "u") ∧
    liveShape.read liveValue [.key "flag"] = some (.leaf, .bool true) ∧
    v.spanText 8 0 = some "u" ∧ v.stage.tree.kids 1 = [2, 4, 6] := by
  obtain ⟨v0, v, h, hp⟩ := live_view (vs := [.obj []] ++ [liveValue])
    (P := fun v => decide (⟨.text 8 0, []⟩ ∈ v.vm.bindings "/xs/0/t" ∧
      ⟨.visibility 1 5 false, []⟩ ∈ v.vm.bindings "/flag" ∧
      v.spanText 8 0 = some "u" ∧ v.stage.tree.kids 1 = [2, 4, 6])) (by decide +kernel)
    (by
      simp only [List.singleton_append, List.mem_cons, List.not_mem_nil, or_false, forall_eq_or_imp, forall_eq]
      refine ⟨?_, liveValue_fits⟩
      simp [liveShape, Fits, FitsFields, member, Json.get, Scalar])
  simp only [decide_eq_true_eq] at hp
  obtain ⟨σ, h1, h2⟩ := fitting_follows h
  rw [h2.good.bindings, ← h1] at hp
  refine ⟨v0, v, h, ?_, ?_, rfl, rfl, hp.2.2.1, hp.2.2.2⟩
  · exact hp.1
  · exact hp.2.1

/-- The history of `C19_null_text_partial` and `C20_condition_partial`: set, then null. -/
example : Settled liveShape [.key "name"] False [.obj [], liveValue] ∧
    current liveShape [.key "name"] [.obj [], liveValue] = some .null ∧
    Settled liveShape [.key "flag"] (true = true ∧ ([] : List String) = []) [.obj []] := by
  refine ⟨⟨.null, rfl, .inr ⟨.str "Bob", rfl, .inl (by simp)⟩⟩, rfl, ⟨.null, rfl, .inr ⟨rfl, rfl⟩⟩⟩

/-- Finding for C19: a span bound to a place that is null from the beginning shows its source text, not
the empty text, whatever number of times null is bound. -/
theorem C19_placeholder_stays : ∃ v0 v,
    FittingView id (fun _ => none) (fun _ => none) 20 liveDoc liveShape [.obj [], .obj []] v0 v ∧
    liveShape.read (.obj []) [.key "name"] = some (.leaf, .null) ∧ v.spanText 3 1 = some "{ name }" := by
  obtain ⟨v0, v, h, hp⟩ := live_view (vs := [.obj [], .obj []])
    (P := fun v => decide (v.spanText 3 1 = some "{ name }")) (by decide +kernel)
    (by simp [liveShape, Fits, FitsFields, member, Json.get, Scalar])
  exact ⟨v0, v, h, rfl, by simpa using hp⟩

/-- Two updates after `liveValue`: no item, then one item whose fields are null. -/
def regrow : List Json := [liveValue, .obj [("xs", .arr [])], .obj [("xs", .arr [.obj []])]]

theorem regrow_fits : ∀ w ∈ regrow, Fits liveShape w := by
  simp only [regrow, List.mem_cons, List.not_mem_nil, or_false, forall_eq_or_imp, forall_eq]
  refine ⟨liveValue_fits, ?_, ?_⟩ <;> simp [liveShape, Fits, FitsFields, member, Json.get, Scalar]

/-- Finding for C19: an item that disappears and comes back with a null field shows the text of the item
that was there before. -/
theorem C19_stale_after_regrow : ∃ v0 v,
    FittingView id (fun _ => none) (fun _ => none) 20 liveDoc liveShape regrow v0 v ∧
    current liveShape [.key "xs", .idx 0, .key "t"] regrow.reverse = some .null ∧
    v.spanText 8 0 = some "u" ∧ v.displays 6 7 := by
  obtain ⟨v0, v, h, hp⟩ := live_view (vs := regrow)
    (P := fun v => decide (v.spanText 8 0 = some "u" ∧ 7 ∈ v.stage.tree.kids 6)) (by decide +kernel) regrow_fits
  simp only [decide_eq_true_eq] at hp
  exact ⟨v0, v, h, rfl, hp.1, hp.2⟩

/-- Finding for C20: an element under `!` on a place that is null from the beginning is never shown,
although null is falsy. -/
theorem C20_not_stays_hidden : ∃ v0 v,
    FittingView id (fun _ => none) (fun _ => none) 20 liveDoc liveShape [.obj [], .obj []] v0 v ∧
    ⟨.visibility 1 5 false, []⟩ ∈ v.vm.bindings "/flag" ∧
    current liveShape [.key "flag"] [.obj [], .obj []] = some .null ∧ ¬ v.displays 1 5 := by
  obtain ⟨v0, v, h, hp⟩ := live_view (vs := [.obj [], .obj []])
    (P := fun v => decide (⟨.visibility 1 5 false, []⟩ ∈ v.vm.bindings "/flag" ∧ 5 ∉ v.stage.tree.kids 1))
    (by decide +kernel) (by simp [liveShape, Fits, FitsFields, member, Json.get, Scalar])
  simp only [decide_eq_true_eq] at hp
  exact ⟨v0, v, h, hp.1, rfl, hp.2⟩

/-- Finding for C20: an element under `?` in an item that disappears and comes back with the condition
null is still shown. -/
theorem C20_stale_after_regrow : ∃ v0 v,
    FittingView id (fun _ => none) (fun _ => none) 20 liveDoc liveShape regrow v0 v ∧
    ⟨.visibility 7 9 true, []⟩ ∈ v.vm.bindings "/xs/0/f" ∧
    current liveShape [.key "xs", .idx 0, .key "f"] regrow.reverse = some .null ∧ v.displays 7 9 := by
  obtain ⟨v0, v, h, hp⟩ := live_view (vs := regrow)
    (P := fun v => decide (⟨.visibility 7 9 true, []⟩ ∈ v.vm.bindings "/xs/0/f" ∧ 9 ∈ v.stage.tree.kids 7))
    (by decide +kernel) regrow_fits
  simp only [decide_eq_true_eq] at hp
  exact ⟨v0, v, h, hp.1, rfl, hp.2⟩

end Verif
