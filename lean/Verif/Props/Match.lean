import Verif.View.Classify
import Verif.View.Eval
import Verif.Props.Render
/-!
# C39-C42: selectors and the rules of an element

`matchStyle`, `matchComplex` are the crate's matching; `Selector.Matches` (`Verif.Spec.Css`) is what CSS
says.  `checks` is whether the build has overflow checks, `pc` are the states behind pseudo classes.
-/
namespace Verif

variable {translate : String → String} {inline : String → Option (List Declaration)} {tr : Transformers}

/-! ## C39 -/

/-- C39 (part): in every view and for every node, a selector of compounds joined by `>` matches exactly
when CSS says so, and matching never panics.  Missing: `:root`, `[a|=v]`, empty values and white space
other than the space, see `C39_dash_match`, `C39_tab_separates`, `C39_empty_value`, `C39_root_never`. -/
theorem C39_child_selectors_partial {checks pc fuel document} {v : View}
    (hv : Reached translate inline tr fuel document v) (sel : Selector)
    (hp : ∀ parts ∈ sel.compounds, ∀ s ∈ parts, s.PlainIn v.stage.tree)
    (hf : ∀ parts ∈ sel.compounds, ∀ s ∈ parts, s.Faithful) (hc : ∀ c ∈ sel.combinators, c = '>')
    (n : NodeId) (hn : (v.stage.tree.ctx n).isSome) :
    ∃ b, matchComplex checks pc v.stage.tree sel.written n = .ok b ∧ (b = true ↔ sel.Matches pc v.stage.tree n) := by
  obtain ⟨regs, h⟩ := reached_good hv
  exact matchComplex_child h.wf sel hp hf hc n hn

/-- C39 (part): a rule matches exactly when one of its selectors does. -/
theorem C39_rules_partial {checks pc fuel document} {v : View}
    (hv : Reached translate inline tr fuel document v) (sels : List Selector)
    (hp : ∀ sel ∈ sels, ∀ parts ∈ sel.compounds, ∀ s ∈ parts, s.PlainIn v.stage.tree)
    (hf : ∀ sel ∈ sels, ∀ parts ∈ sel.compounds, ∀ s ∈ parts, s.Faithful)
    (hc : ∀ sel ∈ sels, ∀ c ∈ sel.combinators, c = '>')
    (n : NodeId) (hn : (v.stage.tree.ctx n).isSome) (decls : List Declaration) :
    ∃ b, matchStyle checks pc v.stage.tree ⟨sels.map Selector.written, decls⟩ n = .ok b ∧
      (b = true ↔ ∃ sel ∈ sels, sel.Matches pc v.stage.tree n) := by
  obtain ⟨regs, h⟩ := reached_good hv
  unfold matchStyle
  simp only
  induction sels with
  | nil => exact ⟨false, rfl, by simp⟩
  | cons s l ih =>
    obtain ⟨b, h1, h2⟩ := matchComplex_child (checks := checks) (pc := pc) h.wf s (hp s (by simp)) (hf s (by simp)) (hc s (by simp)) n hn
    simp only [List.map_cons, matchAny, h1]
    cases b with
    | true => exact ⟨true, rfl, by simp [h2.1 rfl]⟩
    | false =>
      obtain ⟨b, g1, g2⟩ := ih (fun x hx => hp x (by simp [hx])) (fun x hx => hf x (by simp [hx])) (fun x hx => hc x (by simp [hx]))
      have hn : ¬ s.Matches pc v.stage.tree n := fun hp => by simpa using h2.2 hp
      exact ⟨b, g1, by simp [g2, hn]⟩

/-- C39: the pseudo classes of a view are `:hover`, `:active`, `:checked` and `:focus`, each for its own
state. -/
theorem C39_pseudo_classes (e : Element) (name : String) : viewPseudo e name = true ↔ InState e name := by
  constructor
  · intro h
    unfold viewPseudo at h
    split at h
    · subst_vars; exact .hover h
    split at h
    · subst_vars; exact .active h
    split at h
    · subst_vars; exact .checked h
    split at h
    · subst_vars; exact .focus h
    cases h
  · rintro (h | h | h | h) <;> simp [viewPseudo, h]

/-- `C39_pseudo_classes` is not about the empty set: a checked element is in the state `checked` only. -/
theorem C39_pseudo_classes_witness : InState { node := 0, tag := "input", state := { checked := true } } "checked" ∧
    ¬ InState { node := 0, tag := "input", state := { checked := true } } "focus" := by
  constructor
  · exact .checked rfl
  · rw [← C39_pseudo_classes]; decide

/-- The element `<a lang="en-US" class="x⇥y"/>`. -/
def langElem : Element := { node := 0, tag := "a", attrs := fun k => if k = "lang" then some "en-US" else if k = "class" then some "x\ty" else none }

/-- Finding for C39: `[lang|=en]` should match `lang="en-US"` and does not; it matches `lang="-en"`, which
it should not. -/
theorem C39_dash_match : AttrHolds "en-US" "en" .dashMatch ∧ matchAttr "en-US" .dashMatch "en" = false ∧
    ¬ AttrHolds "-en" "en" .dashMatch ∧ matchAttr "-en" .dashMatch "en" = true := by
  refine ⟨.inr ⟨"US", by decide⟩, by decide, ?_, by decide⟩
  rintro (h | ⟨r, h⟩)
  · revert h; decide
  · have := congrArg String.toList h
    simp at this

/-- Finding for C39: classes separated by a tab are one class to the crate. -/
theorem C39_tab_separates : IsWord "x\ty" "x" ∧ matchSimple viewPseudo langElem (.class "x") = false := by
  refine ⟨⟨by decide, ?_, [], "\ty".toList, by decide, .inl rfl, .inr ⟨'\t', ['y'], by decide, .inr (.inl rfl)⟩⟩,
    by decide⟩
  intro c hc
  simp only [show ("x" : String).toList = ['x'] by decide, List.mem_singleton] at hc
  subst hc; unfold CssSpace; decide

/-- Finding for C39: an empty value matches everything where CSS says nothing. -/
theorem C39_empty_value (attr : String) : (∀ m, m = .prefix ∨ m = .substring ∨ m = .suffix → matchAttr attr m "" = true)
    ∧ (∀ m, m = .prefix ∨ m = .substring ∨ m = .suffix → ¬ AttrHolds attr "" m) := by
  constructor
  · rintro m (rfl | rfl | rfl) <;> simp [matchAttr]
  · rintro m (rfl | rfl | rfl) <;> simp [AttrHolds]

/-- Finding for C39: `:root` matches only an element whose tag is the text `:root`; the root of a view
has the empty tag. -/
theorem C39_root_never {pc} (e : Element) : matchSimple pc e .root = true ↔ e.tag = ":root" := by
  simp [matchSimple]

/-! ## C40 -/

/-- C40 (part): a first child never matches `a + b`, as CSS says. -/
theorem C40_first_child_partial {checks pc fuel document} {v : View}
    (hv : Reached translate inline tr fuel document v) (left : Selector) (parts : List Simple)
    (hparts : ∀ s ∈ parts, s.isPart = true) {p n : NodeId} (hn : (v.stage.tree.kids p)[0]? = some n) :
    matchComplex checks pc v.stage.tree (Selector.combine left '+' parts).written n = .ok false ∧
      ¬ (Selector.combine left '+' parts).Matches pc v.stage.tree n := by
  obtain ⟨regs, h⟩ := reached_good hv
  have hw := h.wf
  obtain ⟨e, he⟩ := Option.isSome_iff_exists.1 (hw.slotsYounger p n (hw.sub p n (List.mem_of_getElem? hn))).2.2
  constructor
  · rw [matchComplex_combine left _ parts hparts he, nextTarget_plus hw hn]
    simp
  · simp only [Selector.Matches, show ('+' : Char) ≠ '>' by decide, if_false, if_true]
    rintro ⟨-, m, ⟨q, pre, post, hq, hk⟩, -⟩
    have hpar := (hw.link p n).1 (List.mem_of_getElem? hn)
    rw [hpar] at hq; injection hq with hq; subst hq
    have hnd := hw.nodup p
    rw [hk] at hn hnd
    cases pre with
    | nil =>
      simp only [List.nil_append, List.getElem?_cons_zero, Option.some.injEq] at hn
      subst hn; simp at hnd
    | cons a pre =>
      simp only [List.cons_append, List.getElem?_cons_zero, Option.some.injEq] at hn
      subst hn; simp at hnd

/-- Finding for C40: if the last compound holds for a second child, matching `a + b` panics in a build with
overflow checks, and is false without them. -/
theorem C40_second_child {checks pc fuel document} {v : View}
    (hv : Reached translate inline tr fuel document v) (left : Selector) (parts : List Simple)
    (hparts : ∀ s ∈ parts, s.isPart = true) {p n : NodeId} {e : Element} (hn : (v.stage.tree.kids p)[1]? = some n)
    (he : v.stage.tree.ctx n = some e) (hm : ∀ s ∈ parts, matchSimple pc e s = true) :
    matchComplex checks pc v.stage.tree (Selector.combine left '+' parts).written n =
      if checks then .error .panic else .ok false := by
  obtain ⟨regs, h⟩ := reached_good hv
  rw [matchComplex_combine left _ parts hparts he, nextTarget_plus h.wf hn,
    if_pos (List.all_eq_true.2 hm)]
  cases checks <;> simp

/-- Finding for C40: for a later child it is the sibling two places back that has to match. -/
theorem C40_two_back {checks pc fuel document} {v : View}
    (hv : Reached translate inline tr fuel document v) (left : Selector) (parts : List Simple)
    (hparts : ∀ s ∈ parts, s.isPart = true) {p n m : NodeId} {i : Nat} {e : Element}
    (hn : (v.stage.tree.kids p)[i + 2]? = some n) (hm : (v.stage.tree.kids p)[i]? = some m)
    (he : v.stage.tree.ctx n = some e) :
    matchComplex checks pc v.stage.tree (Selector.combine left '+' parts).written n =
      if parts.all (matchSimple pc e) then matchComplex checks pc v.stage.tree left.written m else .ok false := by
  obtain ⟨regs, h⟩ := reached_good hv
  rw [matchComplex_combine left _ parts hparts he, nextTarget_plus h.wf hn]
  simp [hm]

/-- `<body><a/><b/><c/></body>`: nodes 2, 3 and 4. -/
def siblingsDoc : Html := .mk "" [] none [.mk "body" [] none [.mk "a" [] none [], .mk "b" [] none [], .mk "c" [] none []]]

/-- Finding for C40, concretely: `a + c` matches `<c/>` in `<a/><b/><c/>` and `b + c` does not; without
overflow checks `a + b` does not match `<b/>`, with them matching panics. -/
theorem C40_counterexample : ∃ v, openView id (fun _ => none) (fun _ => none) 9 siblingsDoc = .ok v ∧
    v.stage.tree.kids 1 = [2, 3, 4] ∧
    matchComplex true viewPseudo v.stage.tree [.type "a", .combinator '+', .type "c"] 4 = .ok true ∧
    matchComplex true viewPseudo v.stage.tree [.type "b", .combinator '+', .type "c"] 4 = .ok false ∧
    matchComplex true viewPseudo v.stage.tree [.type "a", .combinator '+', .type "b"] 3 = .error .panic ∧
    matchComplex false viewPseudo v.stage.tree [.type "a", .combinator '+', .type "b"] 3 = .ok false := by
  obtain ⟨v, h1, h2⟩ := opensWith_sound (doc := siblingsDoc) (P := fun v => decide (
    v.stage.tree.kids 1 = [2, 3, 4] ∧
    matchComplex true viewPseudo v.stage.tree [.type "a", .combinator '+', .type "c"] 4 = .ok true ∧
    matchComplex true viewPseudo v.stage.tree [.type "b", .combinator '+', .type "c"] 4 = .ok false ∧
    matchComplex true viewPseudo v.stage.tree [.type "a", .combinator '+', .type "b"] 3 = .error .panic ∧
    matchComplex false viewPseudo v.stage.tree [.type "a", .combinator '+', .type "b"] 3 = .ok false))
    (by decide +kernel)
  exact ⟨v, h1, by simpa using h2⟩

/-! ## C41 -/

/-- C41: a selector with a combinator other than `>` and `+` (so the descendant and the general sibling
combinator) matches no node of any tree. -/
theorem C41_unsupported_never_match {checks pc} (t : Tree) (sel : Complex) (c : Char) (hc : .combinator c ∈ sel)
    (h1 : c ≠ '>') (h2 : c ≠ '+') (n : NodeId) : matchComplex checks pc t sel n ≠ .ok true := by
  unfold matchComplex
  split
  · simp
  · exact matchLoop_unsupported h1 h2 _ (by simpa using hc) _ _

/-- C41 in a view: a rule all of whose selectors have a descendant or general sibling combinator is false
for every node of every view; matching does not panic if there is no `+`. -/
theorem C41_rule_never_matches {checks pc fuel document} {v : View}
    (hv : Reached translate inline tr fuel document v) (s : Style)
    (hc : ∀ sel ∈ s.selectors, .combinator ' ' ∈ sel ∨ .combinator '~' ∈ sel) (hplus : s.NoPlus)
    (n : NodeId) (hn : (v.stage.tree.ctx n).isSome) : matchStyle checks pc v.stage.tree s n = .ok false := by
  obtain ⟨regs, h⟩ := reached_good hv
  obtain ⟨b, h1, h2⟩ := matchAny_total (checks := checks) (pc := pc) h.wf hn s.selectors hplus
  cases b with
  | false => exact h1
  | true =>
    obtain ⟨c, hc', hm⟩ := h2.1 rfl
    rcases hc c hc' with hx | hx
    · exact absurd hm (C41_unsupported_never_match _ c _ hx (by decide) (by decide) n)
    · exact absurd hm (C41_unsupported_never_match _ c _ hx (by decide) (by decide) n)

/-! ## C42 -/

theorem displayed_par {σ : Render} {v : View} {root : NodeId} {env fuel h}
    (hok : renderView env fuel h = .ok (root, v.body, σ)) (hroot : v.root = root) (hk : Kept σ v)
    {m : NodeId} (hm : Displayed v.stage.tree root m) :
    v.stage.tree.par m = σ.tree.par m := by
  subst hroot
  have hv := renderView_ok hok
  have hf := C27_fresh_tree hok
  have hroot : ∀ t : Tree, t.Wf v.root v.body → t.par v.root = none := by
    intro t ht
    cases hp : t.par v.root with
    | none => rfl
    | some p =>
      have := (ht.slotsYounger p _ (ht.sub p _ ((ht.link p _).2 hp))).1
      rw [hv.rootIs] at this; exact absurd this (Nat.not_lt_zero _)
  cases hm with
  | root => rw [hroot _ hv.wf, hroot _ hk.good.wf]
  | child hd hc =>
    rename_i p
    rw [(hk.good.wf.link p m).1 hc]
    have hs := hk.good.wf.sub p m hc
    symm
    apply (hv.wf.link p m).1
    by_cases hp : p = v.root
    · subst hp; simp [Tree.slots] at hs; rw [hf.2.2.1]; simp [hs]
    · rw [hv.allShown p hp]
      rw [Tree.slots, if_neg hp] at hs ⊢
      cases he : v.stage.tree.ctx p with
      | none => rw [he] at hs; simp at hs
      | some e =>
        rw [he] at hs
        obtain ⟨e', h1, h2, -⟩ := hk.defs.symm.ctx he
        rw [h1]; simpa [h2] using hs

/-- `C42_rules_exact_partial` for any tree that keeps what rendering made of the document. -/
theorem kept_rules_exact {checks pc fuel document} {v : View} {σ : Render} (hk : Kept σ v) (rules : List Style) (hplus : ∀ s ∈ rules, s.NoPlus)
    {n : NodeId} (hn : Displayed v.stage.tree v.root n)
    (htag : ∀ path b, b ∈ v.vm.bindings path → b.params ≠ .tag n "class" ∧ b.params ≠ .tag n "id")
    (hup : ∀ s ∈ rules, s.HasChild → ∀ m, Ancestor v.stage.tree m n → ∀ k, BindsAttr v.vm.bindings m k → ¬ s.Tests k)
    (hσ : renderView (docEnv translate inline document) fuel (docBody document) = .ok (v.root, v.body, σ)) :
    ∃ e0 l, σ.tree.ctx n = some e0 ∧ classify checks σ.tree n e0 rules = .ok l ∧
      applied checks pc v.stage.tree n l = .ok (rules.filter (matchesNow checks pc v.stage.tree n)) := by
  have hr := renderView_ok hσ
  have hb := hk.good.bindings
  have hexist : ∀ m, Displayed v.stage.tree v.root m → ∃ e, σ.tree.ctx m = some e := by
    intro m hm
    have h1 : (v.stage.tree.ctx m).isSome := by
      cases hm with
      | root => exact hk.good.wf.rootExists
      | child hd hc => exact (hk.good.wf.slotsYounger _ _ (hk.good.wf.sub _ _ hc)).2.2
    obtain ⟨e, he⟩ := Option.isSome_iff_exists.1 h1
    obtain ⟨e', h', -⟩ := hk.defs.symm.ctx he
    exact ⟨e', h'⟩
  have hrootpar : v.stage.tree.par v.root = none := by
    rw [displayed_par hσ rfl hk .root]
    cases hp : σ.tree.par v.root with
    | none => rfl
    | some p =>
      have := (hr.wf.slotsYounger p _ (hr.wf.sub p _ ((hr.wf.link p _).2 hp))).1
      rw [hr.rootIs] at this; exact absurd this (Nat.not_lt_zero _)
  obtain ⟨e0, he0⟩ := hexist n hn
  obtain ⟨l, h1, h2⟩ := classify_exact (checks := checks) (t0 := σ.tree) (t := v.stage.tree) hr.wf hk.good.wf he0
    (by obtain ⟨e', h', -⟩ := hk.attrs n e0 he0; rw [h']; rfl) pc rules hplus (by
    intro s hs hst
    refine ⟨fun m => m = n ∨ (s.HasChild ∧ Ancestor v.stage.tree m n), .inl rfl, ?_, ?_, ?_⟩
    · rintro m (rfl | ⟨-, ha⟩)
      · exact displayed_par hσ rfl hk hn
      · exact displayed_par hσ rfl hk (hn.ancestor hk.good.wf hrootpar ha)
    · rintro m p ⟨c, hc, hx⟩ hm hp
      have hch : s.HasChild := ⟨c, hc, hx⟩
      rcases hm with rfl | ⟨-, ha⟩
      · rw [← displayed_par hσ rfl hk hn] at hp
        exact .inr ⟨hch, .parent hp⟩
      · rw [← displayed_par hσ rfl hk (hn.ancestor hk.good.wf hrootpar ha)] at hp
        exact .inr ⟨hch, ha.up hp⟩
    · intro m hm
      have hd : Displayed v.stage.tree v.root m := by
        rcases hm with rfl | ⟨-, ha⟩
        · exact hn
        · exact hn.ancestor hk.good.wf hrootpar ha
      obtain ⟨e, he⟩ := hexist m hd
      obtain ⟨e', h', hattr⟩ := hk.attrs m e he
      obtain ⟨e'', h'', -, htag', -⟩ := hk.defs.ctx he
      rw [h'] at h''; injection h'' with h''; subst h''
      refine ⟨e, e', he, h', htag', ?_⟩
      rintro x ⟨c, hc, hx⟩ k hxk
      have hT : s.Tests k := ⟨c, hc, x, hx, by cases x <;> exact hxk⟩
      apply hattr
      intro hbind
      rcases hm with rfl | ⟨hch, ha⟩
      · rw [he] at he0; injection he0 with he0; subst he0
        obtain ⟨path, b, hbm, hcase⟩ := hbind
        obtain ⟨hok, -⟩ := hr.bindings _ (mem_lookupRegs.1 hbm)
        refine isStatic_tests hst (k := k) ?_ hT
        unfold BindOk at hok
        rcases hcase with hcase | ⟨i, hcase⟩
        · rw [hcase] at hok
          obtain ⟨e1, g1, g2⟩ := hok
          rw [he] at g1; injection g1 with g1; subst g1
          obtain ⟨t1, t2⟩ := htag path b (by rw [hb]; exact hbm)
          exact .inr ⟨g2, fun hh => t1 (by rw [hcase, hh]), fun hh => t2 (by rw [hcase, hh])⟩
        · rw [hcase] at hok
          obtain ⟨e1, g1, -, g2⟩ := hok
          rw [he] at g1; injection g1 with g1; subst g1
          exact .inl g2
      · exact hup s hs hch m ha k (by rw [hb]; exact hbind) hT)
  exact ⟨e0, l, he0, h1, h2⟩

/-- C42 (part): in every view, whatever the updates and whatever the states behind pseudo classes, the
rules kept for a displayed element when the document was opened, filtered as the crate does, are exactly
the rules of the stylesheet that match it now, in stylesheet order.  Missing: rules with `+`
(`C40_counterexample`), a `#class` or `#id` on the element (`C42_tag_class`), and rules with `>` that test
an attribute bound on an ancestor (`C42_dynamic_parent`). -/
theorem C42_rules_exact_partial {checks pc fuel document} {v : View}
    (hv : Reached translate inline tr fuel document v) (rules : List Style) (hplus : ∀ s ∈ rules, s.NoPlus)
    {n : NodeId} (hn : Displayed v.stage.tree v.root n)
    (htag : ∀ path b, b ∈ v.vm.bindings path → b.params ≠ .tag n "class" ∧ b.params ≠ .tag n "id")
    (hup : ∀ s ∈ rules, s.HasChild → ∀ m, Ancestor v.stage.tree m n → ∀ k, BindsAttr v.vm.bindings m k → ¬ s.Tests k)
    {σ : Render} (hσ : renderView (docEnv translate inline document) fuel (docBody document) = .ok (v.root, v.body, σ)) :
    ∃ e0 l, σ.tree.ctx n = some e0 ∧ classify checks σ.tree n e0 rules = .ok l ∧
      applied checks pc v.stage.tree n l = .ok (rules.filter (matchesNow checks pc v.stage.tree n)) := by
  obtain ⟨σ', hσ', hk⟩ := reached_kept hv
  rw [hσ] at hσ'
  simp only [Except.ok.injEq, Prod.mk.injEq, true_and] at hσ'
  subst hσ'
  exact kept_rules_exact hk rules hplus hn htag hup hσ

theorem Ancestor.lt {t : Tree} {root body m n : NodeId} (hw : t.Wf root body) (h : Ancestor t m n) : m < n := by
  induction h with
  | parent hp => exact (hw.slotsYounger _ _ (hw.sub _ _ ((hw.link _ _).2 hp))).1
  | above hp _ ih => exact Nat.lt_trans ih (hw.slotsYounger _ _ (hw.sub _ _ ((hw.link _ _).2 hp))).1

theorem reached_updates {fuel document} (vs : List Json) {v v' : View} (h : Reached translate inline tr fuel document v)
    (hu : v.updates inline vs = .ok v') : Reached translate inline tr fuel document v' := by
  induction vs generalizing v with
  | nil => simp only [View.updates, Except.ok.injEq] at hu; subst hu; exact h
  | cons x xs ih =>
    simp only [View.updates] at hu
    split at hu
    · simp at hu
    · rename_i v1 h1; exact ih (.updated h h1) hu

/-- `<body><div @class="{c}"><p class="child"/></div></body>`: nodes 2 and 3. -/
def parentDoc : Html := .mk "" [] none [.mk "body" [] none [.mk "div" [.attribute "class" [.binder (path1 "c")]] none
  [.mk "p" [.none "class" "child"] none []]]]

/-- `<body><p #class="{c}"/></body>`: node 2. -/
def tagDoc : Html := .mk "" [] none [.mk "body" [] none [.mk "p" [.tag "class" (path1 "c")] none []]]

/-- The freshly rendered tree of a literal document. -/
def freshTree (doc : Html) : Except RenderFail (NodeId × NodeId × Render) :=
  renderView (docEnv id (fun _ => none) doc) 20 (docBody doc)

/-- After the updates, nothing is kept of a rule for node `n` although the rule matches. -/
def lostRule (doc : Html) (n : NodeId) (rule : Style) (v : View) : Bool :=
  match freshTree doc with
  | .error _ => false
  | .ok (_, _, σ) =>
    match σ.tree.ctx n with
    | none => false
    | some e =>
      match classify true σ.tree n e [rule] with
      | .ok [] => matchesNow true viewPseudo v.stage.tree n rule
      | _ => false

theorem lostRule_sound {doc n rule v} (h : lostRule doc n rule v = true) :
    ∃ r b σ e, freshTree doc = .ok (r, b, σ) ∧ σ.tree.ctx n = some e ∧ classify true σ.tree n e [rule] = .ok [] ∧
      matchesNow true viewPseudo v.stage.tree n rule = true := by
  unfold lostRule at h
  split at h
  · simp at h
  · rename_i r b σ hf
    split at h
    · simp at h
    · rename_i e he
      split at h
      · rename_i hc; exact ⟨r, b, σ, e, hf, he, hc, h⟩
      · simp at h

/-- Finding for C42: in `<div @class="{c}"><p class="child"/></div>` the rule `.open > .child` matches the
`p` once `c` is `open`, but it was discarded when the document was opened. -/
theorem C42_dynamic_parent : ∃ v0 v r b σ e, openView id (fun _ => none) (fun _ => none) 20 parentDoc = .ok v0 ∧
    v0.updates (fun _ => none) [.obj [("c", .str "open")]] = .ok v ∧
    freshTree parentDoc = .ok (r, b, σ) ∧ σ.tree.ctx 3 = some e ∧
    classify true σ.tree 3 e [⟨[[.class "open", .combinator '>', .class "child"]], []⟩] = .ok [] ∧
    matchesNow true viewPseudo v.stage.tree 3 ⟨[[.class "open", .combinator '>', .class "child"]], []⟩ = true := by
  obtain ⟨v0, v, h1, -, h3, h4⟩ := checkView_sound (doc := parentDoc) (vs := [.obj [("c", .str "open")]])
    (blank := .obj [("c", .null)])
    (P := lostRule parentDoc 3 ⟨[[.class "open", .combinator '>', .class "child"]], []⟩) (by decide +kernel)
  obtain ⟨r, b, σ, e, g1, g2, g3, g4⟩ := lostRule_sound h4
  exact ⟨v0, v, r, b, σ, e, h1, h3, g1, g2, g3, g4⟩

/-- Finding for C42: `<p #class="{c}"/>` gets the class `class` when `c` is true, but the rule `.class` was
discarded when the document was opened. -/
theorem C42_tag_class : ∃ v0 v r b σ e, openView id (fun _ => none) (fun _ => none) 20 tagDoc = .ok v0 ∧
    v0.updates (fun _ => none) [.obj [("c", .bool true)]] = .ok v ∧
    freshTree tagDoc = .ok (r, b, σ) ∧ σ.tree.ctx 2 = some e ∧
    classify true σ.tree 2 e [⟨[[.class "class"]], []⟩] = .ok [] ∧
    matchesNow true viewPseudo v.stage.tree 2 ⟨[[.class "class"]], []⟩ = true := by
  obtain ⟨v0, v, h1, -, h3, h4⟩ := checkView_sound (doc := tagDoc) (vs := [.obj [("c", .bool true)]])
    (blank := .obj [("c", .null)])
    (P := lostRule tagDoc 2 ⟨[[.class "class"]], []⟩) (by decide +kernel)
  obtain ⟨r, b, σ, e, g1, g2, g3, g4⟩ := lostRule_sound h4
  exact ⟨v0, v, r, b, σ, e, h1, h3, g1, g2, g3, g4⟩

/-- Rules for the witness: `.open`, `body > .open` and `body > .shut`. -/
def witnessRules : List Style := [⟨[[.class "open"]], []⟩, ⟨[[.type "body", .combinator '>', .class "open"]], []⟩,
  ⟨[[.type "body", .combinator '>', .class "shut"]], []⟩]

/-- The hypotheses of `C42_rules_exact_partial` are met: in `parentDoc` after `c = "open"` the `div` (node 2)
is displayed, only it has bindings, and two of the three rules match it, none of which matched before. -/
example : ∃ v σ, Reached id (fun _ => none) (fun _ => none) 20 parentDoc v ∧
    renderView (docEnv id (fun _ => none) parentDoc) 20 (docBody parentDoc) = .ok (v.root, v.body, σ) ∧
    (∀ s ∈ witnessRules, s.NoPlus) ∧ Displayed v.stage.tree v.root 2 ∧
    (∀ path b, b ∈ v.vm.bindings path → b.params ≠ .tag 2 "class" ∧ b.params ≠ .tag 2 "id") ∧
    (∀ s ∈ witnessRules, s.HasChild → ∀ m, Ancestor v.stage.tree m 2 → ∀ k, BindsAttr v.vm.bindings m k → ¬ s.Tests k) ∧
    (∃ s, (∃ k, BindsAttr v.vm.bindings 2 k ∧ s.Tests k) ∧ s ∈ witnessRules) ∧
    witnessRules.map (matchesNow true viewPseudo v.stage.tree 2) = [true, true, false] ∧
    witnessRules.map (matchesNow true viewPseudo σ.tree 2) = [false, false, false] := by
  obtain ⟨v0, v, h1, -, h3, h4⟩ := checkView_sound (doc := parentDoc) (vs := [.obj [("c", .str "open")]])
    (blank := .obj [("c", .null)])
    (P := fun v => decide (1 ∈ v.stage.tree.kids v.root ∧ 2 ∈ v.stage.tree.kids 1 ∧
      witnessRules.map (matchesNow true viewPseudo v.stage.tree 2) = [true, true, false])
      && (match freshTree parentDoc with
        | .error _ => false
        | .ok (_, _, σ) => decide (σ.regs = [("/c", ⟨.attribute 2 "class" 0, []⟩)] ∧
          witnessRules.map (matchesNow true viewPseudo σ.tree 2) = [false, false, false])))
    (by decide +kernel)
  have hr : Reached id (fun _ => none) (fun _ => none) 20 parentDoc v := reached_updates _ (.opened h1) h3
  obtain ⟨σ, hσ, hk⟩ := reached_kept hr
  rw [Bool.and_eq_true, decide_eq_true_eq] at h4
  obtain ⟨⟨a1, a2, a3⟩, h4⟩ := h4
  unfold freshTree at h4
  rw [hσ] at h4
  simp only [decide_eq_true_eq] at h4
  obtain ⟨hregs, hold⟩ := h4
  have hb : ∀ path b, b ∈ v.vm.bindings path → b = ⟨.attribute 2 "class" 0, []⟩ := by
    intro path b hb
    rw [hk.good.bindings, mem_lookupRegs, hregs] at hb
    simp only [List.mem_singleton, Prod.mk.injEq] at hb
    exact hb.2
  refine ⟨v, σ, hr, hσ, ?_, .child (.child .root a1) a2, ?_, ?_, ?_, a3, hold⟩
  · simp [witnessRules, Style.NoPlus]
  · intro path b h; rw [hb path b h]; simp
  · intro s _ _ m hm k ⟨path, b, hbm, hc⟩
    have := hm.lt hk.good.wf
    rw [hb path b hbm] at hc
    rcases hc with hc | ⟨i, hc⟩
    · simp at hc
    · simp only [BindingParams.attribute.injEq] at hc
      rw [← hc.1] at this; exact absurd this (Nat.lt_irrefl _)
  · refine ⟨⟨[[.class "open"]], []⟩, ⟨"class", ⟨"/c", ⟨.attribute 2 "class" 0, []⟩, ?_, .inr ⟨0, rfl⟩⟩, ?_⟩, by simp [witnessRules]⟩
    · rw [hk.good.bindings, mem_lookupRegs, hregs]; simp
    · exact ⟨[.class "open"], by simp, .class "open", by simp, rfl⟩

/-- The hypotheses of C39 are met: `body > div.open > p[class^=ch]` in `parentDoc` after `c = "open"`. -/
def witnessSelector : Selector := .combine (.combine (.compound [.type "body"]) '>' [.type "div", .class "open"]) '>'
  [.type "p", .attribute "class" .prefix "ch"]

example : (∀ parts ∈ witnessSelector.compounds, ∀ s ∈ parts, s.Faithful) ∧ (∀ c ∈ witnessSelector.combinators, c = '>') := by
  constructor
  · simp [witnessSelector, Selector.compounds, Simple.Faithful, CssSpace]
  · simp [witnessSelector, Selector.combinators]

example : ∃ v, Reached id (fun _ => none) (fun _ => none) 20 parentDoc v ∧
    matchComplex true viewPseudo v.stage.tree witnessSelector.written 3 = .ok true ∧
    matchComplex true viewPseudo v.stage.tree witnessSelector.written 2 = .ok false := by
  obtain ⟨v0, v, h1, -, h3, h4⟩ := checkView_sound (doc := parentDoc) (vs := [.obj [("c", .str "open")]])
    (blank := .obj [("c", .null)])
    (P := fun v => decide (matchComplex true viewPseudo v.stage.tree witnessSelector.written 3 = .ok true ∧
      matchComplex true viewPseudo v.stage.tree witnessSelector.written 2 = .ok false)) (by decide +kernel)
  exact ⟨v, reached_updates _ (.opened h1) h3, by simpa using h4⟩

end Verif
