import Verif.View.StyleOrder
import Verif.Props.Cascade
/-!
# What styling does at each node (for C43, C45, C47-C50)
-/
namespace Verif

theorem linked_of_wf {t : Tree} {root body : NodeId} (h : t.Wf root body) : Linked t :=
  ⟨fun p c hc => (h.link p c).1 hc, fun p c hc => (h.slotsYounger p c (h.sub p c ((h.link p c).2 hc))).1, h.nodup⟩

/-- The steps of styling an element. -/
structure Steps (env : FrameEnv) (t : Tree) (n : NodeId) (parent : Element) (sizes : Sizes) (vars : Variables) (layout : LayoutStyle) (e : Element)
    (l : LayoutStyle) (e' : Element) (vars' : Variables) (rules : List Style) (declared : ComputedStyle) (animators : List Animator)
    (animated : ComputedStyle) (transitions : List Transition) (final : ComputedStyle) : Prop where
  hRules : applied env.checks viewPseudo t n (env.rules n) = .ok rules
  hBlocks : computeBlocks env.fuel (elementBlocks rules e.style) vars [] = some (vars', declared)
  hAnimators : playAnimators env n vars' 0 e.animators declared = .ok (animators, animated)
  hTransitions : playTransitions env.fuel env.time e.transitions animated = .ok (transitions, final)
  hLayout : l = (applyAll sizes (env.order.style n final) (layout, { parent.inherit e.reset with animators := animators, transitions := transitions })).1
  hElement : e' = { (applyAll sizes (env.order.style n final) (layout, { parent.inherit e.reset with animators := animators, transitions := transitions })).2 with
    transitions := (applyAll sizes (env.order.style n final) (layout, { parent.inherit e.reset with animators := animators, transitions := transitions })).2.transitions.map fun t => t.init final }

theorem styleElement_steps {env : FrameEnv} {t : Tree} {n : NodeId} {parent e : Element} {sizes : Sizes} {vars vars' : Variables}
    {layout l : LayoutStyle} {e' : Element} : styleElement env t n parent sizes vars layout e = .ok ((l, e'), vars') ↔
    ∃ rules declared animators animated transitions final, Steps env t n parent sizes vars layout e l e' vars' rules declared animators animated transitions final := by
  constructor
  · intro h
    unfold styleElement at h
    simp only at h
    split at h
    · cases h
    rename_i rules h1
    split at h
    · cases h
    rename_i vars1 declared h2
    split at h
    · cases h
    rename_i animators animated h3
    split at h
    · cases h
    rename_i transitions final h4
    injection h with h
    injection h with h h5
    injection h with h6 h7
    subst h5
    exact ⟨rules, declared, animators, animated, transitions, final, h1, h2, h3, h4, h6.symm, h7.symm⟩
  · rintro ⟨rules, declared, animators, animated, transitions, final, h1, h2, h3, h4, h5, h6⟩
    unfold styleElement
    have e1 : (parent.inherit e.reset).style = e.style := rfl
    have e2 : (parent.inherit e.reset).animators = e.animators := rfl
    have e3 : (parent.inherit e.reset).transitions = e.transitions := rfl
    subst h5
    subst h6
    simp only [h1, e1, e2, e3, h2, h3, h4]

theorem elementBlocks_flatten (rules : List Style) (inline : List Declaration) :
    (elementBlocks rules inline).flatten = (rules.map (·.declaration)).flatten ++ inline := by
  unfold elementBlocks
  cases inline with
  | nil => simp
  | cons x l => simp

theorem Steps.declarations {env t n parent sizes vars layout e l e' vars' rules declared animators animated transitions final}
    (h : Steps env t n parent sizes vars layout e l e' vars' rules declared animators animated transitions final) :
    (elementBlocks rules e.style).flatten = Verif.declarations env t n e := by
  unfold Verif.declarations
  rw [h.hRules, elementBlocks_flatten]

theorem Steps.vars {env t n parent sizes vars layout e l e' vars' rules declared animators animated transitions final}
    (h : Steps env t n parent sizes vars layout e l e' vars' rules declared animators animated transitions final) :
    vars' = scopeAfter vars (Verif.declarations env t n e) := by
  have := h.hBlocks
  rw [computeBlocks_flatten, h.declarations] at this
  exact computeBlock_vars _ this

/-- The sizes an element is styled with: those of its parent, except at the body. -/
def sizesAt (body : NodeId) (viewport : Rat × Rat) (n : NodeId) (parent : Element) : Sizes :=
  ⟨16, if n = body then 16 else parent.font.size, if n = body then ⟨0, 0, 0, 0⟩ else parent.color, viewport.1, viewport.2⟩

/-- What styling did at node `n`. -/
inductive StyledAt (env : FrameEnv) (s s' : Styled) (body : NodeId) (viewport : Rat × Rat) (n : NodeId) : Prop
  | text {p parent e} : s.tree.par n = some p → s'.tree.ctx p = some parent → s.tree.ctx n = some e → e.text.isSome →
      s'.tree.ctx n = some (parent.inherit e) → s'.layouts n = s.layouts n → StyledAt env s s' body viewport n
  | element {p parent e vars l e' vars'} : s.tree.par n = some p → s'.tree.ctx p = some parent → s.tree.ctx n = some e → e.text = none →
      (∀ name l, vars name = some l ↔ n ≠ body ∧ Given env s.tree body name l p) →
      (∀ name l, vars' name = some l ↔ Given env s.tree body name l n) →
      styleElement env s.tree n parent (sizesAt body viewport n parent) vars (s.layouts n) e = .ok ((l, e'), vars') →
      s'.tree.ctx n = some e' → s'.layouts n = l → StyledAt env s s' body viewport n

theorem Styles.le {t : Tree} (hl : Linked t) {body n : NodeId} (h : Styles t body n) : body ≤ n := by
  induction h with
  | body => exact Nat.le_refl _
  | child _ _ _ _ hc ih => exact Nat.le_of_lt (Nat.lt_of_le_of_lt ih (hl.older _ _ (hl.link _ _ hc)))

theorem given_iff {env : FrameEnv} {t : Tree} {body n p : NodeId} {e : Element} {vars : Variables} (he : t.ctx n = some e) (hp : t.par n = some p)
    (hv : ∀ name l, vars name = some l ↔ n ≠ body ∧ Given env t body name l p) (name : String) (l : Shorthand) :
    scopeAfter vars (declarations env t n e) name = some l ↔ Given env t body name l n := by
  unfold scopeAfter
  constructor
  · intro h
    cases hg : (givenTo name (declarations env t n e)).getLast? with
    | some x => rw [hg] at h; injection h with h; subst h; exact .here he hg
    | none =>
      rw [hg] at h
      obtain ⟨h1, h2⟩ := (hv name l).1 h
      exact .up h1 he (List.getLast?_eq_none_iff.1 hg) hp h2
  · intro h
    cases h with
    | here he' hg => rw [he] at he'; injection he' with he'; subst he'; rw [hg]
    | up h1 he' hg hp' h2 =>
      rw [he] at he'; injection he' with he'; subst he'
      rw [hp] at hp'; injection hp' with hp'; subst hp'
      rw [hg]
      exact (hv name l).2 ⟨h1, h2⟩

theorem styledAt_all {env : FrameEnv} {depth : Nat} {s s' : Styled} {body : NodeId} {viewport : Rat × Rat} (hl : Linked s.tree)
    (h : styleView env depth body viewport s = .ok s') {n : NodeId} (hn : Styles s.tree body n) : StyledAt env s s' body viewport n := by
  have key : ∀ n, Styles s.tree body n → ∃ p parent vars, s.tree.par n = some p ∧ s'.tree.ctx p = some parent ∧
      (∀ name l, vars name = some l ↔ n ≠ body ∧ Given env s.tree body name l p) ∧
      StyledFrom env s s' n (sizesAt body viewport n parent) vars := by
    intro n hn
    induction hn with
    | body =>
      obtain ⟨_, hs⟩ := styleTree_spec depth hl h
      have : ∃ p parent, s.tree.par body = some p ∧ s'.tree.ctx p = some parent := by cases hs <;> exact ⟨_, _, ‹_›, ‹_›⟩
      obtain ⟨p, parent, h1, h2⟩ := this
      refine ⟨p, parent, fun _ => none, h1, h2, fun name l => by simp, ?_⟩
      simp only [sizesAt, if_true]
      exact hs
    | child hp he ht hleaf hc ih =>
      rename_i p c e
      obtain ⟨q, parent, vars, h1, h2, h3, h4⟩ := ih
      have hb := Styles.le hl hp
      have hpc := hl.older _ _ (hl.link _ _ hc)
      have hcb : c ≠ body := by unfold NodeId at *; omega
      cases h4 with
      | text a1 a2 a3 a4 a5 a6 => rw [he] at a3; injection a3 with a3; subst a3; rw [ht] at a4; cases a4
      | element a1 a2 a3 a4 a5 a6 a7 a8 =>
        rename_i p' parent' e1 l e' vars'
        rw [h1] at a1; injection a1 with a1; subst a1
        rw [h2] at a2; injection a2 with a2; subst a2
        rw [he] at a3; injection a3 with a3; subst a3
        have htag : e'.tag = e.tag := (styleElement_form a5).1.tag
        refine ⟨p, e', vars', hl.link _ _ hc, a6, ?_, ?_⟩
        · intro name l
          obtain ⟨_, _, _, _, _, _, hst⟩ := styleElement_steps.1 a5
          rw [hst.vars, given_iff he h1 h3]
          simp [hcb]
        · have := a8 (by rw [htag]; exact hleaf) c hc
          simp only [sizesAt, if_neg hcb]
          exact this
  obtain ⟨p, parent, vars, h1, h2, h3, h4⟩ := key n hn
  cases h4 with
  | text a1 a2 a3 a4 a5 a6 => exact .text a1 a2 a3 a4 a5 a6
  | element a1 a2 a3 a4 a5 a6 a7 a8 =>
    rename_i p' parent' e1 l e' vars'
    rw [h1] at a1; injection a1 with a1; subst a1
    rw [h2] at a2; injection a2 with a2; subst a2
    obtain ⟨_, _, _, _, _, _, hst⟩ := styleElement_steps.1 a5
    exact .element h1 h2 a3 a4 h3 (fun name l => by rw [hst.vars, given_iff a3 h1 h3]) a5 a6 a7

end Verif
