import Verif.View.OpenParts
/-!
# Local names after rendering, and reported templates (lemmas for C23, C61)
-/
namespace Verif

/-- The condition of C23 on a document: no alias is given twice on one element. -/
theorem resolve_aliases {env : RenderEnv} {c c' : Html} (h : resolveChild env c = .ok c')
    (hc : DistinctAliases env c) : (aliasNames c'.bindings).Nodup := by
  unfold resolveChild at h
  split at h
  · rename_i id bs hl
    split at h
    · simp at h
    · rename_i t ht
      injection h with h
      subst h
      unfold Html.asLink at hl
      split at hl
      · rename_i htag
        split at hl
        · rename_i id' bs' hp
          injection hl with hl
          simp only [Prod.mk.injEq] at hl
          obtain ⟨rfl, rfl⟩ := hl
          have h1 : (linkParts c.bindings none).1 = some id' := by rw [hp]
          have h2 : (linkParts c.bindings none).2 = bs' := by rw [hp]
          have hm := (linkParts_href _ _ _ h1).resolve_left (by simp)
          have := hc.2 id' t htag hm ht
          have e : aliasNames (bs' ++ t.bindings) = aliasNames (c.bindings ++ t.bindings) := by
            have := linkParts_aliases c.bindings none
            rw [h2] at this
            simp only [aliasNames, List.filterMap_append] at this ⊢
            rw [this]
          rw [← e] at this; exact this
        · simp at hl
      · simp at hl
  · injection h with h
    subst h
    exact hc.1

def RecLocals (Q : Html → Prop) (rec : RenderFn) : Prop :=
  ∀ h σ n σ', Q h → rec h σ = .ok (n, σ') → σ'.locals = σ.locals

theorem renderSlots_locals {Q : Html → Prop} {rec} (hrec : RecLocals Q rec) {child : Html}
    (hQ : Q child) {name : String} {b : Binder} (ns : List Nat) (cs : List NodeId)
    (σ : Render) {cs' σ'} (h : renderSlots rec name b child ns cs σ = .ok (cs', σ')) :
    ∀ x, x ≠ name → σ'.locals x = σ.locals x := by
  induction ns generalizing cs σ with
  | nil =>
    simp only [renderSlots, Except.ok.injEq, Prod.mk.injEq] at h
    rw [← h.2]; intro x _; rfl
  | cons n ns ih =>
    simp only [renderSlots] at h
    split at h
    · simp at h
    · rename_i c σ1 he
      have l1 := hrec _ _ _ _ hQ he
      intro x hx
      rw [ih _ σ1 h x hx, l1]
      simp only
      rw [SMap.set_other _ _ hx]
      rfl

theorem renderBody_locals {Q : Html → Prop} {rec} (hrec : RecLocals Q rec) {child : Html}
    (hQ : Q child) {node : NodeId} (cs : List NodeId) (σ : Render) {cs' σ'}
    (h : renderBody rec node child cs σ = .ok (cs', σ')) : σ'.locals = σ.locals := by
  unfold renderBody at h
  split at h
  · rename_i v b hv
    simp only at h
    split at h
    · simp at h
    · rename_i c σ1 he
      simp only [Except.ok.injEq, Prod.mk.injEq] at h
      obtain ⟨-, rfl⟩ := h
      have := hrec _ _ _ _ hQ he
      exact this
  · rename_i hv
    split at h
    · rename_i name count b hr
      simp only at h
      split at h
      · simp at h
      · rename_i cs1 σ1 he
        simp only [Except.ok.injEq, Prod.mk.injEq] at h
        obtain ⟨-, rfl⟩ := h
        have l1 := renderSlots_locals hrec hQ _ _ _ he
        simp only [Render.register, Render.field] at l1 ⊢
        funext x
        by_cases hx : x = name
        · subst hx
          cases hσ : σ.locals x <;> simp
        · have := l1 x hx
          rw [SMap.del_other _ hx] at this
          cases hσ : σ.locals name <;> simp [SMap.set_other _ _ hx, SMap.del_other _ hx, this]
    · rename_i hr
      split at h
      · simp at h
      · rename_i c σ1 he
        simp only [Except.ok.injEq, Prod.mk.injEq] at h
        obtain ⟨-, rfl⟩ := h
        exact hrec _ _ _ _ hQ he

theorem renderChild_locals {env : RenderEnv} {rec}
    (hrec : RecLocals (EveryNode env (DistinctAliases env)) rec) {h child : Html} (hmem : child ∈ h.children)
    (hE : EveryNode env (DistinctAliases env) h) {node : NodeId} (cs : List NodeId) (σ : Render) {cs' σ'}
    (hok : renderChild env rec node child cs σ = .ok (cs', σ')) : σ'.locals = σ.locals := by
  unfold renderChild at hok
  split at hok
  · simp at hok
  · rename_i c hc
    simp only at hok
    split at hok
    · simp at hok
    · rename_i cs1 σ1 he
      simp only [Except.ok.injEq, Prod.mk.injEq] at hok
      obtain ⟨-, rfl⟩ := hok
      have hn := resolve_aliases hc (hE.1 _ (.child hmem))
      have b1 := renderBody_locals hrec (resolve_below hmem hc hE) cs _ he
      simp only
      rw [b1, renderAliases_restore _ _ _ hn (by simp)]
      rfl

theorem renderChildren_locals {env : RenderEnv} {rec}
    (hrec : RecLocals (EveryNode env (DistinctAliases env)) rec) {h : Html}
    (hE : EveryNode env (DistinctAliases env) h) {node : NodeId}
    (l : List Html) (hl : ∀ c ∈ l, c ∈ h.children) (cs : List NodeId) (σ : Render) {cs' σ'}
    (hok : renderChildren env rec node l cs σ = .ok (cs', σ')) : σ'.locals = σ.locals := by
  induction l generalizing cs σ with
  | nil =>
    simp only [renderChildren, Except.ok.injEq, Prod.mk.injEq] at hok
    rw [← hok.2]
  | cons c l ih =>
    simp only [renderChildren] at hok
    split at hok
    · simp at hok
    · rename_i cs1 σ1 he
      rw [ih (fun d hd => hl d (by simp [hd])) cs1 σ1 hok]
      exact renderChild_locals hrec (hl c (by simp)) hE cs σ he

theorem renderNode_locals (env : RenderEnv) (fuel : Nat) :
    RecLocals (EveryNode env (DistinctAliases env)) (renderNode env fuel) := by
  induction fuel with
  | zero => intro h σ n σ' _ hok; simp [renderNode] at hok
  | succ fuel ih =>
    intro h σ n σ' hE hok
    simp only [renderNode] at hok
    split at hok
    · rename_i spans ht
      simp only [Except.ok.injEq] at hok
      have e2 : (renderText env spans σ).2 = σ' := by rw [hok]
      obtain ⟨-, hl, -⟩ := renderSpans_frame (fun i => .text σ.tree.newLeaf.1 i) env.translate spans 0
        { σ with tree := σ.tree.newLeaf.2 }
      rw [← e2]
      exact hl
    · rename_i ht
      unfold renderElement at hok
      simp only at hok
      have hb := renderBindings_step env σ.tree.newLeaf.1 h.bindings
        ({ node := σ.tree.newLeaf.1, tag := h.tag }, { σ with tree := σ.tree.newLeaf.2 })
      generalize h.bindings.foldl (renderBinding env σ.tree.newLeaf.1)
        ({ node := σ.tree.newLeaf.1, tag := h.tag }, { σ with tree := σ.tree.newLeaf.2 }) = s at hb hok
      split at hok
      · simp at hok
      · rename_i cs σ1 he
        split at hok
        · simp at hok
        · rename_i t he2
          simp only [Except.ok.injEq, Prod.mk.injEq] at hok
          obtain ⟨-, rfl⟩ := hok
          have hl0 : s.2.locals = σ.locals := hb.locals
          unfold renderContent at he
          split at he
          · simp only [Except.ok.injEq, Prod.mk.injEq] at he
            obtain ⟨-, rfl⟩ := he
            exact hl0
          · split at he
            · simp only [Except.ok.injEq, Prod.mk.injEq] at he
              obtain ⟨-, rfl⟩ := he
              exact hl0
            · exact (renderChildren_locals ih hE h.children (fun _ => id) [] s.2 he).trans hl0

/-! ## Unknown templates -/

/-- A link to `id` occurs in `h` or in a template. -/
def LinkOccurs (env : RenderEnv) (h : Html) (id : String) : Prop :=
  ∃ c, (h.Below c ∨ ∃ i t, env.templates i = some t ∧ t.Below c) ∧ c.target = some id

def RecReports (env : RenderEnv) (rec : RenderFn) : Prop :=
  ∀ h σ id, rec h σ = .error (.templateNotFound id) → env.templates id = none ∧ LinkOccurs env h id

theorem renderSlots_reports {rec : RenderFn} {name b child} (ns : List Nat) (cs σ) {e}
    (h : renderSlots rec name b child ns cs σ = .error e) : ∃ σ, rec child σ = .error e := by
  induction ns generalizing cs σ with
  | nil => simp [renderSlots] at h
  | cons n ns ih =>
    simp only [renderSlots] at h
    split at h
    · rename_i e' he
      injection h with h; subst h; exact ⟨_, he⟩
    · exact ih _ _ h

theorem renderBody_reports {rec : RenderFn} {node child} (cs σ) {e}
    (h : renderBody rec node child cs σ = .error e) : ∃ σ, rec child σ = .error e := by
  unfold renderBody at h
  split at h
  · simp only at h
    split at h
    · rename_i e' he
      injection h with h; subst h; exact ⟨_, he⟩
    · simp at h
  · split at h
    · simp only at h
      split at h
      · rename_i e' he
        injection h with h; subst h; exact renderSlots_reports _ _ _ he
      · simp at h
    · split at h
      · rename_i e' he
        injection h with h; subst h; exact ⟨_, he⟩
      · simp at h

theorem renderChildren_reports {env : RenderEnv} {rec : RenderFn} {node} {e} (l : List Html) (cs σ)
    (h : renderChildren env rec node l cs σ = .error e) :
    ∃ c ∈ l, resolveChild env c = .error e ∨ ∃ c' σ, resolveChild env c = .ok c' ∧ rec c' σ = .error e := by
  induction l generalizing cs σ with
  | nil => simp [renderChildren] at h
  | cons c l ih =>
    simp only [renderChildren] at h
    split at h
    · rename_i e' he
      injection h with h; subst h
      refine ⟨c, by simp, ?_⟩
      unfold renderChild at he
      split at he
      · rename_i e' hr
        injection he with he; subst he; exact .inl hr
      · rename_i c' hr
        simp only at he
        split at he
        · rename_i e' hb
          injection he with he; subst he
          obtain ⟨σ', h'⟩ := renderBody_reports _ _ hb
          exact .inr ⟨c', σ', hr, h'⟩
        · simp at he
    · obtain ⟨d, hd, h'⟩ := ih _ _ h
      exact ⟨d, by simp [hd], h'⟩

theorem renderNode_reports (env : RenderEnv) (fuel : Nat) : RecReports env (renderNode env fuel) := by
  induction fuel with
  | zero => intro h σ id he; simp [renderNode] at he
  | succ fuel ih =>
    intro h σ id he
    simp only [renderNode] at he
    split at he
    · simp at he
    · unfold renderElement at he
      simp only at he
      split at he
      · rename_i e hc
        injection he with he; subst he
        unfold renderContent at hc
        split at hc
        · simp at hc
        · split at hc
          · simp at hc
          · obtain ⟨c, hmem, h1 | ⟨c', σ', h1, h2⟩⟩ := renderChildren_reports _ _ _ hc
            · rw [resolveChild_spec] at h1
              unfold linkMeaning at h1
              split at h1
              · simp at h1
              · rename_i id' ht
                split at h1
                · rename_i hn
                  simp only [Except.error.injEq, RenderFail.templateNotFound.injEq] at h1
                  subst h1
                  exact ⟨hn, c, .inl (.child hmem), ht⟩
                · simp at h1
            · obtain ⟨hn, d, hd, ht⟩ := ih _ _ _ h2
              refine ⟨hn, d, ?_, ht⟩
              rcases hd with hd | hd
              · rw [resolveChild_spec] at h1
                unfold linkMeaning at h1
                split at h1
                · injection h1 with h1; subst h1; exact .inl (.step hmem hd)
                · split at h1
                  · simp at h1
                  · rename_i id' t ht'
                    injection h1 with h1; subst h1
                    refine .inr ⟨_, t, ht', ?_⟩
                    cases hd with
                    | child hx => exact .child hx
                    | step hx hy => exact .step hx hy
              · exact .inr hd
      · split at he
        · simp at he
        · simp at he

end Verif
