import Verif.View.RenderFrame
import Verif.View.Effects
/-!
# A rendered view is well formed (lemmas for C16, C27)
-/
namespace Verif

/-- The tree after rendering a whole document. -/
structure ViewOk (root body : NodeId) (σ : Render) : Prop where
  rootIs : root = 0
  bodyIs : body = 1
  wf : σ.tree.Wf root body
  allShown : ∀ p, p ≠ root → σ.tree.kids p = σ.tree.slots root body p
  bindings : ∀ r ∈ σ.regs, BindOk σ.tree r.2 ∧ r.2.node ≠ root
  nodes : ∀ n, n < σ.tree.next → ∃ e, σ.tree.ctx n = some e ∧ e.node = n
  states : ∀ n, n < σ.tree.next → ∃ e, σ.tree.ctx n = some e ∧ e.state = {}

theorem renderView_ok {env : RenderEnv} {fuel : Nat} {h : Html} {root body : NodeId} {σ : Render}
    (hok : renderView env fuel h = .ok (root, body, σ)) : ViewOk root body σ := by
  unfold renderView at hok
  simp only at hok
  generalize hσ0 : ({ tree := (Tree.setCtx Tree.empty.newLeaf.2 Tree.empty.newLeaf.1 { node := Tree.empty.newLeaf.1 }) } : Render) = σ0 at hok
  have hc0 : σ0.tree.Clean := by
    subst hσ0
    intro m hm
    refine ⟨?_, rfl, rfl⟩
    exact upd_other _ _ (Nat.ne_of_gt hm)
  have hctx0 : σ0.tree.ctx 0 = some { node := 0 } := by subst hσ0; rfl
  have hk0 : σ0.tree.kids 0 = [] := by subst hσ0; rfl
  have hp0 : σ0.tree.par 0 = none := by subst hσ0; rfl
  have hn0 : σ0.tree.next = 1 := by subst hσ0; rfl
  have hr0 : σ0.regs = [] := by subst hσ0; rfl
  have hg := renderNode_grew env fuel h σ0 hc0
  split at hok
  · simp at hok
  · rename_i b σ1 he
    rw [he] at hg
    obtain ⟨htop, hf, added, hadd, hfine⟩ := hg
    rw [hn0] at htop hf hfine
    subst htop
    obtain ⟨hle, hold, hclean, hnode, hplaced, -, htops⟩ := hf
    obtain ⟨o1, o2, o3⟩ := hold 0 (by omega)
    have hlt := (htops 1 (by simp)).2.1
    unfold Tree.addChild at hok
    rw [if_pos (show Tree.empty.newLeaf.1 < σ1.tree.next ∧ 1 < σ1.tree.next from
      ⟨Nat.lt_of_lt_of_le Nat.zero_lt_one hle, hlt⟩)] at hok
    simp only [Except.ok.injEq, Prod.mk.injEq] at hok
    obtain ⟨rfl, rfl, rfl⟩ := hok
    change ViewOk 0 1 _
    have hroot : Tree.empty.newLeaf.1 = 0 := rfl
    simp only [hroot, o2, hk0, List.nil_append]
    -- facts about the final tree
    have kids_ne : ∀ p, p ≠ 0 → upd σ1.tree.kids 0 [1] p = σ1.tree.kids p := fun p hp => upd_other _ _ hp
    have slot_ne : ∀ p, p ≠ 0 → Tree.slots { ctx := σ1.tree.ctx, kids := upd σ1.tree.kids 0 [1], par := upd σ1.tree.par 1 (some 0), next := σ1.tree.next } 0 1 p = σ1.tree.kids p := by
      intro p hp
      simp only [Tree.slots, hp, if_false]
      by_cases hpn : p < σ1.tree.next
      · obtain ⟨e, e1, -, e3, -⟩ := hnode p (Nat.pos_of_ne_zero hp) hpn
        rw [e1, e3]
      · obtain ⟨c1, c2, -⟩ := hclean p (Nat.le_of_not_lt hpn)
        rw [c1, c2]
    have slot0 : Tree.slots { ctx := σ1.tree.ctx, kids := upd σ1.tree.kids 0 [1], par := upd σ1.tree.par 1 (some 0), next := σ1.tree.next } 0 1 0 = [1] := by
      simp [Tree.slots]
    have kidok : ∀ p c, p ≠ 0 → c ∈ σ1.tree.kids p → p < c ∧ c < σ1.tree.next ∧ σ1.tree.par c = some p := by
      intro p c hp hc
      by_cases hpn : p < σ1.tree.next
      · obtain ⟨e, -, -, -, -, e5, -⟩ := hnode p (Nat.pos_of_ne_zero hp) hpn
        exact e5 c hc
      · rw [(hclean p (Nat.le_of_not_lt hpn)).2.1] at hc; simp at hc
    have parok : ∀ c p, σ1.tree.par c = some p → p ≠ 0 ∧ c ∈ σ1.tree.kids p ∧ c ≠ 1 := by
      intro c p hc
      by_cases hcz : c = 0
      · subst hcz; rw [o3, hp0] at hc; simp at hc
      by_cases hcn : c < σ1.tree.next
      · rcases hplaced c (Nat.pos_of_ne_zero hcz) hcn with ⟨-, h2⟩ | ⟨q, q1, q2, q3, q4⟩
        · rw [h2] at hc; simp at hc
        · rw [q3] at hc; injection hc with hc; subst hc
          refine ⟨Nat.ne_of_gt q1, q4, ?_⟩
          rintro rfl
          rw [(htops 1 (by simp)).2.2] at q3; simp at q3
      · rw [(hclean c (Nat.le_of_not_lt hcn)).2.2] at hc; simp at hc
    refine ⟨rfl, rfl, ?_, ?_, ?_, ?_, ?_⟩
    · constructor
      · intro p c
        simp only
        by_cases hp : p = 0
        · subst hp
          simp only [upd_same, List.mem_singleton]
          constructor
          · rintro rfl; simp
          · intro hc
            by_cases hc1 : c = 1
            · exact hc1
            · rw [upd_other _ _ hc1] at hc
              exact absurd rfl (parok c 0 hc).1
        · rw [kids_ne p hp]
          constructor
          · intro hc
            have hcp := (kidok p c hp hc).2.2
            rw [upd_other _ _ (parok c p hcp).2.2]; exact hcp
          · intro hc
            by_cases hc1 : c = 1
            · subst hc1; simp at hc; exact absurd hc (Ne.symm hp)
            · rw [upd_other _ _ hc1] at hc
              exact (parok c p hc).2.1
      · intro p
        simp only
        by_cases hp : p = 0
        · subst hp; simp
        · rw [kids_ne p hp]
          by_cases hpn : p < σ1.tree.next
          · obtain ⟨e, -, -, -, e4, -⟩ := hnode p (Nat.pos_of_ne_zero hp) hpn
            exact e4
          · rw [(hclean p (Nat.le_of_not_lt hpn)).2.1]; simp
      · intro p c
        by_cases hp : p = 0
        · subst hp; rw [slot0]; simp
        · rw [slot_ne p hp]; simp only; rw [kids_ne p hp]; exact id
      · intro p
        by_cases hp : p = 0
        · subst hp; rw [slot0]; simp
        · rw [slot_ne p hp]
          by_cases hpn : p < σ1.tree.next
          · obtain ⟨e, -, -, -, e4, -⟩ := hnode p (Nat.pos_of_ne_zero hp) hpn
            exact e4
          · rw [(hclean p (Nat.le_of_not_lt hpn)).2.1]; simp
      · intro p c hc
        by_cases hp : p = 0
        · subst hp; rw [slot0] at hc; simp at hc; subst hc
          obtain ⟨e, e1, -⟩ := hnode 1 (Nat.le_refl _) hlt
          exact ⟨Nat.zero_lt_one, hlt, by simp [e1]⟩
        · rw [slot_ne p hp] at hc
          obtain ⟨k1, k2, -⟩ := kidok p c hp hc
          obtain ⟨e, e1, -⟩ := hnode c (by unfold NodeId at *; omega) k2
          exact ⟨k1, k2, by simp [e1]⟩
      · intro p q c hcp hcq
        by_cases hp : p = 0
        · subst hp
          rw [slot0] at hcp; simp at hcp; subst hcp
          by_cases hq : q = 0
          · exact hq.symm
          · rw [slot_ne q hq] at hcq
            have := (kidok q 1 hq hcq).2.2
            exact absurd rfl (parok 1 q this).2.2
        · rw [slot_ne p hp] at hcp
          have h1 := (kidok p c hp hcp).2.2
          by_cases hq : q = 0
          · subst hq; rw [slot0] at hcq; simp at hcq; subst hcq
            exact absurd rfl (parok 1 p h1).2.2
          · rw [slot_ne q hq] at hcq
            have h2 := (kidok q c hq hcq).2.2
            rw [h1] at h2; injection h2
      · intro n hn
        by_cases hnn : n < σ1.tree.next
        · exact hnn
        · simp only at hn
          rw [(hclean n (Nat.le_of_not_lt hnn)).1] at hn; simp at hn
      · simp only; rw [o1, hctx0]; rfl
      · intro n e hen htag hn
        simp only at hen ⊢
        rw [kids_ne n hn]
        have hnn : n < σ1.tree.next := by
          by_cases hnn : n < σ1.tree.next
          · exact hnn
          · rw [(hclean n (Nat.le_of_not_lt hnn)).1] at hen; simp at hen
        obtain ⟨e', e1, -, e3, -, -, e6⟩ := hnode n (Nat.pos_of_ne_zero hn) hnn
        rw [hen] at e1; injection e1 with e1; subst e1
        exact ⟨e6 htag, e3⟩
    · intro p hp
      rw [slot_ne p hp]
      exact kids_ne p hp
    · intro r hr
      rw [hadd, hr0, List.nil_append] at hr
      obtain ⟨f1, f2, f3⟩ := hfine r hr
      exact ⟨f1.congr rfl, Nat.ne_of_gt f2⟩
    · intro n hn
      by_cases hz : n = 0
      · subst hz; exact ⟨{ node := 0 }, by simp only; rw [o1, hctx0], rfl⟩
      · obtain ⟨e, e1, e2, -⟩ := hnode n (Nat.pos_of_ne_zero hz) hn
        exact ⟨e, e1, congrArg Prod.fst e2⟩
    · intro n hn
      by_cases hz : n = 0
      · subst hz; exact ⟨{ node := 0 }, by simp only; rw [o1, hctx0], rfl⟩
      · obtain ⟨e, e1, e2, -⟩ := hnode n (Nat.pos_of_ne_zero hz) hn
        exact ⟨e, e1, congrArg Prod.snd e2⟩

/-- The reactions of a fine binding are applicable, whatever the value. -/
theorem bindOk_reactionOk {t : Tree} {root body : NodeId} {b : Binding} (h : BindOk t b)
    (hn : b.node ≠ root) (v : Json) : ReactionOk t root body (b.react v) := by
  unfold BindOk at h
  unfold Binding.node at hn
  unfold Binding.react
  cases hp : b.params with
  | text n i =>
    simp only [hp] at h hn ⊢
    obtain ⟨e, tx, h1, h2, -⟩ := h
    exact ⟨e, h1, by simp [h2]⟩
  | visibility p c vis =>
    simp only [hp] at h hn ⊢
    obtain ⟨e, h1, h2, h3⟩ := h
    refine ⟨hn, ?_, ?_⟩
    · simp [Tree.slots, hn, h1, h2]
    · intro e' he'; rw [h1] at he'; injection he' with he'; subst he'; exact h3
  | «attribute» n k i =>
    simp only [hp] at h hn ⊢
    obtain ⟨e, h1, h2, -⟩ := h
    exact ⟨hn, e, h1, h2⟩
  | tag n k =>
    simp only [hp] at h hn ⊢
    obtain ⟨e, h1, -⟩ := h
    simp [ReactionOk, h1]
  | «repeat» p s k =>
    simp only [hp] at h hn ⊢
    obtain ⟨e, h1, h2, h3⟩ := h
    have hs : t.slots root body p = e.children := by simp [Tree.slots, hn, h1]
    cases v with
    | arr l =>
      simp only [ReactionOk, hs]
      refine ⟨hn, by omega, ?_, h2, e, h1, h3⟩
      split <;> omega
    | _ => exact ⟨hn, Nat.le_refl _, by omega, by rw [hs]; exact h2, e, h1, h3⟩

end Verif
