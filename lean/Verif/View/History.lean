import Verif.View.Reactions
/-!
# Sequences of reactions: helper lemmas
-/
namespace Verif

theorem showStep_congr {slots : List NodeId} {p c : NodeId} {f g : NodeId → Bool} (r : Reaction)
    (h : f c = g c) : showStep slots p f r c = showStep slots p g r c := by
  cases r <;> simp only [showStep, h]

theorem showAll_congr {slots : List NodeId} {p c : NodeId} {f g : NodeId → Bool} (rs : List Reaction)
    (h : f c = g c) : showAll slots p f rs c = showAll slots p g rs c := by
  unfold showAll
  induction rs generalizing f g with
  | nil => exact h
  | cons r rs ih => exact ih (showStep_congr r h)

/-- A whole sequence of applicable reactions. -/
theorem updateTrees_steps {inline} {root body : NodeId} (rs : List Reaction) (s : Stage)
    (h : s.tree.Wf root body) (hrs : ∀ r ∈ rs, ReactionOk s.tree root body r) :
    ∃ s', updateTrees inline s rs = .ok s' ∧ s'.tree.Wf root body ∧ SameDefs s.tree s'.tree ∧
      ∀ p, p ≠ root → ∀ c, c ∈ s'.tree.kids p ↔ c ∈ s.tree.slots root body p ∧
        showAll (s.tree.slots root body p) p (fun c => decide (c ∈ s.tree.kids p)) rs c = true := by
  induction rs generalizing s with
  | nil => exact ⟨s, rfl, h, .refl _, fun p _ c => still_shown h p c⟩
  | cons r rs ih =>
    obtain ⟨s1, h1, st⟩ := updateTree_step (inline := inline) h (hrs r (by simp))
    obtain ⟨s2, h2, wf2, same2, hk⟩ := ih s1 st.wf
      (fun r' hr' => st.same.reactionOk (hrs r' (by simp [hr'])))
    refine ⟨s2, by simp only [updateTrees, h1, bind, Except.bind]; exact h2, wf2, st.same.trans same2, ?_⟩
    intro p hp c
    rw [hk p hp c, st.same.slots]
    constructor
    · rintro ⟨hc, hs⟩
      refine ⟨hc, ?_⟩
      rw [← hs]
      unfold showAll
      rw [List.foldl_cons]
      apply showAll_congr
      have := st.shown p hp c
      by_cases hk1 : c ∈ s1.tree.kids p
      · simp [hk1, (this.1 hk1).2]
      · have : ¬ showStep (s.tree.slots root body p) p (fun c => decide (c ∈ s.tree.kids p)) r c = true :=
          fun hh => hk1 (this.2 ⟨hc, hh⟩)
        simpa [hk1] using this
    · rintro ⟨hc, hs⟩
      refine ⟨hc, ?_⟩
      rw [← hs]
      unfold showAll
      rw [List.foldl_cons]
      apply showAll_congr
      have := st.shown p hp c
      by_cases hk1 : c ∈ s1.tree.kids p
      · simp [hk1, (this.1 hk1).2]
      · have : ¬ showStep (s.tree.slots root body p) p (fun c => decide (c ∈ s.tree.kids p)) r c = true :=
          fun hh => hk1 (this.2 ⟨hc, hh⟩)
        simp only [Bool.not_eq_true] at this
        simp [hk1, this]

/-! ### order of the displayed children -/

theorem filter_eq_self' {K : List NodeId} {P : NodeId → Bool} (h : ∀ c ∈ K, P c = true) : K.filter P = K :=
  List.filter_eq_self.2 h

/-- Repeat on a block that ends the list of template children keeps template order. -/
theorem repeat_order {A B : List NodeId} {P : NodeId → Bool} {a b : Nat}
    (hnd : (A ++ B).Nodup) :
    let K := A.filter P ++ B.take a
    (K ++ (B.take b).filter (· ∉ K)).filter (· ∉ B.drop b) = A.filter P ++ B.take b := by
  intro K
  obtain ⟨hA, hB, hAB⟩ := List.nodup_append.1 hnd
  have hBd : ∀ (n : Nat) (c : NodeId), c ∈ B.take n → c ∈ B.drop n → False := by
    intro n c h1 h2
    rw [← List.take_append_drop n B] at hB
    exact (List.nodup_append.1 hB).2.2 c h1 c h2 rfl
  have hAf : (A.filter P).filter (· ∉ B.drop b) = A.filter P := by
    apply filter_eq_self'
    intro c hc
    simp only [decide_eq_true_eq]
    intro hcb
    exact hAB c (List.mem_filter.1 hc).1 c (List.mem_of_mem_drop hcb) rfl
  have hBf : (B.take b).filter (· ∉ B.drop b) = B.take b := by
    apply filter_eq_self'
    intro c hc
    simp only [decide_eq_true_eq]
    exact fun h => hBd b c hc h
  by_cases hab : a ≤ b
  · have e1 : B.take b = B.take a ++ (B.drop a).take (b - a) := by
      rw [← List.take_add]; congr 1; omega
    have e2 : (B.take b).filter (· ∉ K) = (B.drop a).take (b - a) := by
      rw [e1, List.filter_append]
      have z1 : (B.take a).filter (· ∉ K) = [] := by
        rw [List.filter_eq_nil_iff]
        intro c hc; simp [K, hc]
      have z2 : ((B.drop a).take (b - a)).filter (· ∉ K) = (B.drop a).take (b - a) := by
        apply filter_eq_self'
        intro c hc
        have hcd := List.mem_of_mem_take hc
        simp only [K, List.mem_append, decide_eq_true_eq, not_or, List.mem_filter, not_and]
        refine ⟨fun hcA => absurd rfl (hAB c hcA c (List.mem_of_mem_drop hcd)), fun h => hBd a c h hcd⟩
      rw [z1, z2]; rfl
    rw [e2]
    have e3 : K ++ (B.drop a).take (b - a) = A.filter P ++ B.take b := by
      simp only [K, List.append_assoc]; rw [e1]
    rw [e3, List.filter_append, hAf, hBf]
  · have hba : b ≤ a := by omega
    have e1 : B.take a = B.take b ++ (B.drop b).take (a - b) := by
      rw [← List.take_add]; congr 1; omega
    have z1 : (B.take b).filter (· ∉ K) = [] := by
      rw [List.filter_eq_nil_iff]
      intro c hc
      have : c ∈ K := by simp only [K, e1, List.mem_append]; exact Or.inr (Or.inl hc)
      simp [this]
    rw [z1, List.append_nil]
    simp only [K, e1, List.filter_append, hAf, hBf]
    have z2 : ((B.drop b).take (a - b)).filter (· ∉ B.drop b) = [] := by
      rw [List.filter_eq_nil_iff]
      intro c hc
      simp [List.mem_of_mem_take hc]
    rw [z2]; simp

end Verif
