import Verif.Spec.Tree
/-!
# Helper lemmas for reactions on the tree
-/
namespace Verif

theorem findIdx?_beq_append {A B : List NodeId} {n : NodeId} (h : n ∉ A) :
    (A ++ n :: B).findIdx? (· == n) = some A.length := by
  rw [List.findIdx?_append]
  have : A.findIdx? (· == n) = none := by
    rw [List.findIdx?_eq_none_iff]
    intro x hx
    simp; rintro rfl; exact h hx
  simp [this, List.findIdx?_cons]

theorem insertIdx_append_length {α} (A B : List α) (n : α) :
    (A ++ B).insertIdx A.length n = A ++ n :: B := by
  induction A with
  | nil => simp
  | cons a A ih => simp [ih]

theorem findIdx?_beq_some {l : List NodeId} {n : NodeId} (h : n ∈ l) :
    ∃ A B, l = A ++ n :: B ∧ n ∉ A ∧ l.findIdx? (· == n) = some A.length := by
  obtain ⟨A, B, rfl, hA⟩ := List.eq_append_cons_of_mem h
  exact ⟨A, B, rfl, hA, findIdx?_beq_append hA⟩

theorem findIdx?_beq_none {l : List NodeId} {n : NodeId} :
    l.findIdx? (· == n) = none ↔ n ∉ l := by
  rw [List.findIdx?_eq_none_iff]
  constructor
  · intro h hn; simpa using h n hn
  · intro h x hx; simp; rintro rfl; exact h hx

theorem slots_of_ctx {t : Tree} {root body p : NodeId} {e : Element} (hp : p ≠ root)
    (h : t.ctx p = some e) : t.slots root body p = e.children := by
  simp [Tree.slots, hp, h]

theorem ctx_of_slot {t : Tree} {root body p c : NodeId} (hp : p ≠ root)
    (h : c ∈ t.slots root body p) : ∃ e, t.ctx p = some e ∧ c ∈ e.children := by
  simp only [Tree.slots, hp, if_false] at h
  cases hc : t.ctx p with
  | none => simp [hc] at h
  | some e => exact ⟨e, rfl, by simpa [hc] using h⟩

/-! ### reattach -/

theorem reattachIndex_spec {A B : List NodeId} {n : NodeId} (P : NodeId → Bool)
    (hnd : (A ++ n :: B).Nodup) (i : Nat) (h1 : (A.filter P).length ≤ i)
    (h2 : i ≤ (A.filter P ++ B.filter P).length) :
    reattachIndex (A ++ n :: B) (A.filter P ++ B.filter P) A.length i = .ok (A.filter P).length := by
  have hd := List.nodup_append.1 hnd
  induction i with
  | zero => simp only [reattachIndex]; congr 1; omega
  | succ i ih =>
    simp only [reattachIndex]
    have hi : i < (A.filter P ++ B.filter P).length := by omega
    rw [List.getElem?_eq_getElem hi]
    simp only
    by_cases hc : (A.filter P).length = i + 1
    · have hm : (A.filter P ++ B.filter P)[i] ∈ A := by
        rw [List.getElem_append_left (by omega)]
        exact (List.mem_filter.1 (List.getElem_mem _)).1
      generalize (A.filter P ++ B.filter P)[i] = x at hm
      obtain ⟨A1, A2, rfl, hA1, -⟩ := findIdx?_beq_some hm
      have e : (A1 ++ x :: A2) ++ n :: B = A1 ++ x :: (A2 ++ n :: B) := by simp
      rw [e, findIdx?_beq_append hA1]
      simp only [List.length_append, List.length_cons]
      rw [if_pos (by omega), hc]
    · have hm : (A.filter P ++ B.filter P)[i] ∈ B := by
        rw [List.getElem_append_right (by omega)]
        exact (List.mem_filter.1 (List.getElem_mem _)).1
      generalize hx : (A.filter P ++ B.filter P)[i] = x at hm
      obtain ⟨B1, B2, rfl, hB1, -⟩ := findIdx?_beq_some hm
      have e : A ++ n :: (B1 ++ x :: B2) = (A ++ n :: B1) ++ x :: B2 := by simp
      have hnm : x ∉ A ++ n :: B1 := by
        rw [e] at hnd
        intro hxm
        exact (List.nodup_append.1 hnd).2.2 x hxm x (by simp) rfl
      rw [e, findIdx?_beq_append hnm]
      simp only [List.length_append, List.length_cons]
      rw [if_neg (by omega)]
      rw [← e]
      exact ih (by omega) (by omega)

/-- The displayed children of one parent after a reattach, when they were displayed in template order. -/
theorem reattach_order {t : Tree} {p n : NodeId} {e : Element} {v : Bool} (P : NodeId → Bool)
    (he : t.ctx p = some e) (hnd : e.children.Nodup) (hn : n ∈ e.children)
    (hex : p < t.next ∧ n < t.next) (hk : t.kids p = e.children.filter P) :
    ∃ t', reattach t p n v = .ok t' ∧
      t'.kids p = e.children.filter (fun c => if c = n then v else P c) := by
  obtain ⟨A, B, hD, hA, hidx⟩ := findIdx?_beq_some hn
  have hB : n ∉ B := by
    rw [hD] at hnd
    have := (List.nodup_append.1 hnd).2.1
    exact (List.nodup_cons.1 this).1
  have hcong : ∀ L : List NodeId, n ∉ L → L.filter (fun c => if c = n then v else P c) = L.filter P := by
    intro L hL
    apply List.filter_congr
    intro x hx
    rw [if_neg]; rintro rfl; exact hL hx
  unfold reattach
  simp only [Tree.elem, he, hidx, bind, Except.bind]
  cases v with
  | true =>
    simp only [if_true]
    by_cases hP : P n = true
    · have hin : n ∈ t.kids p := by rw [hk, List.mem_filter]; exact ⟨hn, hP⟩
      obtain ⟨_, _, _, _, hf⟩ := findIdx?_beq_some hin
      simp only [hf]
      refine ⟨t, rfl, ?_⟩
      rw [hk]
      apply List.filter_congr
      intro x _
      by_cases hx : x = n
      · subst hx; simp [hP]
      · simp [hx]
    · have hP' : P n = false := by simpa using hP
      have hin : n ∉ t.kids p := by rw [hk, List.mem_filter]; simp [hP']
      simp only [findIdx?_beq_none.2 hin]
      have hkk : t.kids p = A.filter P ++ B.filter P := by
        rw [hk, hD]; simp [List.filter_append, hP']
      have hle : (A.filter P).length ≤ A.length := List.length_filter_le _ _
      rw [hkk, hD]
      rw [reattachIndex_spec P (hD ▸ hnd) _ (by simp; omega) (by omega)]
      simp only [Tree.insertChild]
      rw [if_neg (by simp [hex]), if_neg (by rw [hkk]; simp)]
      refine ⟨_, rfl, ?_⟩
      simp only [upd_same, hkk]
      rw [insertIdx_append_length]
      rw [List.filter_append, List.filter_cons, hcong A hA, hcong B hB]
      simp
  | false =>
    simp only [Bool.false_eq_true, if_false]
    by_cases hin : n ∈ t.kids p
    · obtain ⟨K1, K2, hK, hK1, hf⟩ := findIdx?_beq_some hin
      simp only [hf, Tree.removeChildAt]
      have : (t.kids p)[K1.length]? = some n := by rw [hK]; simp
      rw [this]
      refine ⟨_, rfl, ?_⟩
      simp only [upd_same]
      have hkn : (t.kids p).Nodup := by rw [hk]; exact hnd.filter _
      have hK2 : n ∉ K2 := by
        rw [hK] at hkn
        exact (List.nodup_cons.1 (List.nodup_append.1 hkn).2.1).1
      have e1 : (t.kids p).eraseIdx K1.length = (t.kids p).filter (fun c => c ≠ n) := by
        rw [hK, List.eraseIdx_append_of_length_le (Nat.le_refl _)]
        simp only [Nat.sub_self, List.eraseIdx_cons_zero, List.filter_append, List.filter_cons]
        have f : ∀ L : List NodeId, n ∉ L → L.filter (fun c => decide (c ≠ n)) = L := by
          intro L hL
          rw [List.filter_eq_self]
          intro x hx; simp; rintro rfl; exact hL hx
        simp only [f K1 hK1, f K2 hK2]
        simp
      rw [e1, hk, List.filter_filter]
      apply List.filter_congr
      intro x _
      by_cases hx : x = n <;> simp [hx]
    · simp only [findIdx?_beq_none.2 hin]
      refine ⟨t, rfl, ?_⟩
      rw [hk]
      apply List.filter_congr
      intro x hx
      by_cases hxn : x = n
      · subst hxn
        have : P x = false := by
          cases hP : P x with
          | false => rfl
          | true => exact absurd (by rw [hk, List.mem_filter]; exact ⟨hx, hP⟩) hin
        simp [this]
      · simp [hxn]

end Verif
