import Verif.View.UpdateLemmas
/-!
# Effects of reactions on the links of the tree; preservation of well-formedness
-/
namespace Verif

theorem upd_upd {β} (f : NodeId → β) (p : NodeId) (a b : β) : upd (upd f p a) p b = upd f p b := by
  funext x; by_cases h : x = p <;> simp [upd, h]

theorem upd_self {β} (f : NodeId → β) (p : NodeId) : upd f p (f p) = f := by
  funext x; by_cases h : x = p <;> simp [upd, h]

/-- Replacing the displayed children of one element. -/
theorem wf_setKids {t : Tree} {root body p : NodeId} {K : List NodeId} {par' : NodeId → Option NodeId}
    (h : t.Wf root body) (himg : p ≠ root ∧ ∀ e, t.ctx p = some e → e.tag ≠ "img")
    (hnd : K.Nodup) (hsub : ∀ c ∈ K, c ∈ t.slots root body p)
    (hpar : ∀ c, par' c = if c ∈ K then some p else if c ∈ t.kids p then none else t.par c) :
    Tree.Wf { t with kids := upd t.kids p K, par := par' } root body := by
  have hslots : ∀ q, Tree.slots { t with kids := upd t.kids p K, par := par' } root body q
      = t.slots root body q := fun q => rfl
  constructor
  · intro q c
    simp only [hpar]
    by_cases hq : q = p
    · subst hq
      simp only [upd_same]
      by_cases hc : c ∈ K
      · simp [hc]
      · by_cases hk : c ∈ t.kids q
        · simp [hc, hk]
        · have : t.par c ≠ some q := fun hp => hk ((h.link q c).2 hp)
          simp [hc, hk, this]
    · simp only [upd_other _ _ hq]
      by_cases hc : c ∈ K
      · simp only [hc, if_true]
        constructor
        · intro hk; exact absurd (h.slotsUnique q p c (h.sub q c hk) (hsub c hc)) hq
        · intro e; injection e with e; exact absurd e.symm hq
      · by_cases hk : c ∈ t.kids p
        · simp only [hc, hk, if_true, if_false]
          constructor
          · intro hkq; exact absurd (h.slotsUnique q p c (h.sub q c hkq) (h.sub p c hk)) hq
          · intro e; cases e
        · simp only [hc, hk, if_false]; exact h.link q c
  · intro q
    by_cases hq : q = p
    · subst hq; simpa using hnd
    · simpa [upd_other _ _ hq] using h.nodup q
  · intro q c hc
    rw [hslots]
    by_cases hq : q = p
    · subst hq; simp only [upd_same] at hc; exact hsub c hc
    · simp only [upd_other _ _ hq] at hc; exact h.sub q c hc
  · intro q; rw [hslots]; exact h.slotsNodup q
  · intro q c hc; rw [hslots] at hc; exact h.slotsYounger q c hc
  · intro q r c h1 h2; rw [hslots] at h1 h2; exact h.slotsUnique q r c h1 h2
  · exact h.exist
  · exact h.rootExists
  · intro n e he htag hn
    have hnp : n ≠ p := by rintro rfl; exact himg.2 e he htag
    have := h.img n e he htag hn
    refine ⟨this.1, ?_⟩
    rw [← this.2]
    exact upd_other _ _ hnp

theorem reattachIndex_total {D K : List NodeId} {d : Nat} (hsub : ∀ c ∈ K, c ∈ D) (i : Nat)
    (hi : i ≤ K.length) : ∃ j, reattachIndex D K d i = .ok j ∧ j ≤ K.length := by
  induction i with
  | zero => exact ⟨0, rfl, by omega⟩
  | succ i ih =>
    simp only [reattachIndex]
    rw [List.getElem?_eq_getElem (by omega : i < K.length)]
    simp only
    obtain ⟨A, B, hD, hA, hf⟩ := findIdx?_beq_some (hsub K[i] (List.getElem_mem _))
    rw [hf]
    simp only
    split
    · exact ⟨i + 1, rfl, hi⟩
    · exact ih (by omega)

theorem eraseIdx_eq_filter {K : List NodeId} (hnd : K.Nodup) {n : NodeId} {K1 K2 : List NodeId}
    (hK : K = K1 ++ n :: K2) : K.eraseIdx K1.length = K.filter (fun c => decide (c ≠ n)) := by
  have h1 : n ∉ K1 := by
    subst hK
    intro h
    exact (List.nodup_append.1 hnd).2.2 n h n (by simp) rfl
  have h2 : n ∉ K2 := by
    subst hK
    exact (List.nodup_cons.1 (List.nodup_append.1 hnd).2.1).1
  rw [hK, List.eraseIdx_append_of_length_le (Nat.le_refl _)]
  simp only [Nat.sub_self, List.eraseIdx_cons_zero, List.filter_append, List.filter_cons]
  have f : ∀ L : List NodeId, n ∉ L → L.filter (fun c => decide (c ≠ n)) = L := by
    intro L hL
    rw [List.filter_eq_self]
    intro x hx; simp; rintro rfl; exact hL hx
  simp only [f K1 h1, f K2 h2]
  simp

/-- What `reattach` does to the links. -/
theorem reattach_effect {t : Tree} {root body p n : NodeId} {v : Bool} (h : t.Wf root body)
    (hok : ReactionOk t root body (.reattach p n v)) :
    ∃ K par', reattach t p n v = .ok { t with kids := upd t.kids p K, par := par' } ∧ K.Nodup ∧
      (∀ c, c ∈ K ↔ if c = n then v = true else c ∈ t.kids p) ∧
      (∀ c, par' c = if c ∈ K then some p else if c ∈ t.kids p then none else t.par c) := by
  obtain ⟨hp, hn, -⟩ := hok
  obtain ⟨e, he, hne⟩ := ctx_of_slot hp hn
  have hsl := slots_of_ctx (body := body) hp he
  have hex : p < t.next ∧ n < t.next := ⟨h.exist p (by simp [he]), (h.slotsYounger p n hn).2.1⟩
  obtain ⟨A, B, hD, hA, hidx⟩ := findIdx?_beq_some hne
  have same : ∀ (c : NodeId), t.par c = if c ∈ t.kids p then some p else if c ∈ t.kids p then none else t.par c := by
    intro c
    by_cases hc : c ∈ t.kids p
    · simp [hc, (h.link p c).1 hc]
    · simp [hc]
  unfold reattach
  simp only [Tree.elem, he, hidx, bind, Except.bind]
  by_cases hin : n ∈ t.kids p
  · obtain ⟨K1, K2, hK, hK1, hf⟩ := findIdx?_beq_some hin
    cases v with
    | true =>
      simp only [if_true, hf]
      refine ⟨t.kids p, t.par, by rw [upd_self], h.nodup p, ?_, same⟩
      intro c
      by_cases hc : c = n
      · subst hc; simp [hin]
      · simp [hc]
    | false =>
      simp only [Bool.false_eq_true, if_false, hf, Tree.removeChildAt]
      have : (t.kids p)[K1.length]? = some n := by rw [hK]; simp
      rw [this]
      refine ⟨(t.kids p).filter (fun c => decide (c ≠ n)), upd t.par n none, ?_, (h.nodup p).filter _, ?_, ?_⟩
      · rw [eraseIdx_eq_filter (h.nodup p) hK]
      · intro c
        by_cases hc : c = n
        · subst hc; simp
        · simp [hc]
      · intro c
        by_cases hc : c = n
        · subst hc; simp [hin]
        · simp only [upd_other _ _ hc, List.mem_filter, hc, ne_eq, not_false_eq_true, decide_true,
            and_true]
          exact same c
  · have hf := findIdx?_beq_none.2 hin
    cases v with
    | true =>
      simp only [if_true, hf]
      obtain ⟨j, hj, hjl⟩ := reattachIndex_total (D := e.children) (K := t.kids p) (d := A.length)
        (fun c hc => by rw [← hsl]; exact h.sub p c hc) (min (t.kids p).length A.length) (by omega)
      rw [hj]
      simp only [Tree.insertChild]
      rw [if_neg (by simp [hex]), if_neg (by omega)]
      have hmem : ∀ c, c ∈ (t.kids p).insertIdx j n ↔ c = n ∨ c ∈ t.kids p := by
        intro c; exact List.mem_insertIdx hjl
      refine ⟨_, _, rfl, ?_, ?_, ?_⟩
      · have := List.perm_insertIdx n (t.kids p) hjl
        rw [this.nodup_iff, List.nodup_cons]
        exact ⟨hin, h.nodup p⟩
      · intro c
        rw [hmem]
        by_cases hc : c = n <;> simp [hc]
      · intro c
        simp only [hmem]
        by_cases hc : c = n
        · simp [hc]
        · simp only [upd_other _ _ hc, hc, false_or]; exact same c
    | false =>
      simp only [Bool.false_eq_true, if_false, hf]
      refine ⟨t.kids p, t.par, by rw [upd_self], h.nodup p, ?_, same⟩
      intro c
      by_cases hc : c = n
      · subst hc; simp [hin]
      · simp [hc]

/-! ### repeat -/

theorem repeatShow_spec {visible : List NodeId} {p : NodeId} (ns : List NodeId) (t : Tree)
    (hex : p < t.next ∧ ∀ n ∈ ns, n < t.next) :
    repeatShow visible p ns t = .ok { t with
      kids := upd t.kids p (t.kids p ++ ns.filter (· ∉ visible)),
      par := fun c => if c ∈ ns ∧ c ∉ visible then some p else t.par c } := by
  induction ns generalizing t with
  | nil => simp [repeatShow, upd_self]
  | cons n ns ih =>
    simp only [repeatShow, bind, Except.bind]
    by_cases hn : n ∈ visible
    · simp only [hn, if_true]
      rw [ih t ⟨hex.1, fun m hm => hex.2 m (by simp [hm])⟩]
      congr 1
      have e1 : ∀ c, (c ∈ n :: ns ∧ c ∉ visible) ↔ (c ∈ ns ∧ c ∉ visible) := by
        intro c
        by_cases hc : c = n
        · subst hc; simp [hn]
        · simp [hc]
      simp only [e1]
      simp [hn]
    · simp only [hn, if_false, Tree.addChild]
      rw [if_pos ⟨hex.1, hex.2 n (by simp)⟩]
      simp only
      have hex' := hex
      rw [ih { t with par := upd t.par n (some p), kids := upd t.kids p (t.kids p ++ [n]) }
        ⟨hex.1, fun m hm => hex'.2 m (by simp [hm])⟩]
      simp only [upd_same, upd_upd, Except.ok.injEq, Tree.mk.injEq, true_and, and_true]
      constructor
      · congr 1; simp [hn]
      · funext c
        by_cases hc : c = n
        · subst hc; simp [hn]
        · simp [hc, upd_other _ _ hc]

theorem repeatHide_spec {visible : List NodeId} {p : NodeId} (ns : List NodeId) (t : Tree)
    (hnd : (t.kids p).Nodup) (hns : ns.Nodup) (hin : ∀ n ∈ ns, n ∈ visible → n ∈ t.kids p) :
    repeatHide visible p ns t = .ok { t with
      kids := upd t.kids p ((t.kids p).filter (fun c => ¬ (c ∈ ns ∧ c ∈ visible))),
      par := fun c => if c ∈ ns ∧ c ∈ visible then none else t.par c } := by
  induction ns generalizing t with
  | nil =>
    have e : (t.kids p).filter (fun c => decide ¬ (c ∈ ([] : List NodeId) ∧ c ∈ visible)) = t.kids p := by
      rw [List.filter_eq_self]; simp
    simp only [repeatHide, e, upd_self]; simp
  | cons n ns ih =>
    have hns' := List.nodup_cons.1 hns
    simp only [repeatHide, bind, Except.bind]
    by_cases hn : n ∈ visible
    · simp only [hn, if_true]
      have hk := hin n (by simp) hn
      obtain ⟨K1, K2, hK, hK1, hf⟩ := findIdx?_beq_some hk
      simp only [Tree.removeChild, hf, Tree.removeChildAt]
      have : (t.kids p)[K1.length]? = some n := by rw [hK]; simp
      rw [this, eraseIdx_eq_filter hnd hK]
      simp only
      rw [ih]
      · simp only [upd_same, upd_upd, Except.ok.injEq, Tree.mk.injEq, true_and, and_true,
          List.filter_filter]
        constructor
        · congr 1
          apply List.filter_congr
          intro c _
          by_cases hc : c = n
          · subst hc; simp [hn]
          · simp [hc]
        · funext c
          by_cases hc : c = n
          · subst hc; simp [hn]
          · simp [hc, upd_other _ _ hc]
      · simp only [upd_same]; exact hnd.filter _
      · exact hns'.2
      · intro m hm hv
        simp only [upd_same, List.mem_filter]
        refine ⟨hin m (by simp [hm]) hv, ?_⟩
        simp; rintro rfl; exact hns'.1 hm
    · simp only [hn, if_false]
      rw [ih t hnd hns'.2 (fun m hm => hin m (by simp [hm]))]
      have e1 : ∀ c, (c ∈ n :: ns ∧ c ∈ visible) ↔ (c ∈ ns ∧ c ∈ visible) := by
        intro c
        by_cases hc : c = n
        · subst hc; simp [hn]
        · simp [hc]
      simp only [e1]

theorem mem_slice_le {D : List NodeId} {i k j : Nat} (hkj : k ≤ j) {c : NodeId}
    (h : c ∈ slice D i k) : c ∈ slice D i j := by
  unfold slice at *
  have : D.take k = (D.take j).take k := by rw [List.take_take]; congr 1; omega
  rw [this, List.drop_take] at h
  exact List.mem_of_mem_take h

theorem slice_append (D : List NodeId) {i k j : Nat} (h1 : i ≤ k) (h2 : k ≤ j) :
    slice D i j = slice D i k ++ slice D k j := by
  unfold slice
  rw [List.drop_take, List.drop_take, List.drop_take]
  have e1 : D.drop k = (D.drop i).drop (k - i) := by rw [List.drop_drop]; congr 1; omega
  rw [e1]
  have e2 : j - i = (k - i) + (j - k) := by omega
  rw [e2, List.take_add]

theorem slice_sub {D : List NodeId} {i j : Nat} {c : NodeId} (h : c ∈ slice D i j) : c ∈ D :=
  List.mem_of_mem_take (List.mem_of_mem_drop h)

theorem slice_nodup {D : List NodeId} {i j : Nat} (h : D.Nodup) : (slice D i j).Nodup :=
  (h.sublist (List.take_sublist _ _)).sublist (List.drop_sublist _ _)

/-- What a repeat reaction does to the links: the slots before the cursor that were not displayed are
appended, the ones from the cursor on are removed. -/
theorem repeat_effect {t : Tree} {root body p : NodeId} {i k j : Nat} (h : t.Wf root body)
    (hok : ReactionOk t root body (.repeat p i k j)) :
    let D := t.slots root body p
    let K := (t.kids p ++ (slice D i k).filter (· ∉ t.kids p)).filter (· ∉ slice D k j)
    ∃ par', repeatReact t p i k j = .ok { t with kids := upd t.kids p K, par := par' } ∧ K.Nodup ∧
      (∀ c, c ∈ K ↔ if c ∈ slice D i j then c ∈ slice D i k else c ∈ t.kids p) ∧
      (∀ c, par' c = if c ∈ K then some p else if c ∈ t.kids p then none else t.par c) := by
  obtain ⟨hp, hik, hkj, hj, e, he, -⟩ := hok
  have hsl := slots_of_ctx (body := body) hp he
  intro D K
  have hD : D.Nodup := h.slotsNodup p
  have hdisj : ∀ c, c ∈ slice D i k → c ∈ slice D k j → False := by
    intro c h1 h2
    have := slice_nodup (i := i) (j := j) hD
    rw [slice_append D hik hkj] at this
    exact (List.nodup_append.1 this).2.2 c h1 c h2 rfl
  have hmid : (t.kids p ++ (slice D i k).filter (· ∉ t.kids p)).Nodup := by
    rw [List.nodup_append]
    refine ⟨h.nodup p, (slice_nodup hD).filter _, ?_⟩
    rintro a ha b hb rfl
    simp at hb
    exact hb.2 ha
  have hmem : ∀ c, c ∈ K ↔ if c ∈ slice D i j then c ∈ slice D i k else c ∈ t.kids p := by
    intro c
    simp only [K, List.mem_filter, List.mem_append, decide_eq_true_eq, slice_append D hik hkj]
    by_cases h1 : c ∈ slice D i k
    · have h2 : c ∉ slice D k j := fun h2 => hdisj c h1 h2
      by_cases h3 : c ∈ t.kids p <;> simp [h1, h2, h3]
    · by_cases h2 : c ∈ slice D k j <;> simp [h1, h2]
  refine ⟨fun c => if c ∈ slice D k j ∧ c ∈ t.kids p then none else
    if c ∈ slice D i k ∧ c ∉ t.kids p then some p else t.par c, ?_, hmid.filter _, hmem, ?_⟩
  · unfold repeatReact
    simp only [Tree.elem, he, bind, Except.bind]
    rw [if_neg (by rw [hsl] at hj; simp [hik, hkj, hj])]
    have hs1 : (e.children.take k).drop i = slice D i k := by simp only [D, hsl, slice]
    have hs2 : (e.children.take j).drop k = slice D k j := by simp only [D, hsl, slice]
    rw [hs1, hs2]
    rw [repeatShow_spec _ t ⟨h.exist p (by simp [he]),
      fun n hn => (h.slotsYounger p n (slice_sub hn)).2.1⟩]
    simp only
    rw [repeatHide_spec]
    · simp only [upd_same, upd_upd, Except.ok.injEq, Tree.mk.injEq, true_and, and_true]
      refine ⟨?_, rfl⟩
      congr 1
      apply List.filter_congr
      intro c hc
      simp only [List.mem_append, List.mem_filter, decide_eq_true_eq] at hc
      by_cases h2 : c ∈ slice D k j
      · rcases hc with hc | hc
        · simp [h2, hc]
        · exact absurd h2 (fun h2 => hdisj c hc.1 h2)
      · simp [h2]
    · simpa using hmid
    · exact slice_nodup hD
    · intro n _ hv
      simp [hv]
  · intro c
    simp only [hmem c, slice_append D hik hkj, List.mem_append]
    by_cases h1 : c ∈ slice D i k
    · have h2 : c ∉ slice D k j := fun h2 => hdisj c h1 h2
      by_cases h3 : c ∈ t.kids p
      · simp [h1, h2, h3, (h.link p c).1 h3]
      · simp [h1, h2, h3]
    · by_cases h2 : c ∈ slice D k j
      · by_cases h3 : c ∈ t.kids p
        · simp [h1, h2, h3]
        · simp [h1, h3]
      · by_cases h3 : c ∈ t.kids p
        · simp [h1, h2, h3, (h.link p c).1 h3]
        · simp [h1, h2, h3]

end Verif
