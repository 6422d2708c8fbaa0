import Verif.View.Render
import Verif.Spec.Tree
/-!
# The tree built by rendering (lemmas for C16 and C27)
-/
namespace Verif

/-- Nothing is stored for nodes that are not allocated yet. -/
def Tree.Clean (t : Tree) : Prop := ∀ m, t.next ≤ m → t.ctx m = none ∧ t.kids m = [] ∧ t.par m = none

/-- A finished node. -/
def Tree.NodeOk (t : Tree) (m : NodeId) : Prop :=
  ∃ e, t.ctx m = some e ∧ (e.node, e.state) = (m, {}) ∧ t.kids m = e.children ∧ (t.kids m).Nodup ∧
    (∀ c ∈ t.kids m, m < c ∧ c < t.next ∧ t.par c = some m) ∧ (e.tag = "img" → e.children ≠ [])

/-- The nodes from `lo` on form a forest with the given tops; older nodes are as in `t0`. -/
structure Forest (lo : Nat) (t0 t : Tree) (tops : List NodeId) : Prop where
  le : lo ≤ t.next
  old : ∀ m, m < lo → t.ctx m = t0.ctx m ∧ t.kids m = t0.kids m ∧ t.par m = t0.par m
  clean : t.Clean
  node : ∀ m, lo ≤ m → m < t.next → t.NodeOk m
  placed : ∀ m, lo ≤ m → m < t.next → (m ∈ tops ∧ t.par m = none) ∨
    ∃ p, lo ≤ p ∧ p < t.next ∧ t.par m = some p ∧ m ∈ t.kids p
  nodup : tops.Nodup
  top : ∀ c ∈ tops, lo ≤ c ∧ c < t.next ∧ t.par c = none

theorem Forest.refl {t : Tree} (h : t.Clean) : Forest t.next t t [] where
  le := Nat.le_refl _
  old _ _ := ⟨rfl, rfl, rfl⟩
  clean := h
  node m h1 h2 := absurd h2 (Nat.not_lt.2 h1)
  placed m h1 h2 := absurd h2 (Nat.not_lt.2 h1)
  nodup := List.nodup_nil
  top c h := absurd h (by simp)

theorem Forest.append {lo : Nat} {t0 t t' : Tree} {a b : List NodeId} (h1 : Forest lo t0 t a)
    (h2 : Forest t.next t t' b) : Forest lo t0 t' (a ++ b) where
  le := Nat.le_trans h1.le h2.le
  old m hm := by
    obtain ⟨x1, x2, x3⟩ := h2.old m (Nat.lt_of_lt_of_le hm h1.le)
    obtain ⟨y1, y2, y3⟩ := h1.old m hm
    exact ⟨x1.trans y1, x2.trans y2, x3.trans y3⟩
  clean := h2.clean
  node m hlo hm := by
    by_cases hlt : m < t.next
    · obtain ⟨e, e1, e2, e3, e4, e5, e6⟩ := h1.node m hlo hlt
      obtain ⟨x1, x2, -⟩ := h2.old m hlt
      refine ⟨e, x1.trans e1, e2, x2.trans e3, by rw [x2]; exact e4, ?_, e6⟩
      intro c hc
      rw [x2] at hc
      obtain ⟨y1, y2, y3⟩ := e5 c hc
      exact ⟨y1, Nat.lt_of_lt_of_le y2 h2.le, (h2.old c y2).2.2.trans y3⟩
    · exact h2.node m (Nat.le_of_not_lt hlt) hm
  placed m hlo hm := by
    by_cases hlt : m < t.next
    · obtain ⟨x1, x2, x3⟩ := h2.old m hlt
      rcases h1.placed m hlo hlt with ⟨y1, y2⟩ | ⟨p, y1, y2, y3, y4⟩
      · exact .inl ⟨by simp [y1], x3.trans y2⟩
      · exact .inr ⟨p, y1, Nat.lt_of_lt_of_le y2 h2.le, x3.trans y3, by rw [(h2.old p y2).2.1]; exact y4⟩
    · rcases h2.placed m (Nat.le_of_not_lt hlt) hm with ⟨y1, y2⟩ | ⟨p, y1, y2, y3, y4⟩
      · exact .inl ⟨by simp [y1], y2⟩
      · exact .inr ⟨p, Nat.le_trans h1.le y1, y2, y3, y4⟩
  nodup := by
    rw [List.nodup_append]
    refine ⟨h1.nodup, h2.nodup, ?_⟩
    intro x hx y hy e
    subst e
    exact absurd (h1.top x hx).2.1 (Nat.not_lt.2 (h2.top x hy).1)
  top c hc := by
    rcases List.mem_append.1 hc with hc | hc
    · obtain ⟨x1, x2, x3⟩ := h1.top c hc
      exact ⟨x1, Nat.lt_of_lt_of_le x2 h2.le, (h2.old c x2).2.2.trans x3⟩
    · obtain ⟨x1, x2, x3⟩ := h2.top c hc
      exact ⟨Nat.le_trans h1.le x1, x2, x3⟩

/-- Allocating a node and giving it a context makes a one node tree. -/
theorem forest_leaf {t : Tree} (h : t.Clean) (e : Element) (hn : (e.node, e.state) = (t.next, {})) (hc : e.children = [])
    (hi : e.tag ≠ "img") : Forest t.next t (t.newLeaf.2.setCtx t.newLeaf.1 e) [t.next] := by
  have hk := (h t.next (Nat.le_refl _)).2.1
  have hp := (h t.next (Nat.le_refl _)).2.2
  simp only [Tree.newLeaf, Tree.setCtx]
  refine ⟨Nat.le_succ _, ?_, ?_, ?_, ?_, by simp, ?_⟩
  · intro m hm
    exact ⟨upd_other _ _ (Nat.ne_of_lt hm), rfl, rfl⟩
  · intro m hm
    simp only at hm
    obtain ⟨x1, x2, x3⟩ := h m (Nat.le_of_succ_le hm)
    exact ⟨by rw [← x1]; exact upd_other _ _ (Nat.ne_of_gt hm), x2, x3⟩
  · intro m h1 h2
    have : m = t.next := Nat.le_antisymm (Nat.lt_succ_iff.1 h2) h1
    subst this
    refine ⟨e, upd_same _ _ _, hn, ?_, ?_, ?_, fun hh => absurd hh hi⟩
    · simp [hk, hc]
    · simp [hk]
    · simp [hk]
  · intro m h1 h2
    have : m = t.next := Nat.le_antisymm (Nat.lt_succ_iff.1 h2) h1
    subst this
    exact .inl ⟨by simp, hp⟩
  · intro c hc
    simp only [List.mem_singleton] at hc; subst hc
    exact ⟨Nat.le_refl _, Nat.lt_succ_self _, hp⟩

theorem setChildren_fresh {t : Tree} {n : NodeId} {cs : List NodeId} (hn : n < t.next)
    (hk : t.kids n = []) (hcs : ∀ c ∈ cs, c < t.next ∧ t.par c = none) (hnd : cs.Nodup) :
    t.setChildren n cs = .ok { t with
      kids := upd t.kids n cs
      par := fun x => if x ∈ cs then some n else t.par x } := by
  unfold Tree.setChildren
  rw [if_neg (by simpa using ⟨hn, fun c hc => (hcs c hc).1⟩)]
  have aux : ∀ (l : List NodeId) (t : Tree), l.Nodup → (∀ c ∈ l, t.par c = none) →
      l.foldl (Tree.adopt n) t
      = { t with par := fun x => if x ∈ l then some n else t.par x } := by
    intro l
    induction l with
    | nil => intro t _ _; simp
    | cons c l ih =>
      intro t h1 h2
      have hc : c ∉ l := (List.nodup_cons.1 h1).1
      rw [List.foldl_cons, ih _ (List.nodup_cons.1 h1).2 ?_]
      · simp only [Tree.adopt, h2 c (by simp)]
        congr 1
        funext x
        by_cases hx : x = c
        · subst hx; simp [hc]
        · by_cases hl : x ∈ l
          · simp [hl]
          · simp [hl, hx, upd_other]
      · intro d hd
        have : d ≠ c := fun e => hc (e ▸ hd)
        simp only [Tree.adopt, upd_other _ _ this]
        exact h2 d (by simp [hd])
  simp only [hk, List.not_mem_nil, if_false]
  rw [aux cs _ hnd (fun c hc => (hcs c hc).2)]

/-- Closing an element: its children were rendered into a forest above it. -/
theorem forest_close {t t1 t2 : Tree} {cs : List NodeId} {e : Element} (hclean : t.Clean)
    (h : Forest t.newLeaf.2.next t.newLeaf.2 t1 cs) (hn : (e.node, e.state) = (t.next, {}))
    (hi : e.tag = "img" → cs ≠ [])
    (hs : (t1.setCtx t.next { e with children := cs }).setChildren t.next cs = .ok t2) :
    Forest t.next t t2 [t.next] ∧ t2.ctx t.next = some { e with children := cs } ∧ t2.next = t1.next ∧
      (∀ m, m ≠ t.next → t2.ctx m = t1.ctx m ∧ t2.kids m = t1.kids m) := by
  have hlt : t.next < t1.next := h.le
  obtain ⟨o1, o2, o3⟩ := h.old t.next (Nat.lt_succ_self _)
  have hk : t1.kids t.next = [] := o2.trans (hclean t.next (Nat.le_refl _)).2.1
  have hp : t1.par t.next = none := o3.trans (hclean t.next (Nat.le_refl _)).2.2
  rw [setChildren_fresh (t := t1.setCtx t.next { e with children := cs }) hlt hk
    (fun c hc => ⟨(h.top c hc).2.1, (h.top c hc).2.2⟩) h.nodup] at hs
  injection hs with hs
  subst hs
  simp only [Tree.setCtx]
  have hnc : t.next ∉ cs := fun hc => absurd (h.top _ hc).1 (Nat.not_le.2 (Nat.lt_succ_self _))
  refine ⟨⟨Nat.le_of_lt hlt, ?_, ?_, ?_, ?_, by simp, ?_⟩, upd_same _ _ _, trivial,
    fun m hm => ⟨upd_other _ _ hm, upd_other _ _ hm⟩⟩
  · intro m hm
    have hne : m ≠ t.next := Nat.ne_of_lt hm
    obtain ⟨x1, x2, x3⟩ := h.old m (Nat.lt_succ_of_lt hm)
    refine ⟨(upd_other _ _ hne).trans x1, (upd_other _ _ hne).trans x2, ?_⟩
    have : m ∉ cs := fun hc => absurd (h.top _ hc).1 (Nat.not_le.2 (Nat.lt_succ_of_lt hm))
    simp only [this, if_false]; exact x3
  · intro m hm
    simp only at hm
    have hne : m ≠ t.next := Nat.ne_of_gt (Nat.lt_of_lt_of_le hlt hm)
    obtain ⟨x1, x2, x3⟩ := h.clean m hm
    refine ⟨(upd_other _ _ hne).trans x1, (upd_other _ _ hne).trans x2, ?_⟩
    have : m ∉ cs := fun hc => absurd (h.top _ hc).2.1 (Nat.not_lt.2 hm)
    simp only [this, if_false]; exact x3
  · intro m h1 h2
    by_cases hm : m = t.next
    · subst hm
      refine ⟨{ e with children := cs }, upd_same _ _ _, hn, by simp, by simpa using h.nodup, ?_, hi⟩
      intro c hc
      simp only [upd_same] at hc
      exact ⟨(h.top c hc).1, (h.top c hc).2.1, by simp [hc]⟩
    · have h1' : t.newLeaf.2.next ≤ m := Nat.lt_of_le_of_ne h1 (Ne.symm hm)
      obtain ⟨e', x1, x2, x3, x4, x5, x6⟩ := h.node m h1' h2
      refine ⟨e', (upd_other _ _ hm).trans x1, x2, (upd_other _ _ hm).trans x3, ?_, ?_, x6⟩
      · simp only [upd_other _ _ hm]; exact x4
      · intro c hc
        simp only [upd_other _ _ hm] at hc
        obtain ⟨y1, y2, y3⟩ := x5 c hc
        refine ⟨y1, y2, ?_⟩
        have : c ∉ cs := fun hc' => by have := (h.top c hc').2.2; rw [y3] at this; simp at this
        simp only [this, if_false]; exact y3
  · intro m h1 h2
    by_cases hm : m = t.next
    · subst hm
      exact .inl ⟨by simp, by simp [hnc, hp]⟩
    · right
      have h1' : t.newLeaf.2.next ≤ m := Nat.lt_of_le_of_ne h1 (Ne.symm hm)
      rcases h.placed m h1' h2 with ⟨y1, y2⟩ | ⟨p, y1, y2, y3, y4⟩
      · exact ⟨t.next, Nat.le_refl _, hlt, by simp [y1], by simp [y1]⟩
      · have hpn : p ≠ t.next := Nat.ne_of_gt y1
        have : m ∉ cs := fun hc' => by have := (h.top m hc').2.2; rw [y3] at this; simp at this
        exact ⟨p, Nat.le_of_lt y1, y2, by simp [this, y3], by simp only [upd_other _ _ hpn]; exact y4⟩
  · intro c hc
    simp only [List.mem_singleton] at hc; subst hc
    exact ⟨Nat.le_refl _, hlt, by simp [hnc, hp]⟩

/-- `setChildren` does not fail there. -/
theorem close_ok {t t1 : Tree} {cs : List NodeId} {e : Element} (hclean : t.Clean)
    (h : Forest t.newLeaf.2.next t.newLeaf.2 t1 cs) :
    ∃ t2, (t1.setCtx t.next e).setChildren t.next cs = .ok t2 := by
  have hlt : t.next < t1.next := h.le
  have hk : t1.kids t.next = [] :=
    (h.old t.next (Nat.lt_succ_self _)).2.1.trans (hclean t.next (Nat.le_refl _)).2.1
  exact ⟨_, setChildren_fresh (t := t1.setCtx t.next e) hlt hk
    (fun c hc => ⟨(h.top c hc).2.1, (h.top c hc).2.2⟩) h.nodup⟩

end Verif
