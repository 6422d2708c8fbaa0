import Verif.Input.Form
import Verif.Spec.Input
import Mathlib.Tactic.Linarith
import Mathlib.Algebra.Order.Ring.Rat
/-!
# The elements under the pointer (lemmas for C28, C38, C62)
-/
namespace Verif

/-- `Pointed`, as a test. -/
def pointedB (t : Tree) (p : Rat × Rat) (n : NodeId) : Bool :=
  match t.ctx n with
  | some e => decide (e.pointerEvents = .auto) && e.visible && hovers p e
  | none => false

theorem hovers_iff (p : Rat × Rat) (e : Element) : hovers p e = true ↔ Inside p e := by
  unfold hovers Inside
  simp only [Bool.and_eq_true, decide_eq_true_eq]
  constructor
  · rintro ⟨⟨⟨h1, h2⟩, h3⟩, h4⟩; exact ⟨by linarith, by linarith, by linarith, by linarith⟩
  · rintro ⟨h1, h2, h3, h4⟩; exact ⟨⟨⟨by linarith, by linarith⟩, by linarith⟩, by linarith⟩

theorem pointedB_iff (t : Tree) (p : Rat × Rat) (n : NodeId) : pointedB t p n = true ↔ Pointed t p n := by
  unfold pointedB Pointed
  cases h : t.ctx n with
  | none => simp
  | some e => simp [hovers_iff, and_assoc]

theorem concatNodes_ok {f : NodeId → Except Fail (List NodeId)} {g : NodeId → List NodeId} (l : List NodeId)
    (h : ∀ n ∈ l, f n = .ok (g n)) : concatNodes f l = .ok (l.flatMap g) := by
  induction l with
  | nil => rfl
  | cons n l ih =>
    simp only [concatNodes, h n (by simp), ih (fun m hm => h m (by simp [hm])), List.flatMap_cons]

theorem underMouse_ok {t : Tree} {root body : NodeId} (hw : t.Wf root body) (p : Rat × Rat) (depth : Nat) (n : NodeId)
    (hn : (t.ctx n).isSome) (hd : t.next ≤ n + depth) :
    underMouse t p depth n = .ok ((preorder t depth n).filter (pointedB t p)) := by
  induction depth generalizing n with
  | zero => exact absurd (hw.exist n hn) (Nat.not_lt.2 hd)
  | succ depth ih =>
    obtain ⟨e, he⟩ := Option.isSome_iff_exists.1 hn
    have hk := concatNodes_ok (f := underMouse t p depth) (g := fun c => (preorder t depth c).filter (pointedB t p))
      (t.kids n) (fun c hc => by
        obtain ⟨h1, h2, h3⟩ := hw.slotsYounger n c (hw.sub n c hc)
        exact ih c h3 (by unfold NodeId at *; omega))
    simp only [underMouse, Tree.elem, he, hk, preorder, List.filter_cons, List.filter_flatMap]
    have : pointedB t p n = (decide (e.pointerEvents = .auto) && e.visible && hovers p e) := by
      unfold pointedB; rw [he]
    rw [this]
    cases h : (decide (e.pointerEvents = .auto) && e.visible && hovers p e) <;> simp [h]

theorem Displayed.le {t : Tree} {root body m n : NodeId} (hw : t.Wf root body) (h : Displayed t m n) : m ≤ n := by
  induction h with
  | root => exact Nat.le_refl _
  | child _ hk ih =>
    exact Nat.le_trans ih (Nat.le_of_lt (hw.slotsYounger _ _ (hw.sub _ _ hk)).1)

theorem Displayed.trans {t : Tree} {a b c : NodeId} (h : Displayed t a b) (g : Displayed t b c) : Displayed t a c := by
  induction g with
  | root => exact h
  | child _ hk ih => exact .child ih hk

/-- Two nodes above the same node are above one another. -/
theorem Displayed.linear {t : Tree} {root body a b n : NodeId} (hw : t.Wf root body) (h : Displayed t a n)
    (g : Displayed t b n) : Displayed t a b ∨ Displayed t b a := by
  induction h with
  | root => exact .inr g
  | child hd hk ih =>
    cases g with
    | root => exact .inl (.child hd hk)
    | child hd' hk' =>
      have h1 := (hw.link _ _).1 hk
      have h2 := (hw.link _ _).1 hk'
      rw [h1] at h2; injection h2 with h2; subst h2
      exact ih hd'

theorem preorder_mem {t : Tree} {root body : NodeId} (hw : t.Wf root body) (depth : Nat) (m : NodeId)
    (hm : (t.ctx m).isSome) (hd : t.next ≤ m + depth) (n : NodeId) : n ∈ preorder t depth m ↔ Displayed t m n := by
  constructor
  · intro h
    clear hd hm
    induction depth generalizing m with
    | zero => simp [preorder] at h
    | succ depth ih =>
      simp only [preorder, List.mem_cons, List.mem_flatMap] at h
      rcases h with rfl | ⟨c, hc, h⟩
      · exact .root
      · exact Displayed.trans (.child .root hc) (ih c h)
  · intro h
    have top : ∀ {m n}, Displayed t m n → n = m ∨ ∃ c ∈ t.kids m, Displayed t c n := by
      intro m n h
      induction h with
      | root => exact .inl rfl
      | child hd hk ih =>
        rcases ih with rfl | ⟨c, hc, h⟩
        · exact .inr ⟨_, hk, .root⟩
        · exact .inr ⟨c, hc, .child h hk⟩
    induction depth generalizing m with
    | zero => exact absurd (hw.exist m hm) (Nat.not_lt.2 hd)
    | succ depth ih =>
      simp only [preorder, List.mem_cons, List.mem_flatMap]
      rcases top h with rfl | ⟨c, hc, h⟩
      · exact .inl rfl
      · obtain ⟨h1, h2, h3⟩ := hw.slotsYounger m c (hw.sub m c hc)
        exact .inr ⟨c, hc, ih c h3 (by unfold NodeId at *; omega) h⟩

theorem preorder_nodup {t : Tree} {root body : NodeId} (hw : t.Wf root body) (depth : Nat) (m : NodeId)
    (hm : (t.ctx m).isSome) (hd : t.next ≤ m + depth) : (preorder t depth m).Nodup := by
  induction depth generalizing m with
  | zero => exact List.nodup_nil
  | succ depth ih =>
    have kid : ∀ c ∈ t.kids m, (t.ctx c).isSome ∧ t.next ≤ c + depth ∧ m < c := by
      intro c hc
      obtain ⟨h1, h2, h3⟩ := hw.slotsYounger m c (hw.sub m c hc)
      exact ⟨h3, by unfold NodeId at *; omega, h1⟩
    rw [preorder, List.nodup_cons]
    constructor
    · rw [List.mem_flatMap]
      rintro ⟨c, hc, h⟩
      obtain ⟨k1, k2, k3⟩ := kid c hc
      have := ((preorder_mem hw depth c k1 k2 m).1 h).le hw
      exact absurd k3 (Nat.not_lt.2 this)
    · rw [List.nodup_flatMap]
      refine ⟨fun c hc => ih c (kid c hc).1 (kid c hc).2.1, ?_⟩
      refine (hw.nodup m).imp_of_mem ?_
      intro a b ha hb hne x hxa hxb
      obtain ⟨a1, a2, a3⟩ := kid a ha
      obtain ⟨b1, b2, b3⟩ := kid b hb
      have da := (preorder_mem hw depth a a1 a2 x).1 hxa
      have db := (preorder_mem hw depth b b1 b2 x).1 hxb
      have aux : ∀ {a b}, a ∈ t.kids m → b ∈ t.kids m → a ≠ b → m < a → ¬ Displayed t a b := by
        intro a b ha hb hne hlt h
        cases h with
        | root => exact hne rfl
        | child hd hk =>
          have h1 := (hw.link _ _).1 hb
          have h2 := (hw.link _ _).1 hk
          rw [h1] at h2; injection h2 with h2; subst h2
          exact absurd hlt (Nat.not_lt.2 (hd.le hw))
      rcases da.linear hw db with h | h
      · exact aux ha hb hne a3 h
      · exact aux hb ha (Ne.symm hne) b3 h

/-- Trees of the same shape have the same preorder. -/
theorem preorder_congr {t t' : Tree} (h : t'.kids = t.kids) (depth : Nat) (n : NodeId) :
    preorder t' depth n = preorder t depth n := by
  induction depth generalizing n with
  | zero => rfl
  | succ depth ih => simp only [preorder, h]; congr 2; funext c; exact ih c

end Verif
