import Verif.Spec.SetUp
import Verif.Props.Clock
/-!
# Lemmas for C88
-/
namespace Verif

variable {p : Platform}

/-! ## An animation that does not touch a property -/

theorem whole_part {q : Rat} (h : 0 ≤ q) : ∃ k : Nat, (k : Rat) ≤ q ∧ q < k + 1 := by
  have key : ∀ n : Nat, q < n → ∃ k : Nat, (k : Rat) ≤ q ∧ q < k + 1 := by
    intro n
    induction n with
    | zero => intro hn; simp only [Nat.cast_zero] at hn; linarith
    | succ n ih =>
      intro hn
      rcases lt_or_ge q n with h1 | h1
      · exact ih h1
      · exact ⟨n, h1, by push_cast at hn; exact hn⟩
  obtain ⟨n, hn⟩ := exists_nat_gt q
  exact key n hn

theorem progress_exists {x : Animator} (hd : 0 < x.duration) (hf : x.Forward) {T : Rat} (hT : x.delay ≤ T) : ∃ y, x.ProgressAt T y := by
  have hp : 0 ≤ playedTime x (T - x.delay) := played_nonneg hd hf (by linarith)
  obtain ⟨k, h1, h2⟩ := whole_part (div_nonneg hp hd.le)
  rcases eq_or_lt_of_le h1 with h3 | h3
  · cases k with
    | zero =>
      refine ⟨0, le_refl _, by norm_num, 0, ?_, fun h => absurd h (by omega)⟩
      have : playedTime x (T - x.delay) = 0 := by
        rw [Nat.cast_zero, eq_comm, div_eq_zero_iff] at h3
        exact h3.resolve_right hd.ne'
      rw [this]; simp
    | succ k =>
      refine ⟨1, by norm_num, le_refl _, k, ?_, fun _ => by norm_num⟩
      rw [eq_div_iff hd.ne'] at h3
      rw [← h3]; push_cast; ring
  · refine ⟨playedTime x (T - x.delay) / x.duration - k, by linarith, by linarith, k, ?_, fun _ => by linarith⟩
    rw [add_sub_cancel, div_mul_cancel₀ _ hd.ne']

theorem animates_said {css : Css} {vars : Variables} {T : Nat → Rat} {d : Descriptor} (xs : List Animator)
    (hx : ∀ x ∈ xs, ∀ an, css.animations x.name = some an → 0 < x.duration ∧ x.Forward ∧ ¬ an.Moves vars d) :
    ∀ {i : Nat} {said : Said} {v : ComputedValue}, css.Animates vars T i xs said d v ↔ said d v := by
  induction xs with
  | nil => intro i said v; exact Iff.rfl
  | cons x xs ih =>
    intro i said v
    simp only [Css.Animates]
    rw [ih fun y hy => hx y (List.mem_cons_of_mem _ hy)]
    cases hk : css.animations x.name with
    | none => rfl
    | some an =>
      obtain ⟨h1, h2, h3⟩ := hx x List.mem_cons_self an hk
      simp only
      constructor
      · rintro (⟨-, h⟩ | ⟨-, y, -, step, -, -, ⟨-, h⟩ | ⟨h, -⟩ | ⟨h, -⟩⟩)
        · exact h
        · exact h
        · exact absurd h h3
        · exact absurd h h3
      · intro h
        rcases lt_or_ge (T i) x.delay with hlt | hge
        · exact .inl ⟨hlt, h⟩
        · obtain ⟨y, hy⟩ := progress_exists h1 h2 hge
          obtain ⟨step, s1, s2⟩ := whole_part (q := 100 * y) (by have := hy.1; linarith)
          exact .inr ⟨hge, y, hy, step, s1, s2, .inl ⟨h3, h⟩⟩

/-! ## Parameters that nothing sets -/

theorem parameter_refl {key : PropertyKey} {R : Animator → Animator → Prop} (h : (key, R) ∈ animationParameters) (x : Animator) : R x x := by
  simp only [animationParameters, List.mem_cons, Prod.mk.injEq, List.not_mem_nil, or_false] at h
  rcases h with ⟨-, rfl⟩ | ⟨-, rfl⟩ | ⟨-, rfl⟩ | ⟨-, rfl⟩ | ⟨-, rfl⟩ | ⟨-, rfl⟩ | ⟨-, rfl⟩ | ⟨-, rfl⟩ <;> rfl

theorem parameter_trans {key : PropertyKey} {R : Animator → Animator → Prop} (h : (key, R) ∈ animationParameters) {x y z : Animator} (h1 : R x y) (h2 : R y z) : R x z := by
  simp only [animationParameters, List.mem_cons, Prod.mk.injEq, List.not_mem_nil, or_false] at h
  rcases h with ⟨-, rfl⟩ | ⟨-, rfl⟩ | ⟨-, rfl⟩ | ⟨-, rfl⟩ | ⟨-, rfl⟩ | ⟨-, rfl⟩ | ⟨-, rfl⟩ | ⟨-, rfl⟩ <;> exact Eq.trans h1 h2

theorem parameter_write {key : PropertyKey} {R : Animator → Animator → Prop} (h : (key, R) ∈ animationParameters) (x : Animator) (a : AnimatorAssign) (ha : a.slot ≠ key) :
    R x (a.write x) := by
  simp only [animationParameters, List.mem_cons, Prod.mk.injEq, List.not_mem_nil, or_false] at h
  rcases h with ⟨rfl, rfl⟩ | ⟨rfl, rfl⟩ | ⟨rfl, rfl⟩ | ⟨rfl, rfl⟩ | ⟨rfl, rfl⟩ | ⟨rfl, rfl⟩ | ⟨rfl, rfl⟩ | ⟨rfl, rfl⟩ <;>
    cases a <;> first | rfl | exact absurd rfl ha

theorem parameter_time {key : PropertyKey} {R : Animator → Animator → Prop} (h : (key, R) ∈ animationParameters) (x : Animator) (t : Rat) : R x { x with time := t } := by
  simp only [animationParameters, List.mem_cons, Prod.mk.injEq, List.not_mem_nil, or_false] at h
  rcases h with ⟨-, rfl⟩ | ⟨-, rfl⟩ | ⟨-, rfl⟩ | ⟨-, rfl⟩ | ⟨-, rfl⟩ | ⟨-, rfl⟩ | ⟨-, rfl⟩ | ⟨-, rfl⟩ <;> rfl

theorem applyValue_parameter {key : PropertyKey} {R : Animator → Animator → Prop} (h : (key, R) ∈ animationParameters) (sizes : Sizes) (d : Descriptor) (v : ComputedValue)
    (s : LayoutStyle × Element) (i : Nat) (hd : d ≠ ⟨key, i⟩) : R (s.2.animators[i]?.getD {}) ((applyValue sizes d v s).2.animators[i]?.getD {}) := by
  unfold applyValue
  cases hb : (assignment sizes d.key v).1 with
  | animator a =>
    simp only [Assign.write]
    rw [updateAt_getD]
    split
    · rename_i hij
      refine parameter_write h _ a fun ha => hd ?_
      have := assignment_slot sizes d.key v
      rw [hb] at this
      rcases this with this | this
      · have := Option.some.inj this
        obtain ⟨k, j⟩ := d
        simp only at this hij
        rw [← this, ha, ← hij]
      · cases this
    · exact parameter_refl h _
  | element a => cases a <;> exact parameter_refl h _
  | _ => exact parameter_refl h _

theorem applyAll_parameter {key : PropertyKey} {R : Animator → Animator → Prop} (h : (key, R) ∈ animationParameters) (sizes : Sizes) (l : ComputedStyle) (i : Nat)
    (hl : ∀ x ∈ l, x.1 ≠ ⟨key, i⟩) : ∀ s : LayoutStyle × Element, R (s.2.animators[i]?.getD {}) ((applyAll sizes l s).2.animators[i]?.getD {}) := by
  induction l with
  | nil => intro s; exact parameter_refl h _
  | cons x l ih =>
    intro s
    obtain ⟨d, v⟩ := x
    exact parameter_trans h (applyValue_parameter h sizes d v s i (hl _ List.mem_cons_self)) (ih (fun y hy => hl y (List.mem_cons_of_mem _ hy)) _)

theorem playAnimators_parameter {key : PropertyKey} {R : Animator → Animator → Prop} (h : (key, R) ∈ animationParameters) {env : FrameEnv} {n : NodeId} {vars : Variables}
    {l l' : List Animator} {i : Nat} {a b : ComputedStyle} (hp : playAnimators env n vars i l a = .ok (l', b)) (j : Nat) : R (l[j]?.getD {}) (l'[j]?.getD {}) := by
  rw [playAnimators_clock l i hp j]
  cases l[j]? with
  | none => exact parameter_refl h _
  | some x =>
    simp only [Option.map_some, Option.getD_some]
    split
    · exact parameter_time h _ _
    · exact parameter_refl h _

end Verif
