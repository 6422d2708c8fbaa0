import Verif.Float.Basic
import Mathlib.Algebra.Order.Round
/-!
# How far rounding is off
-/
namespace Verif

variable {r : Rat → Rat}

/-- A number up to 24 bits above `2 ^ e` is off by at most half of it. -/
theorem Rounds.error (hr : Rounds r) {x : Rat} {e : Int} (he : -149 ≤ e) (h : |x| ≤ 2 ^ (e + 24)) : |r x - x| ≤ 2 ^ e / 2 := by
  have hs := two_zpow_pos e
  have h24 : (2 : Rat) ^ (e + 24) = 2 ^ 24 * 2 ^ e := by exact_mod_cast two_zpow_shift e 24
  rw [h24] at h
  have hq : |x / 2 ^ e| ≤ 2 ^ 24 := by
    rw [abs_div, abs_of_pos hs, div_le_iff₀ hs]; exact h
  have hm : |round (x / 2 ^ e)| ≤ 2 ^ 24 := by
    have h1 := abs_sub_round (x / (2 : Rat) ^ e)
    have h2 : |(round (x / (2 : Rat) ^ e) : Rat)| ≤ 2 ^ 24 + 1 / 2 := by
      have := abs_sub_abs_le_abs_sub (round (x / (2 : Rat) ^ e) : Rat) (x / 2 ^ e)
      rw [abs_sub_comm] at this
      linarith
    have h3 : ((|round (x / (2 : Rat) ^ e)| : Int) : Rat) < ((2 ^ 24 + 1 : Int) : Rat) := by
      push_cast
      linarith
    have := Int.cast_lt.1 h3
    omega
  have := hr.nearest x _ (IsF32.of_le hm he)
  refine le_trans this ?_
  have h1 := abs_sub_round (x / (2 : Rat) ^ e)
  have e1 : (round (x / (2 : Rat) ^ e) : Rat) * 2 ^ e - x = -((x / 2 ^ e - round (x / (2 : Rat) ^ e)) * 2 ^ e) := by
    rw [sub_mul, div_mul_cancel₀ _ hs.ne']; ring
  rw [e1, abs_neg, abs_mul, abs_of_pos hs]
  calc _ ≤ 1 / 2 * (2 : Rat) ^ e := mul_le_mul_of_nonneg_right h1 hs.le
    _ = _ := by ring

/-- Powers of two are numbers. -/
theorem IsF32.power {e : Int} (he : -149 ≤ e) : IsF32 ((2 : Rat) ^ e) := ⟨1, e, by norm_num, he, by simp⟩

/-- What is rounded to something small was small. -/
theorem Rounds.small (hr : Rounds r) {x : Rat} {e : Int} (he : -149 ≤ e) (h : |r x| < 2 ^ e) : |x| ≤ 2 ^ e := by
  rw [abs_lt] at h
  rw [abs_le]
  constructor
  · by_contra hc
    have := hr.le (IsF32.power he).neg (le_of_lt (not_le.1 hc))
    linarith [h.1]
  · by_contra hc
    have := hr.ge (IsF32.power he) (le_of_lt (not_le.1 hc))
    linarith [h.2]

end Verif
