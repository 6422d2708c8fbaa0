import Verif.Float.Basic
/-!
# Rounding to the nearest, from the middle to the even one, rounds to the nearest
-/
namespace Verif

theorem roundEven_nearest (x : Rat) (k : Int) : |(roundEven x : Rat) - x| ≤ |(k : Rat) - x| := by
  have h1 : ((x.floor : Int) : Rat) ≤ x := Int.floor_le x
  have h2 : x < (x.floor : Int) + 1 := Int.lt_floor_add_one x
  have hk : (k : Rat) ≤ (x.floor : Int) ∨ (((x.floor : Int) : Rat) + 1 ≤ k) := by
    rcases le_or_gt k x.floor with h | h
    · exact .inl (by exact_mod_cast h)
    · exact .inr (by exact_mod_cast h)
  have hr : ((roundEven x : Rat) = (x.floor : Int) ∧ x - (x.floor : Int) ≤ 1 / 2) ∨ ((roundEven x : Rat) = (x.floor : Int) + 1 ∧ 1 / 2 ≤ x - (x.floor : Int)) := by
    unfold roundEven
    simp only
    split
    · exact .inl ⟨rfl, by linarith⟩
    · split
      · exact .inr ⟨by push_cast; rfl, by linarith⟩
      · split
        · exact .inl ⟨rfl, by linarith⟩
        · exact .inr ⟨by push_cast; rfl, by linarith⟩
  generalize ((x.floor : Int) : Rat) = f at *
  rcases hr with ⟨e, h⟩ | ⟨e, h⟩ <;> rw [e] <;> rcases hk with hk | hk
  · rw [abs_of_nonpos (by linarith), abs_of_nonpos (by linarith)]; linarith
  · rw [abs_of_nonpos (by linarith), abs_of_nonneg (by linarith)]; linarith
  · rw [abs_of_nonneg (by linarith), abs_of_nonpos (by linarith)]; linarith
  · rw [abs_of_nonneg (by linarith), abs_of_nonneg (by linarith)]; linarith

theorem binaryLog_spec {x : Rat} (hx : x ≠ 0) : (2 : Rat) ^ binaryLog x ≤ |x| ∧ |x| < (2 : Rat) ^ (binaryLog x + 1) := by
  have hn : x.num.natAbs ≠ 0 := by simpa using hx
  have hd : x.den ≠ 0 := x.den_ne_zero
  have a1 : (2 : Rat) ^ x.num.natAbs.log2 ≤ x.num.natAbs := by exact_mod_cast Nat.log2_self_le hn
  have a2 : (x.num.natAbs : Rat) < 2 ^ (x.num.natAbs.log2 + 1) := by exact_mod_cast Nat.lt_log2_self
  have b1 : (2 : Rat) ^ x.den.log2 ≤ x.den := by exact_mod_cast Nat.log2_self_le hd
  have b2 : (x.den : Rat) < 2 ^ (x.den.log2 + 1) := by exact_mod_cast Nat.lt_log2_self
  have hx' : |x| = (x.num.natAbs : Rat) / x.den := by
    rw [← Rat.num_div_den x, abs_div, Nat.abs_cast, Rat.num_div_den]
    congr 1
    rw [← Int.cast_abs, Int.abs_eq_natAbs, Int.cast_natCast]
  have hdp : (0 : Rat) < x.den := by exact_mod_cast Nat.pos_of_ne_zero hd
  generalize ha : x.num.natAbs.log2 = a at *
  generalize hb : x.den.log2 = b at *
  have hq : ∀ c : Int, (2 : Rat) ^ ((a : Int) - b + c) = 2 ^ a / 2 ^ b * 2 ^ c := by
    intro c
    rw [zpow_add₀ (by norm_num), zpow_sub₀ (by norm_num), zpow_natCast, zpow_natCast]
  have up : |x| < (2 : Rat) ^ ((a : Int) - b + 1) := by
    rw [hq, hx', div_lt_iff₀ hdp]
    refine lt_of_lt_of_le a2 ?_
    have : (2 : Rat) ^ a / 2 ^ b * 2 ^ (1 : Int) * 2 ^ b ≤ 2 ^ a / 2 ^ b * 2 ^ (1 : Int) * x.den := mul_le_mul_of_nonneg_left b1 (by positivity)
    refine le_trans (le_of_eq ?_) this
    have : (2 : Rat) ^ b ≠ 0 := by positivity
    field_simp
    rw [pow_succ]
  have low : (2 : Rat) ^ ((a : Int) - b - 1) ≤ |x| := by
    rw [sub_eq_add_neg ((a : Int) - b), hq, hx', le_div_iff₀ hdp]
    refine le_trans ?_ a1
    have : (2 : Rat) ^ a / 2 ^ b * 2 ^ (-1 : Int) * x.den ≤ 2 ^ a / 2 ^ b * 2 ^ (-1 : Int) * 2 ^ (b + 1) := mul_le_mul_of_nonneg_left b2.le (by positivity)
    refine le_trans this (le_of_eq ?_)
    have : (2 : Rat) ^ b ≠ 0 := by positivity
    rw [pow_succ]
    field_simp
  have hlog : binaryLog x = if (2 : Rat) ^ ((a : Int) - b) ≤ |x| then (a : Int) - b else (a : Int) - b - 1 := by
    unfold binaryLog; rw [ha, hb]
  rw [hlog]
  split
  · rename_i h; exact ⟨h, up⟩
  · rename_i h; exact ⟨low, by rw [sub_add_cancel]; exact not_le.1 h⟩

theorem f32_rounds : Rounds f32 where
  number x := by
    have hs := two_zpow_pos (lastPlace x)
    have hsm : |x / (2 : Rat) ^ lastPlace x| < 2 ^ 24 := by
      rw [abs_div, abs_of_pos hs, div_lt_iff₀ hs]
      by_cases hx : x = 0
      · subst hx; rw [abs_zero]; have := two_zpow_pos (lastPlace 0); positivity
      · refine lt_of_lt_of_le (binaryLog_spec hx).2 ?_
        have := two_zpow_shift (lastPlace x) 24
        rw [← this]
        exact two_zpow_le (by unfold lastPlace; push_cast; omega)
    have h1 := roundEven_nearest (x / (2 : Rat) ^ lastPlace x) (2 ^ 24)
    have h2 := roundEven_nearest (x / (2 : Rat) ^ lastPlace x) (-2 ^ 24)
    refine IsF32.of_le ?_ (by unfold lastPlace; omega)
    rw [abs_lt] at hsm
    generalize x / (2 : Rat) ^ lastPlace x = q at *
    have : |((roundEven q : Int) : Rat)| ≤ 2 ^ 24 := by
      norm_num at h1 h2 hsm ⊢
      rw [abs_of_pos (a := 16777216 - q) (by linarith)] at h1
      rw [abs_of_neg (a := -16777216 - q) (by linarith)] at h2
      rw [abs_le]
      have := abs_le.1 h1
      have := abs_le.1 h2
      constructor <;> linarith
    exact_mod_cast this
  nearest x y hy := by
    by_cases hx : x = 0
    · subst hx
      have : f32 0 = 0 := by decide +kernel
      rw [this, sub_self, abs_zero]; exact abs_nonneg _
    have hs := two_zpow_pos (lastPlace x)
    have key : ∀ k : Int, |f32 x - x| ≤ |k * (2 : Rat) ^ lastPlace x - x| := by
      intro k
      have h := roundEven_nearest (x / (2 : Rat) ^ lastPlace x) k
      have e : ∀ j : Int, (j : Rat) * 2 ^ lastPlace x - x = (j - x / 2 ^ lastPlace x) * 2 ^ lastPlace x := by
        intro j; rw [sub_mul, div_mul_cancel₀ _ hs.ne']
      unfold f32
      rw [e, e, abs_mul, abs_mul]
      exact mul_le_mul_of_nonneg_right h (abs_nonneg _)
    by_cases hm : ∃ k : Int, y = k * (2 : Rat) ^ lastPlace x
    · obtain ⟨k, hk⟩ := hm
      rw [hk]; exact key k
    · by_cases hl : lastPlace x = -149
      · exact absurd (by rw [hl]; exact hy.smallest) hm
      · have hl : lastPlace x = binaryLog x - 23 := by unfold lastPlace at *; omega
        have hylt : |y| < 2 ^ binaryLog x := by
          by_contra hc
          exact hm (hy.multiple (by rw [hl, sub_add_cancel]; exact not_lt.1 hc))
        have hle := (binaryLog_spec hx).1
        have h23 : (2 : Rat) ^ binaryLog x = ((2 ^ 23 : Int) : Rat) * 2 ^ lastPlace x := by
          have := two_zpow_shift (lastPlace x) 23
          rw [show binaryLog x = lastPlace x + (23 : Nat) by rw [hl]; push_cast; ring, this]; push_cast; rfl
        have hy' := abs_lt.1 hylt
        rcases lt_or_gt_of_ne hx with hneg | hpos
        · rw [abs_of_neg hneg] at hle
          refine le_trans (key (-2 ^ 23)) ?_
          have : ((-2 ^ 23 : Int) : Rat) * 2 ^ lastPlace x = -(2 : Rat) ^ binaryLog x := by rw [h23]; push_cast; ring
          rw [this, abs_of_nonneg (by linarith), abs_of_nonneg (by linarith)]
          linarith
        · rw [abs_of_pos hpos] at hle
          refine le_trans (key (2 ^ 23)) ?_
          rw [← h23, abs_of_nonpos (by linarith), abs_of_nonpos (by linarith)]
          linarith

end Verif
