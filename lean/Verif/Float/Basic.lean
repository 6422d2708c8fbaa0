import Verif.Spec.Rounding
import Mathlib.Algebra.Order.Round
import Mathlib.Data.Rat.Floor
import Mathlib.Algebra.Order.Group.Int
/-!
# Lemmas about rounding to 32 bits
-/
namespace Verif

theorem two_zpow_pos (e : Int) : (0 : Rat) < 2 ^ e := zpow_pos (by norm_num) e

theorem two_zpow_succ (e : Int) : (2 : Rat) ^ (e + 1) = 2 * 2 ^ e := by rw [zpow_add_one₀ (by norm_num)]; ring

theorem two_zpow_pred (e : Int) : (2 : Rat) ^ e = 2 * 2 ^ (e - 1) := by rw [← two_zpow_succ]; congr 1; ring

theorem two_zpow_le {a b : Int} (h : a ≤ b) : (2 : Rat) ^ a ≤ 2 ^ b := zpow_le_zpow_right₀ (by norm_num) h

theorem two_zpow_shift (a : Int) (k : Nat) : (2 : Rat) ^ (a + k) = 2 ^ k * 2 ^ a := by rw [zpow_add₀ (by norm_num), zpow_natCast]; ring

/-- A multiple of a power of two is one of every smaller power. -/
theorem multiple_of_le {a b : Int} (h : a ≤ b) (m : Int) : ∃ k : Int, (m : Rat) * 2 ^ b = k * 2 ^ a := by
  obtain ⟨n, rfl⟩ := Int.le.dest h
  exact ⟨m * 2 ^ n, by rw [two_zpow_shift]; push_cast; ring⟩

theorem IsF32.neg {x : Rat} (h : IsF32 x) : IsF32 (-x) := by
  obtain ⟨m, e, h1, h2, h3⟩ := h
  exact ⟨-m, e, by rwa [abs_neg], h2, by rw [h3]; push_cast; ring⟩

theorem IsF32.ofInt {m : Int} (h : |m| < 2 ^ 24) : IsF32 m := ⟨m, 0, h, by norm_num, by simp⟩

theorem IsF32.ofNat {m : Nat} (h : m < 2 ^ 24) : IsF32 m := by
  have := IsF32.ofInt (m := m) (by rw [Int.abs_natCast]; exact_mod_cast h)
  exact_mod_cast this

theorem IsF32.zero : IsF32 0 := by simpa using IsF32.ofNat (m := 0) (by norm_num)

theorem IsF32.one : IsF32 1 := by simpa using IsF32.ofNat (m := 1) (by norm_num)

/-- The bound on the integer may be reached. -/
theorem IsF32.of_le {m e : Int} (h : |m| ≤ 2 ^ 24) (he : -149 ≤ e) : IsF32 (m * (2 : Rat) ^ e) := by
  rcases lt_or_eq_of_le h with h | h
  · exact ⟨m, e, h, he, rfl⟩
  · obtain ⟨k, hk, hm⟩ : ∃ k : Int, |k| < 2 ^ 24 ∧ m = 2 * k := by
      rcases abs_eq (by norm_num) |>.1 h with h | h
      · exact ⟨2 ^ 23, by norm_num, by rw [h]; norm_num⟩
      · exact ⟨-2 ^ 23, by norm_num, by rw [h]; norm_num⟩
    exact ⟨k, e + 1, hk, by omega, by rw [two_zpow_succ, hm]; push_cast; ring⟩

/-- Every positive number has a form with a full integer, or with the smallest power. -/
theorem IsF32.normal {x : Rat} (h : IsF32 x) (hx : 0 < x) :
    ∃ m e : Int, 0 < m ∧ m < 2 ^ 24 ∧ -149 ≤ e ∧ (e = -149 ∨ 2 ^ 23 ≤ m) ∧ x = m * (2 : Rat) ^ e := by
  obtain ⟨m, e, h1, h2, h3⟩ := h
  have hm : 0 < m := by
    have : (0 : Rat) < m := by
      rw [h3] at hx
      exact pos_of_mul_pos_left hx (two_zpow_pos e).le
    exact_mod_cast this
  rw [abs_of_pos hm] at h1
  obtain ⟨k, hk⟩ := Int.le.dest h2
  induction k generalizing m e with
  | zero => exact ⟨m, e, hm, h1, h2, .inl (by omega), h3⟩
  | succ k ih =>
    by_cases hf : 2 ^ 23 ≤ m
    · exact ⟨m, e, hm, h1, h2, .inr hf, h3⟩
    · refine ih (2 * m) (e - 1) (by omega) (by omega) ?_ (by omega) (by push_cast at hk ⊢; omega)
      rw [h3, two_zpow_pred e]; push_cast; ring

/-- Numbers that are not small compared with a power of two are multiples of it. -/
theorem IsF32.multiple {y : Rat} (h : IsF32 y) {e : Int} (hy : (2 : Rat) ^ (e + 23) ≤ |y|) : ∃ k : Int, y = k * (2 : Rat) ^ e := by
  obtain ⟨m, f, h1, h2, h3⟩ := h
  have hlt : e ≤ f := by
    by_contra hc
    have hc : f + 1 ≤ e := by omega
    have h4 : |y| < 2 ^ 24 * (2 : Rat) ^ f := by
      rw [h3, abs_mul, abs_of_pos (two_zpow_pos f)]
      refine mul_lt_mul_of_pos_right ?_ (two_zpow_pos f)
      exact_mod_cast h1
    have h5 : (2 : Rat) ^ 24 * 2 ^ f ≤ 2 ^ (e + 23) := by
      have := two_zpow_shift f 24
      rw [← this]
      exact two_zpow_le (by push_cast; omega)
    linarith
  rw [h3]; exact multiple_of_le hlt m

/-- Every number is a multiple of the smallest power. -/
theorem IsF32.smallest {y : Rat} (h : IsF32 y) : ∃ k : Int, y = k * (2 : Rat) ^ (-149 : Int) := by
  obtain ⟨m, f, h1, h2, h3⟩ := h
  rw [h3]; exact multiple_of_le h2 m

/-- Different multiples are at least one step apart. -/
theorem step_apart {s : Rat} (hs : 0 < s) {a b : Int} (h : (a : Rat) * s < b * s) : a * s + s ≤ b * s := by
  have h1 : (a : Rat) < b := lt_of_mul_lt_mul_right h hs.le
  have h2 : a + 1 ≤ b := by exact_mod_cast h1
  have h3 : (a : Rat) + 1 ≤ b := by exact_mod_cast h2
  nlinarith

/-- A number below one is at least `2 ^ -24` below. -/
theorem IsF32.below_one {t : Rat} (h : IsF32 t) (ht : t < 1) : t ≤ 1 - 2 ^ (-24 : Int) := by
  by_cases hs : t < 1 / 2
  · refine le_trans hs.le ?_
    norm_num
  · obtain ⟨k, hk⟩ := h.multiple (e := -24) (by rw [abs_of_nonneg (by linarith)]; norm_num at hs ⊢; exact hs)
    have h1 : (1 : Rat) = ((2 ^ 24 : Int) : Rat) * 2 ^ (-24 : Int) := by norm_num
    rw [hk, h1] at ht
    have := step_apart (two_zpow_pos (-24)) ht
    rw [hk]; linarith

/-! ## Rounding -/

variable {r : Rat → Rat}

theorem Rounds.exact (hr : Rounds r) {x : Rat} (hx : IsF32 x) : r x = x := by
  have := hr.nearest x x hx
  rw [sub_self, abs_zero] at this
  exact sub_eq_zero.1 (abs_nonpos_iff.1 this)

theorem Rounds.mono (hr : Rounds r) {x y : Rat} (h : x ≤ y) : r x ≤ r y := by
  rcases h.eq_or_lt with rfl | h
  · exact le_rfl
  by_contra hc
  have hc := not_le.1 hc
  have h1 := hr.nearest x (r y) (hr.number y)
  have h2 := hr.nearest y (r x) (hr.number x)
  rcases abs_cases (r x - x) with ⟨a1, b1⟩ | ⟨a1, b1⟩ <;> rcases abs_cases (r y - x) with ⟨a2, b2⟩ | ⟨a2, b2⟩ <;>
    rcases abs_cases (r y - y) with ⟨a3, b3⟩ | ⟨a3, b3⟩ <;> rcases abs_cases (r x - y) with ⟨a4, b4⟩ | ⟨a4, b4⟩ <;> linarith

theorem Rounds.zero (hr : Rounds r) : r 0 = 0 := hr.exact IsF32.zero

theorem Rounds.one (hr : Rounds r) : r 1 = 1 := hr.exact IsF32.one

theorem Rounds.nonneg (hr : Rounds r) {x : Rat} (h : 0 ≤ x) : 0 ≤ r x := hr.zero ▸ hr.mono h

theorem Rounds.le (hr : Rounds r) {x y : Rat} (hy : IsF32 y) (h : x ≤ y) : r x ≤ y := hr.exact hy ▸ hr.mono h

theorem Rounds.ge (hr : Rounds r) {x y : Rat} (hy : IsF32 y) (h : y ≤ x) : y ≤ r x := by
  have := hr.mono h
  rwa [hr.exact hy] at this

/-- Rounding the mirrored number. -/
theorem Rounds.mirror (hr : Rounds r) : Rounds fun x => -r (-x) where
  number x := (hr.number _).neg
  nearest x y hy := by
    have := hr.nearest (-x) (-y) hy.neg
    rw [← abs_neg, ← abs_neg (y - x)]
    convert this using 2 <;> ring

/-- The number below a positive one. -/
theorem IsF32.before {t : Rat} (h : IsF32 t) (ht : 0 < t) {d : Rat} (hd : IsF32 d) (hd0 : 0 < d) (hle : t < 2 ^ 24 * d) :
    ∃ y, IsF32 y ∧ t - 2 * d < y ∧ y < t := by
  obtain ⟨m, e, h1, h2, h3, h4, h5⟩ := h.normal ht
  have hp := two_zpow_pos e
  refine ⟨(m - 1 : Int) * 2 ^ e, ⟨m - 1, e, ?_, h3, rfl⟩, ?_, ?_⟩
  · rw [abs_lt]; constructor <;> omega
  · suffices (2 : Rat) ^ e < 2 * d by rw [h5]; push_cast; nlinarith
    rcases h4 with rfl | h4
    · obtain ⟨k, hk⟩ := hd.smallest
      have : (0 : Rat) * 2 ^ (-149 : Int) < k * 2 ^ (-149 : Int) := by rw [← hk]; simpa using hd0
      have := step_apart hp (a := 0) (b := k) (by simpa using this)
      rw [hk]; push_cast at this; linarith
    · have : (2 : Rat) ^ 23 ≤ m := by exact_mod_cast h4
      have : (2 : Rat) ^ 23 * 2 ^ e ≤ t := by rw [h5]; nlinarith
      norm_num at this hle ⊢
      linarith
  · rw [h5]; push_cast; nlinarith

/-- Taking away a number that is not too small makes it smaller. -/
theorem Rounds.sub_lt (hr : Rounds r) {t d : Rat} (h : IsF32 t) (ht : 0 < t) (hd : IsF32 d) (hd0 : 0 < d) (hle : t < 2 ^ 24 * d) : r (t - d) < t := by
  refine lt_of_le_of_ne (hr.le h (by linarith)) fun heq => ?_
  obtain ⟨y, hy, h1, h2⟩ := h.before ht hd hd0 hle
  have := hr.nearest (t - d) y hy
  rw [heq] at this
  rcases abs_cases (t - (t - d)) with ⟨a1, b1⟩ | ⟨a1, b1⟩ <;> rcases abs_cases (y - (t - d)) with ⟨a2, b2⟩ | ⟨a2, b2⟩ <;> linarith

/-- There is nothing between a positive number and what is less than a part of `2 ^ 24` below it. -/
theorem IsF32.gap_below {t y : Rat} (h : IsF32 t) (hy : IsF32 y) (h1 : y < t) (h2 : 2 ^ 24 * (t - y) < t) : False := by
  have ht : 0 < t := by
    have h0 : 0 < t - y := by linarith
    have h0 : 0 < 2 ^ 24 * (t - y) := by positivity
    linarith
  obtain ⟨m, e, k1, k2, k3, k4, k5⟩ := h.normal ht
  have hp := two_zpow_pos e
  have km : (m : Rat) < 2 ^ 24 := by exact_mod_cast k2
  have hty : t - y < 2 ^ e := by
    by_contra hc
    have hc := not_lt.1 hc
    rw [k5] at h2 hc
    norm_num at h2 hc km
    nlinarith
  by_cases hm : m ≤ 2 ^ 23 ∧ e ≠ -149
  · -- the step below is the half
    have hm' : m = 2 ^ 23 := by omega
    have hq := two_zpow_pred e
    have hq0 := two_zpow_pos (e - 1)
    have hte : t = 2 ^ 24 * 2 ^ (e - 1) := by rw [k5, hm', hq]; push_cast; ring
    have hlt : t - y < 2 ^ (e - 1) := by
      by_contra hc
      have hc := not_lt.1 hc
      rw [hte] at h2 hc
      norm_num at h2 hc
      linarith
    obtain ⟨k, hk⟩ := hy.multiple (e := e - 1) (by
      have h23 := two_zpow_shift (e - 1) 23
      push_cast at h23
      rw [h23, abs_of_pos (by rw [hte] at hlt; norm_num at hlt ⊢; linarith)]
      rw [hte] at hlt; norm_num at hlt ⊢; linarith)
    have := step_apart hq0 (a := k) (b := 2 ^ 24) (by rw [← hk]; rw [hte] at h1; norm_num at h1 ⊢; exact h1)
    rw [← hk] at this; rw [hte] at hlt; norm_num at this hlt
    linarith
  · have hmul : ∃ k : Int, y = k * (2 : Rat) ^ e := by
      by_cases he : e = -149
      · rw [he]; exact hy.smallest
      · have hm2 : 2 ^ 23 + 1 ≤ m := by omega
        have hm3 : (2 : Rat) ^ 23 + 1 ≤ m := by exact_mod_cast hm2
        have h23 := two_zpow_shift e 23
        push_cast at h23
        have hge : (2 : Rat) ^ 23 * 2 ^ e ≤ y := by rw [k5] at hty; nlinarith
        exact hy.multiple (by rw [h23, abs_of_pos (lt_of_lt_of_le (by positivity) hge)]; exact hge)
    obtain ⟨k, hk⟩ := hmul
    have := step_apart hp (a := k) (b := m) (by rw [← hk, ← k5]; exact h1)
    rw [← hk, ← k5] at this
    linarith

/-- There is nothing between a positive number and what is less than a part of `2 ^ 24` above it. -/
theorem IsF32.gap_above {t y : Rat} (h : IsF32 t) (hy : IsF32 y) (h1 : t < y) (h2 : 2 ^ 24 * (y - t) < t) : False := by
  exact hy.gap_below h h1 (by linarith)

/-- Taking away less than a part of `2 ^ 25` changes nothing. -/
theorem Rounds.sub_stays (hr : Rounds r) {t d : Rat} (h : IsF32 t) (hd : 0 ≤ d) (hlt : 2 ^ 25 * d < t) : r (t - d) = t := by
  by_contra hne
  have h1 := hr.nearest (t - d) t h
  have h2 := hr.le h (x := t - d) (by linarith)
  have h3 : r (t - d) < t := lt_of_le_of_ne h2 hne
  refine h.gap_below (hr.number (t - d)) h3 ?_
  have h4 : |t - (t - d)| = d := by rw [show t - (t - d) = d by ring, abs_of_nonneg hd]
  rw [h4] at h1
  rcases abs_cases (r (t - d) - (t - d)) with ⟨a1, b1⟩ | ⟨a1, b1⟩ <;> norm_num at hlt ⊢ <;> linarith

/-- Adding less than a part of `2 ^ 25` changes nothing. -/
theorem Rounds.add_stays (hr : Rounds r) {t d : Rat} (h : IsF32 t) (hd : 0 ≤ d) (hlt : 2 ^ 25 * d < t) : r (t + d) = t := by
  by_contra hne
  have h1 := hr.nearest (t + d) t h
  have h2 := hr.ge h (x := t + d) (by linarith)
  have h3 : t < r (t + d) := lt_of_le_of_ne h2 (Ne.symm hne)
  refine h.gap_above (hr.number (t + d)) h3 ?_
  have h4 : |t - (t + d)| = d := by rw [show t - (t + d) = -d by ring, abs_neg, abs_of_nonneg hd]
  rw [h4] at h1
  rcases abs_cases (r (t + d) - (t + d)) with ⟨a1, b1⟩ | ⟨a1, b1⟩ <;> norm_num at hlt ⊢ <;> linarith

/-! ## Interpolation -/

/-- A proper part of a rounded difference is not larger than the difference. -/
theorem Rounds.part_le (hr : Rounds r) {x y t : Rat} (hx : IsF32 x) (hy : IsF32 y) (ht : IsF32 t) (hxy : x ≤ y) (h1 : t < 1) : r (r (y - x) * t) ≤ y - x := by
  have hw : 0 ≤ y - x := by linarith
  have hv := hr.nonneg hw
  have hvt : r (y - x) * t ≤ r (y - x) := by nlinarith
  have hu : r (r (y - x) * t) ≤ r (y - x) := hr.le (hr.number _) hvt
  by_contra hc
  have hc := not_le.1 hc
  have hlt : y - x < r (y - x) := lt_of_lt_of_le hc hu
  have heq : r (r (y - x) * t) = r (y - x) := by
    refine le_antisymm hu ?_
    have := hr.nearest (y - x) _ (hr.number (r (y - x) * t))
    rw [abs_of_pos (by linarith), abs_of_pos (by linarith)] at this
    linarith
  have hpos : 0 < r (y - x) := by linarith
  have hnum := hr.number (y - x)
  obtain ⟨m, e, k1, k2, k3, k4, k5⟩ := hnum.normal hpos
  have hp := two_zpow_pos e
  have ht1 := ht.below_one h1
  by_cases he : e = -149
  · -- small differences are exact
    obtain ⟨a, ha⟩ := hx.smallest
    obtain ⟨b, hb⟩ := hy.smallest
    have hab : y - x = ((b - a : Int) : Rat) * 2 ^ (-149 : Int) := by rw [ha, hb]; push_cast; ring
    have h2 : ((b - a : Int) : Rat) < m := by
      rw [hab, ← hab, k5, he] at hlt
      rw [hab] at hlt
      exact lt_of_mul_lt_mul_right hlt (two_zpow_pos _).le
    have h2 : b - a < m := by exact_mod_cast h2
    have h3 : 0 ≤ b - a := by
      have : (0 : Rat) ≤ ((b - a : Int) : Rat) := by
        rw [hab] at hw
        exact nonneg_of_mul_nonneg_left hw (two_zpow_pos _)
      exact_mod_cast this
    have : r (y - x) = y - x := hr.exact ⟨b - a, -149, by rw [abs_of_nonneg h3]; omega, le_rfl, hab⟩
    linarith
  · have k6 : 2 ^ 23 ≤ m := by omega
    have k7 : (2 : Rat) ^ 23 ≤ m := by exact_mod_cast k6
    -- the number before
    obtain ⟨p, hp1, hp2, hp3⟩ : ∃ p, IsF32 p ∧ p < r (y - x) ∧ 2 * (r (y - x) * t) < p + r (y - x) := by
      have hd : r (y - x) * t ≤ r (y - x) - r (y - x) * 2 ^ (-24 : Int) := by nlinarith
      by_cases hm : m = 2 ^ 23
      · refine ⟨((2 ^ 24 - 1 : Int) : Rat) * 2 ^ (e - 1), ⟨2 ^ 24 - 1, e - 1, by norm_num, by omega, rfl⟩, ?_, ?_⟩
        · rw [k5, hm, two_zpow_pred e]; push_cast; nlinarith [two_zpow_pos (e - 1)]
        · rw [k5, hm, two_zpow_pred e] at hd ⊢
          have := two_zpow_pos (e - 1)
          norm_num at hd ⊢
          linarith
      · refine ⟨((m - 1 : Int) : Rat) * 2 ^ e, ⟨m - 1, e, by rw [abs_lt]; constructor <;> omega, k3, rfl⟩, ?_, ?_⟩
        · rw [k5]; push_cast; nlinarith
        · have k8 : 2 ^ 23 + 1 ≤ m := by omega
          have k9 : (2 : Rat) ^ 23 + 1 ≤ m := by exact_mod_cast k8
          have k10 : (2 ^ 23 + 1) * (2 : Rat) ^ e ≤ m * 2 ^ e := mul_le_mul_of_nonneg_right k9 hp.le
          rw [k5] at hd ⊢
          push_cast
          norm_num at hd k10 ⊢
          linarith
    have := hr.nearest (r (y - x) * t) p hp1
    rw [heq, abs_of_nonneg (by linarith)] at this
    rcases abs_cases (p - r (y - x) * t) with ⟨a1, b1⟩ | ⟨a1, b1⟩
    · linarith
    · linarith

/-- Rounded interpolation stays between its ends. -/
theorem Rounds.mix_between (hr : Rounds r) {x y t : Rat} (hx : IsF32 x) (hy : IsF32 y) (ht : IsF32 t) (h0 : 0 ≤ t) (h1 : t < 1) :
    min x y ≤ r (x + r (r (y - x) * t)) ∧ r (x + r (r (y - x) * t)) ≤ max x y := by
  have key : ∀ {r : Rat → Rat}, Rounds r → ∀ {x y : Rat}, IsF32 x → IsF32 y → x ≤ y → x ≤ r (x + r (r (y - x) * t)) ∧ r (x + r (r (y - x) * t)) ≤ y := by
    intro r hr x y hx hy hxy
    have h2 := hr.part_le hx hy ht hxy h1
    have h3 : 0 ≤ r (r (y - x) * t) := hr.nonneg (mul_nonneg (hr.nonneg (by linarith)) h0)
    exact ⟨hr.ge hx (by linarith), hr.le hy (by linarith)⟩
  rcases le_total x y with h | h
  · rw [min_eq_left h, max_eq_right h]; exact key hr hx hy h
  · rw [min_eq_right h, max_eq_left h]
    have := key hr.mirror hx.neg hy.neg (by linarith)
    have e1 : -(-y - -x) = y - x := by ring
    have e2 : -(-r (y - x) * t) = r (y - x) * t := by ring
    have e3 : -(-x + -r (r (y - x) * t)) = x + r (r (y - x) * t) := by ring
    simp only [e1, e2, e3] at this
    constructor <;> linarith [this.1, this.2]

/-- It does not go back. -/
theorem Rounds.mix_mono (hr : Rounds r) {x y t t' : Rat} (hxy : x ≤ y) (h : t ≤ t') : r (x + r (r (y - x) * t)) ≤ r (x + r (r (y - x) * t')) := by
  have h0 := hr.nonneg (x := y - x) (by linarith)
  exact hr.mono (by have := hr.mono (mul_le_mul_of_nonneg_left h h0); linarith)

end Verif
