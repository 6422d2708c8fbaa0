import Verif.Props.Rounded
import Verif.Float.Bounds
import Verif.Float.Concrete
/-!
# C92: exactly when an animation hangs the program
-/
namespace Verif

variable {r : Rat → Rat}

/-- The number before one that is not above `2 ^ (k + 24)` is less than `2 * d` away, if `d` is more than half of `2 ^ k`. -/
theorem IsF32.just_before {t : Rat} (h : IsF32 t) (ht : 0 < t) {d : Rat} (hd : IsF32 d) (hd0 : 0 < d) {k : Int} (hk : (2 : Rat) ^ k < 2 * d)
    (hle : t ≤ 2 ^ (k + 24)) : ∃ y, IsF32 y ∧ t - 2 * d < y ∧ y < t := by
  obtain ⟨m, f, h1, h2, h3, h4, h5⟩ := h.normal ht
  have hp := two_zpow_pos f
  by_cases hf : (2 : Rat) ^ f < 2 * d
  · refine ⟨(m - 1 : Int) * 2 ^ f, ⟨m - 1, f, by rw [abs_lt]; constructor <;> omega, h3, rfl⟩, ?_, ?_⟩
    · rw [h5]; push_cast; linarith
    · rw [h5]; push_cast; linarith
  · have hfk : k < f := by
      by_contra hc
      exact hf (lt_of_le_of_lt (two_zpow_le (not_lt.1 hc)) hk)
    have hf149 : f ≠ -149 := by
      intro he
      obtain ⟨n, hn⟩ := hd.smallest
      have hs := two_zpow_pos (-149)
      have hn0 : (0 : Rat) < n := by
        rw [hn] at hd0
        exact (mul_pos_iff_of_pos_right hs).1 hd0
      have hn1 : 1 ≤ n := by exact_mod_cast hn0
      have hn2 : (1 : Rat) ≤ n := by exact_mod_cast hn1
      apply hf
      rw [he, hn]
      nlinarith
    have hm : 2 ^ 23 ≤ m := by rcases h4 with h4 | h4; exact absurd h4 hf149; exact h4
    have hm' : (2 : Rat) ^ 23 ≤ m := by exact_mod_cast hm
    have h24 : (2 : Rat) ^ (k + 24) = 2 ^ 24 * 2 ^ k := by exact_mod_cast two_zpow_shift k 24
    obtain ⟨n, hn⟩ := Int.le.dest (show k + 1 ≤ f by omega)
    have hfn : (2 : Rat) ^ f = 2 ^ n * (2 * 2 ^ k) := by rw [← hn, two_zpow_shift, two_zpow_succ]
    have hkp := two_zpow_pos k
    have hn1 : (1 : Rat) ≤ 2 ^ n := one_le_pow₀ (by norm_num)
    have hmn : (m : Rat) * 2 ^ n ≤ 2 ^ 23 := by
      rw [h5, hfn, h24] at hle
      have : (m : Rat) * 2 ^ n * (2 * 2 ^ k) ≤ 2 ^ 23 * (2 * 2 ^ k) := by norm_num at hle ⊢; linarith
      exact le_of_mul_le_mul_right this (by positivity)
    have hm2 : (m : Rat) = 2 ^ 23 := by
      refine le_antisymm ?_ hm'
      have : (0 : Rat) ≤ m := by norm_num at hm' ⊢; linarith
      nlinarith
    have hn2 : (2 : Rat) ^ n = 1 := by
      refine le_antisymm ?_ hn1
      rw [hm2] at hmn
      norm_num at hmn ⊢
      linarith
    have hn0 : n = 0 := by
      by_contra hc
      have : (1 : Rat) < 2 ^ n := one_lt_pow₀ (by norm_num) hc
      linarith
    rw [hn2, one_mul] at hfn
    refine ⟨((2 ^ 24 - 1 : Int) : Rat) * 2 ^ k, ⟨2 ^ 24 - 1, k, by norm_num, by omega, rfl⟩, ?_, ?_⟩
    · rw [h5, hm2, hfn]; norm_num; linarith
    · rw [h5, hm2, hfn]; norm_num; linarith

/-- Taking away more than half a step changes the number. -/
theorem Rounds.sub_moves (hr : Rounds r) {t d : Rat} (h : IsF32 t) (ht : 0 < t) (hd : IsF32 d) (hd0 : 0 < d) {k : Int} (hk : (2 : Rat) ^ k < 2 * d)
    (hle : t ≤ 2 ^ (k + 24)) : r (t - d) < t := by
  refine lt_of_le_of_ne (hr.le h (by linarith)) fun heq => ?_
  obtain ⟨y, hy, h1, h2⟩ := h.just_before ht hd hd0 hk hle
  have := hr.nearest (t - d) y hy
  rw [heq, show t - (t - d) = d by ring, abs_of_pos hd0] at this
  rcases abs_cases (y - (t - d)) with ⟨a1, b1⟩ | ⟨a1, b1⟩ <;> linarith

/-- Taking away less than half a step does not. -/
theorem Rounds.sub_rests (hr : Rounds r) {t d : Rat} (h : IsF32 t) (hd0 : 0 < d) {k : Int} (hk : 2 * d < (2 : Rat) ^ k)
    (hlt : 2 ^ (k + 23) < t) : r (t - d) = t := by
  by_contra hne
  have h1 := hr.nearest (t - d) t h
  have h2 := hr.le h (x := t - d) (by linarith)
  have h3 : r (t - d) < t := lt_of_le_of_ne h2 hne
  rw [show t - (t - d) = d by ring, abs_of_pos hd0] at h1
  have hy : t - 2 * d ≤ r (t - d) := by
    rcases abs_cases (r (t - d) - (t - d)) with ⟨a1, b1⟩ | ⟨a1, b1⟩ <;> linarith
  have hkp := two_zpow_pos k
  have h23 : (2 : Rat) ^ (k + 23) = ((2 ^ 23 : Int) : Rat) * 2 ^ k := by
    have := two_zpow_shift k 23
    push_cast at this ⊢
    exact this
  have hpos := two_zpow_pos (k + 23)
  obtain ⟨m, hm⟩ := h.multiple (e := k) (by rw [abs_of_pos (by linarith)]; exact hlt.le)
  have hs : ((2 ^ 23 : Int) : Rat) * 2 ^ k + 2 ^ k ≤ m * 2 ^ k := step_apart hkp (by rw [← h23, ← hm]; exact hlt)
  rw [← h23, ← hm] at hs
  have hge : 2 ^ (k + 23) ≤ r (t - d) := by linarith
  obtain ⟨n, hn⟩ := (hr.number (t - d)).multiple (e := k) (by rw [abs_of_pos (by linarith)]; exact hge)
  have := step_apart hkp (a := n) (b := m) (by rw [← hn, ← hm]; exact h3)
  rw [← hn, ← hm] at this
  linarith

theorem wrapTimeIn_ends (hr : Rounds r) {d : Rat} (hd : 0 < d) (hdf : IsF32 d) {k : Int} (hk : (2 : Rat) ^ k < 2 * d) {t : Rat} (ht : IsF32 t) (h0 : 0 ≤ t)
    (hle : t ≤ 2 ^ (k + 24)) : ∃ n t', ∀ fuel ≥ n, wrapTimeIn r d fuel t = .ok t' := by
  obtain ⟨j, hj⟩ := ht.smallest
  have hs := two_zpow_pos (-149)
  have hj0 : 0 ≤ j := by
    have : (0 : Rat) ≤ j := by
      rw [hj] at h0
      exact nonneg_of_mul_nonneg_left h0 hs
    exact_mod_cast this
  obtain ⟨m, rfl⟩ := Int.eq_ofNat_of_zero_le hj0
  induction m using Nat.strongRecOn generalizing t with
  | ind m ih =>
    by_cases hlt : t > d
    · have hlt' := hr.sub_moves ht (by linarith) hdf hd hk hle
      have hnn : 0 ≤ r (t - d) := hr.nonneg (by linarith)
      obtain ⟨j', hj'⟩ := (hr.number (t - d)).smallest
      have hj0' : 0 ≤ j' := by
        have : (0 : Rat) ≤ j' := by
          rw [hj'] at hnn
          exact nonneg_of_mul_nonneg_left hnn hs
        exact_mod_cast this
      obtain ⟨m', rfl⟩ := Int.eq_ofNat_of_zero_le hj0'
      have hm : m' < m := by
        have h1 : ((m' : Int) : Rat) * 2 ^ (-149 : Int) < ((m : Int) : Rat) * 2 ^ (-149 : Int) := by rw [← hj', ← hj]; exact hlt'
        have := lt_of_mul_lt_mul_right h1 hs.le
        exact_mod_cast this
      obtain ⟨n, t', h⟩ := ih m' hm (hr.number (t - d)) hnn (by linarith) hj' (by omega)
      refine ⟨n + 1, t', fun fuel hf => ?_⟩
      obtain ⟨g, rfl⟩ : ∃ g, fuel = g + 1 := ⟨fuel - 1, by omega⟩
      simp only [wrapTimeIn]
      rw [if_pos hlt]
      exact h g (by omega)
    · refine ⟨1, t, fun fuel hf => ?_⟩
      obtain ⟨g, rfl⟩ : ∃ g, fuel = g + 1 := ⟨fuel - 1, by omega⟩
      simp only [wrapTimeIn]
      rw [if_neg hlt]

theorem wrapTimeIn_stuck {d t : Rat} (hlt : d < t) (h : r (t - d) = t) (fuel : Nat) : wrapTimeIn r d fuel t = .error .endless := by
  induction fuel with
  | zero => rfl
  | succ n ih =>
    simp only [wrapTimeIn]
    rw [if_pos hlt, h]
    exact ih

/-- The time of an animation (without its delay) from which the finished iterations are taken away
(`animation.rs` 155-162): not after its end. -/
def Animator.localIn (r : Rat → Rat) (a : Animator) (time : Rat) : Rat :=
  match a.iterations with
  | .number n => min (r (r (a.time + time) - a.delay)) (r (n * a.duration))
  | .infinite => r (r (a.time + time) - a.delay)

theorem localIn_number (hr : Rounds r) (a : Animator) (time : Rat) : IsF32 (a.localIn r time) := by
  unfold Animator.localIn
  cases a.iterations with
  | infinite => exact hr.number _
  | number n => exact (min_choice (r (r (a.time + time) - a.delay)) (r (n * a.duration))).elim (fun h => by simp only [h]; exact hr.number _) (fun h => by simp only [h]; exact hr.number _)

theorem localIn_le (a : Animator) (time : Rat) : a.localIn r time ≤ r (r (a.time + time) - a.delay) := by
  unfold Animator.localIn
  cases a.iterations with
  | infinite => exact le_rfl
  | number n => exact min_le_left _ _

theorem updateIn_local {a : Animator} (hd : 0 < a.duration) (hrun : a.running = true) {time : Rat} (h : 0 < a.localIn r time) (fuel : Nat) :
    a.updateIn r fuel time = match wrapTimeIn r a.duration fuel (a.localIn r time) with
      | .error e => .error e
      | .ok t => .ok ({ a with time := r (a.time + time) }, some (.value (r (t / a.duration)))) := by
  have := localIn_le (r := r) a time
  rw [updateIn_eq _ _ _ hd hrun, if_neg (by linarith)]
  unfold Animator.localIn
  cases a.iterations <;> rfl

/-- C92, exactly: an animation whose time (without its delay, and not after its end) is above `2 ^ (k + 23)` and not above
`2 ^ (k + 24)` comes to an end in this frame if twice its duration is more than `2 ^ k`, the distance of the 32-bit numbers there; it
hangs the program for ever if it is less. -/
theorem C92_exactly (hr : Rounds r) {a : Animator} (hd : 0 < a.duration) (hdf : IsF32 a.duration) (hrun : a.running = true) {time : Rat} {k : Int}
    (hlo : 2 ^ (k + 23) < a.localIn r time) (hhi : a.localIn r time ≤ 2 ^ (k + 24)) :
    (2 ^ k < 2 * a.duration → ∃ n, ∀ fuel ≥ n, ∃ res, a.updateIn r fuel time = .ok res) ∧
    (2 * a.duration < 2 ^ k → ∀ fuel, a.updateIn r fuel time = .error .endless) := by
  have hpos : 0 < a.localIn r time := lt_trans (two_zpow_pos _) hlo
  constructor
  · intro hk
    obtain ⟨n, t', h⟩ := wrapTimeIn_ends hr hd hdf hk (localIn_number hr a time) hpos.le hhi
    exact ⟨n, fun fuel hf => ⟨_, by rw [updateIn_local hd hrun hpos, h fuel hf]⟩⟩
  · intro hk fuel
    have h23 : (2 : Rat) ^ (k + 23) = 2 ^ 23 * 2 ^ k := by exact_mod_cast two_zpow_shift k 23
    have hkp := two_zpow_pos k
    rw [updateIn_local hd hrun hpos, wrapTimeIn_stuck (by rw [h23] at hlo; norm_num at hlo ⊢; linarith) (hr.sub_rests (localIn_number hr a time) hd hk hlo)]

/-- Every positive time is in one of these ranges. -/
theorem exists_range {t : Rat} (ht : 0 < t) : ∃ k : Int, (2 : Rat) ^ (k + 23) < t ∧ t ≤ 2 ^ (k + 24) := by
  obtain ⟨e, h1, h2⟩ := exists_mem_Ioc_zpow (show 0 < t from ht) (show (1 : Rat) < 2 by norm_num)
  exact ⟨e - 23, by rw [show e - 23 + 23 = e by ring]; exact h1, by rw [show e - 23 + 24 = e + 1 by ring]; exact h2⟩

/-- Taking away half a step rounds to the even one of the two numbers. -/
theorem f32_half {m k : Int} (hk : -149 ≤ k) (h1 : 2 ^ 23 < m) (h2 : m ≤ 2 ^ 24) {d : Rat} (hd : 2 * d = 2 ^ k) :
    f32 (m * 2 ^ k - d) = (if m % 2 = 0 then m else m - 1 : Int) * 2 ^ k := by
  have hkp := two_zpow_pos k
  have h1' : (2 : Rat) ^ 23 + 1 ≤ m := by exact_mod_cast h1
  have h2' : (m : Rat) ≤ 2 ^ 24 := by exact_mod_cast h2
  have hx : (m : Rat) * 2 ^ k - d = (m - 1 / 2) * 2 ^ k := by rw [← hd]; ring
  have h23 : (2 : Rat) ^ (k + 23) = 2 ^ 23 * 2 ^ k := by exact_mod_cast two_zpow_shift k 23
  have h24 : (2 : Rat) ^ (k + 24) = 2 ^ 24 * 2 ^ k := by exact_mod_cast two_zpow_shift k 24
  have hpos : 0 < (m - 1 / 2 : Rat) * 2 ^ k := mul_pos (by norm_num at h1' ⊢; linarith) hkp
  have hlow : (2 : Rat) ^ (k + 23) ≤ |(m - 1 / 2 : Rat) * 2 ^ k| := by
    rw [abs_of_pos hpos, h23]
    exact mul_le_mul_of_nonneg_right (by linarith) hkp.le
  have hhigh : |(m - 1 / 2 : Rat) * 2 ^ k| < (2 : Rat) ^ (k + 24) := by
    rw [abs_of_pos hpos, h24]
    exact mul_lt_mul_of_pos_right (by linarith) hkp
  obtain ⟨b1, b2⟩ := binaryLog_spec hpos.ne'
  have hlog : binaryLog ((m - 1 / 2 : Rat) * 2 ^ k) = k + 23 := by
    have c1 : binaryLog ((m - 1 / 2 : Rat) * 2 ^ k) < k + 24 := by
      by_contra hc
      exact absurd (lt_of_le_of_lt (le_trans (two_zpow_le (not_lt.1 hc)) b1) hhigh) (lt_irrefl _)
    have c2 : k + 23 < binaryLog ((m - 1 / 2 : Rat) * 2 ^ k) + 1 := by
      by_contra hc
      exact absurd (lt_of_lt_of_le (lt_of_le_of_lt hlow b2) (two_zpow_le (not_lt.1 hc))) (lt_irrefl _)
    omega
  have hlast : lastPlace ((m - 1 / 2 : Rat) * 2 ^ k) = k := by
    unfold lastPlace
    rw [hlog]
    omega
  unfold f32
  rw [hx, hlast, mul_div_cancel_right₀ _ hkp.ne']
  have hfloor : (m - 1 / 2 : Rat).floor = m - 1 := by
    have e1 : ((m - 1 : Int) : Rat) ≤ m - 1 / 2 := by push_cast; linarith
    have e2 : (m - 1 / 2 : Rat) < ((m - 1 : Int) : Rat) + 1 := by push_cast; linarith
    refine le_antisymm (Int.lt_add_one_iff.1 (Rat.floor_lt_iff.2 ?_)) (Rat.le_floor_iff.2 e1)
    push_cast at e2 ⊢
    exact e2
  unfold roundEven
  simp only [hfloor]
  have hmid : (m - 1 / 2 : Rat) - ((m - 1 : Int) : Rat) = 1 / 2 := by push_cast; ring
  rw [hmid, if_neg (by norm_num), if_neg (by norm_num)]
  congr 2
  rcases Int.emod_two_eq m with hm | hm
  · rw [if_neg (by omega), if_pos hm]; omega
  · rw [if_pos (by omega), if_neg (by omega)]

/-- C92, the rest: with the rounding of IEEE 754, if twice the duration is exactly the distance `2 ^ k` of the numbers there, the
animation hangs the program for ever, except at the first number of the range. -/
theorem C92_exactly_even {a : Animator} (hd : 0 < a.duration) (hdf : IsF32 a.duration) (hrun : a.running = true) {time : Rat} {k : Int}
    (hlo : 2 ^ (k + 23) < a.localIn f32 time) (hhi : a.localIn f32 time ≤ 2 ^ (k + 24)) (hk : 2 * a.duration = 2 ^ k) :
    (a.localIn f32 time ≠ 2 ^ (k + 23) + 2 ^ k → ∀ fuel, a.updateIn f32 fuel time = .error .endless) ∧
    (a.localIn f32 time = 2 ^ (k + 23) + 2 ^ k → ∃ n, ∀ fuel ≥ n, ∃ res, a.updateIn f32 fuel time = .ok res) := by
  have hpos : 0 < a.localIn f32 time := lt_trans (two_zpow_pos _) hlo
  have hkp := two_zpow_pos k
  have hkl : -149 ≤ k := by
    by_contra hc
    obtain ⟨n, hn⟩ := hdf.smallest
    have hs := two_zpow_pos (-149)
    have hn0 : (0 : Rat) < n := by
      rw [hn] at hd
      exact (mul_pos_iff_of_pos_right hs).1 hd
    have hn1 : 1 ≤ n := by exact_mod_cast hn0
    have hn2 : (1 : Rat) ≤ n := by exact_mod_cast hn1
    have := two_zpow_le (show k ≤ -149 by omega)
    rw [← hk, hn] at this
    nlinarith
  have h23 : (2 : Rat) ^ (k + 23) = 2 ^ 23 * 2 ^ k := by exact_mod_cast two_zpow_shift k 23
  have h24 : (2 : Rat) ^ (k + 24) = 2 ^ 24 * 2 ^ k := by exact_mod_cast two_zpow_shift k 24
  obtain ⟨m, hm⟩ := (localIn_number f32_rounds a time).multiple (e := k) (by rw [abs_of_pos hpos]; exact hlo.le)
  have hm1 : 2 ^ 23 < m := by
    rw [hm, h23] at hlo
    have := lt_of_mul_lt_mul_right hlo hkp.le
    exact_mod_cast this
  have hm2 : m ≤ 2 ^ 24 := by
    rw [hm, h24] at hhi
    have := le_of_mul_le_mul_right hhi hkp
    exact_mod_cast this
  have hgt : ∀ {j : Int}, 2 ^ 23 ≤ j → a.duration < j * 2 ^ k := by
    intro j hj
    have hj' : (2 : Rat) ^ 23 ≤ j := by exact_mod_cast hj
    have := mul_le_mul_of_nonneg_right hj' hkp.le
    norm_num at this
    linarith
  have heven : ∀ {j : Int}, 2 ^ 23 < j → j ≤ 2 ^ 24 → j % 2 = 0 → ∀ fuel, wrapTimeIn f32 a.duration fuel (j * 2 ^ k) = .error .endless := fun h1 h2 h3 fuel =>
    wrapTimeIn_stuck (hgt h1.le) (by rw [f32_half hkl h1 h2 hk, if_pos h3]) fuel
  constructor
  · intro hne fuel
    rw [updateIn_local hd hrun hpos, hm]
    suffices wrapTimeIn f32 a.duration fuel (m * 2 ^ k) = .error .endless by rw [this]
    by_cases hev : m % 2 = 0
    · exact heven hm1 hm2 hev fuel
    · cases fuel with
      | zero => rfl
      | succ n =>
        simp only [wrapTimeIn]
        rw [if_pos (hgt hm1.le), f32_half hkl hm1 hm2 hk, if_neg hev]
        refine heven ?_ (by omega) (by omega) n
        have : m ≠ 2 ^ 23 + 1 := by
          intro he
          apply hne
          rw [hm, he, h23]
          push_cast
          ring
        omega
  · intro he
    have hm3 : m = 2 ^ 23 + 1 := by
      rw [hm, h23] at he
      have : (m : Rat) * 2 ^ k = (2 ^ 23 + 1) * 2 ^ k := by rw [he]; ring
      have := mul_right_cancel₀ hkp.ne' this
      exact_mod_cast this
    have hstep : f32 (m * 2 ^ k - a.duration) = 2 ^ (k + 23) := by
      rw [f32_half hkl hm1 hm2 hk, if_neg (by omega), hm3, h23]
      push_cast
      ring
    obtain ⟨n, t', h⟩ := wrapTimeIn_ends f32_rounds hd hdf (k := k - 1) (by rw [hk, two_zpow_pred k]; linarith [two_zpow_pos (k - 1)])
      (t := 2 ^ (k + 23)) (IsF32.power (by omega)) (two_zpow_pos _).le (by rw [show k - 1 + 24 = k + 23 by ring])
    refine ⟨n + 1, fun fuel hf => ⟨({ a with time := f32 (a.time + time) }, some (.value (f32 (t' / a.duration)))), ?_⟩⟩
    obtain ⟨g, rfl⟩ : ∃ g, fuel = g + 1 := ⟨fuel - 1, by omega⟩
    rw [updateIn_local hd hrun hpos, hm]
    simp only [wrapTimeIn]
    rw [if_pos (hgt hm1.le), hstep, h g (by omega)]

/-- C92 on concrete clocks: an infinite animation of 1/1024 s. After 2^14 s (16777216 iterations) it still comes to an end, at the next
number once more; one number further on it hangs, as it does with half the duration at 2^14 s plus one number. -/
theorem C92_exactly_example :
    (∃ n, ∀ fuel ≥ n, ∃ res, ({ duration := 1 / 1024, iterations := .infinite } : Animator).updateIn f32 fuel 16384 = .ok res) ∧
    (∃ n, ∀ fuel ≥ n, ∃ res, ({ duration := 1 / 1024, iterations := .infinite } : Animator).updateIn f32 fuel (16384 + 1 / 512) = .ok res) ∧
    (∀ fuel, ({ duration := 1 / 1024, iterations := .infinite } : Animator).updateIn f32 fuel (16384 + 1 / 256) = .error .endless) ∧
    (∀ fuel, ({ duration := 1 / 2048, iterations := .infinite } : Animator).updateIn f32 fuel (16384 + 1 / 512) = .error .endless) := by
  have hd : IsF32 (1 / 1024) := ⟨1, -10, by norm_num, by norm_num, by norm_num⟩
  have hd' : IsF32 (1 / 2048) := ⟨1, -11, by norm_num, by norm_num, by norm_num⟩
  refine ⟨(C92_exactly f32_rounds (a := { duration := 1 / 1024, iterations := .infinite }) (k := -10) (by norm_num) hd rfl (by decide +kernel) (by decide +kernel)).1 (by norm_num),
    (C92_exactly_even (a := { duration := 1 / 1024, iterations := .infinite }) (k := -9) (by norm_num) hd rfl (by decide +kernel) (by decide +kernel) (by norm_num)).2 (by decide +kernel),
    (C92_exactly_even (a := { duration := 1 / 1024, iterations := .infinite }) (k := -9) (by norm_num) hd rfl (by decide +kernel) (by decide +kernel) (by norm_num)).1 (by decide +kernel),
    (C92_exactly f32_rounds (a := { duration := 1 / 2048, iterations := .infinite }) (k := -9) (by norm_num) hd' rfl (by decide +kernel) (by decide +kernel)).2 (by norm_num)⟩

end Verif
