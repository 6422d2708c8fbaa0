import Verif.Spec.RoundedRuns
import Verif.Float.Concrete
import Verif.Props.Animation
import Verif.Props.Layout
/-!
# C91-C94: what is left of C51-C55 and C59 in 32-bit arithmetic

`r` is any rounding to the nearest `f32`; `f32` is the one of IEEE 754, with which the counterexamples are computed.
-/
namespace Verif

variable {r : Rat → Rat}

theorem roundings_exist : ∃ r, Rounds r := ⟨f32, f32_rounds⟩

/-! ## The clock -/

theorem updateIn_eq (fuel : Nat) (a : Animator) (time : Rat) (hd : 0 < a.duration) (hr : a.running = true) : a.updateIn r fuel time =
    if r (r (a.time + time) - a.delay) < 0 then .ok ({ a with time := r (a.time + time) }, none) else
      match wrapTimeIn r a.duration fuel (match a.iterations with
        | .number n => min (r (r (a.time + time) - a.delay)) (r (n * a.duration))
        | .infinite => r (r (a.time + time) - a.delay)) with
      | .error e => .error e
      | .ok t => .ok ({ a with time := r (a.time + time) }, some (.value (r (t / a.duration)))) := by
  have h : a.running = true ∧ a.duration > 0 := ⟨hr, hd⟩
  unfold Animator.updateIn
  simp only [if_pos h, if_neg hd.ne']
  cases a.iterations <;> rfl

theorem wrapTimeIn_range (hr : Rounds r) {d : Rat} {fuel : Nat} {t t' : Rat} (h0 : 0 ≤ t) (h : wrapTimeIn r d fuel t = .ok t') : 0 ≤ t' ∧ t' ≤ d := by
  induction fuel generalizing t with
  | zero => cases h
  | succ n ih =>
    simp only [wrapTimeIn] at h
    split at h
    · rename_i hlt
      exact ih (hr.nonneg (by linarith)) h
    · rename_i hle
      injection h with h
      subst h
      exact ⟨h0, not_lt.1 hle⟩

/-- What one frame does. -/
theorem updateIn_range (hr : Rounds r) {fuel : Nat} {a b : Animator} {time : Rat} {p : Option Progress} (hd : 0 < a.duration) (hf : a.Forward)
    (h : a.updateIn r fuel time = .ok (b, p)) :
    b = { a with time := b.time } ∧ ∀ q, p = some q → ∃ x, q = .value x ∧ 0 ≤ x ∧ x ≤ 1 ∧ IsF32 x := by
  have key : ∀ (c : Animator), c.duration = a.duration → c.iterations = a.iterations →
      (if r (c.time - c.delay) < 0 then (Except.ok (c, none) : Except Trouble (Animator × Option Progress)) else
        match wrapTimeIn r c.duration fuel (match c.iterations with | .number n => min (r (c.time - c.delay)) (r (n * c.duration)) | .infinite => r (c.time - c.delay)) with
        | .error e => .error e
        | .ok t => .ok (c, some (if c.duration = 0 then .nan else .value (r (t / c.duration))))) = .ok (b, p) →
      b = c ∧ ∀ q, p = some q → ∃ x, q = .value x ∧ 0 ≤ x ∧ x ≤ 1 ∧ IsF32 x := by
    intro c hcd hci h
    split at h
    · injection h with h; injection h with h1 h2
      exact ⟨h1.symm, fun q hq => by rw [← h2] at hq; cases hq⟩
    · rename_i hlt
      have hlt := not_lt.1 hlt
      cases hw : wrapTimeIn r c.duration fuel (match c.iterations with | .number n => min (r (c.time - c.delay)) (r (n * c.duration)) | .infinite => r (c.time - c.delay)) with
      | error e => rw [hw] at h; cases h
      | ok t =>
        rw [hw] at h
        injection h with h; injection h with h1 h2
        refine ⟨h1.symm, fun q hq => ?_⟩
        rw [← h2, if_neg (by rw [hcd]; exact hd.ne')] at hq
        injection hq with hq
        refine ⟨_, hq.symm, ?_⟩
        have h0 : 0 ≤ (match c.iterations with | .number n => min (r (c.time - c.delay)) (r (n * c.duration)) | .infinite => r (c.time - c.delay)) := by
          rw [hci, hcd]
          cases hi : a.iterations with
          | infinite => exact hlt
          | number n => exact le_min hlt (hr.nonneg (mul_nonneg (hf n hi) hd.le))
        obtain ⟨g1, g2⟩ := wrapTimeIn_range hr h0 hw
        rw [hcd] at g2 ⊢
        exact ⟨hr.nonneg (div_nonneg g1 hd.le), hr.le IsF32.one ((div_le_one hd).2 g2), hr.number _⟩
  unfold Animator.updateIn at h
  by_cases hrun : a.running = true ∧ a.duration > 0
  · simp only [if_pos hrun] at h
    obtain ⟨h1, h2⟩ := key { a with time := r (a.time + time) } rfl rfl h
    exact ⟨by rw [h1], h2⟩
  · simp only [if_neg hrun] at h
    obtain ⟨h1, h2⟩ := key a rfl rfl h
    exact ⟨by rw [h1], h2⟩

/-- C91: with any positive duration and any frames, the progress seen in a frame is a number from 0 to 1. -/
theorem C91_progress (hr : Rounds r) {fuel : Nat} {times : List Rat} {a a' : Animator} {ps : List (Option Progress)}
    (hd : 0 < a.duration) (hf : a.Forward) (h : a.framesIn r fuel times = .ok (a', ps)) :
    ps.length = times.length ∧ ∀ q, some q ∈ ps → ∃ x, q = .value x ∧ 0 ≤ x ∧ x ≤ 1 := by
  induction times generalizing a a' ps with
  | nil =>
    simp only [Animator.framesIn] at h
    injection h with h; injection h with h1 h2
    subst h2; exact ⟨rfl, fun q hq => by cases hq⟩
  | cons time times ih =>
    simp only [Animator.framesIn] at h
    cases hu : a.updateIn r fuel time with
    | error e => rw [hu] at h; cases h
    | ok res =>
      obtain ⟨b, p⟩ := res
      rw [hu] at h; simp only at h
      cases hb : b.framesIn r fuel times with
      | error e => rw [hb] at h; cases h
      | ok res =>
        obtain ⟨c, qs⟩ := res
        rw [hb] at h
        injection h with h; injection h with h1 h2
        subst h2
        obtain ⟨g1, g2⟩ := updateIn_range hr hd hf hu
        obtain ⟨i1, i2⟩ := ih (a := b) (by rw [g1]; exact hd) (by rw [g1]; exact hf) hb
        refine ⟨by simp [i1], fun q hq => ?_⟩
        rcases List.mem_cons.1 hq with hq | hq
        · obtain ⟨x, k1, k2, k3, -⟩ := g2 q hq.symm
          exact ⟨x, k1, k2, k3⟩
        · exact i2 q hq

/-- The clock along the frames. -/
theorem framesIn_clock {fuel : Nat} {times : List Rat} {a a' : Animator} {ps : List (Option Progress)}
    (hd : 0 < a.duration) (hrun : a.running = true) (h : a.framesIn r fuel times = .ok (a', ps)) :
    a' = { a with time := clockIn r a.time times } ∧ ∀ i p, ps[i]? = some p →
      ({ a with time := clockIn r a.time (times.take i) } : Animator).updateIn r fuel (times.getD i 0) = .ok ({ a with time := clockIn r a.time (times.take (i + 1)) }, p) := by
  induction times generalizing a a' ps with
  | nil =>
    simp only [Animator.framesIn] at h
    injection h with h; injection h with h1 h2
    subst h1 h2; exact ⟨rfl, fun i p hp => by simp at hp⟩
  | cons time times ih =>
    simp only [Animator.framesIn] at h
    cases hu : a.updateIn r fuel time with
    | error e => rw [hu] at h; cases h
    | ok res =>
      obtain ⟨b, p⟩ := res
      rw [hu] at h; simp only at h
      cases hb : b.framesIn r fuel times with
      | error e => rw [hb] at h; cases h
      | ok res =>
        obtain ⟨c, qs⟩ := res
        rw [hb] at h
        injection h with h; injection h with h1 h2
        subst h1 h2
        have hbt : b = { a with time := r (a.time + time) } := by
          rw [updateIn_eq _ _ _ hd hrun] at hu
          split at hu
          · injection hu with hu; injection hu with hu; exact hu.symm
          · split at hu
            · cases hu
            · injection hu with hu; injection hu with hu; exact hu.symm
        subst hbt
        obtain ⟨i1, i2⟩ := ih (a := { a with time := r (a.time + time) }) hd hrun hb
        refine ⟨i1, fun i q hq => ?_⟩
        cases i with
        | zero =>
          simp only [List.getElem?_cons_zero, Option.some.injEq] at hq
          subst hq
          exact hu
        | succ i =>
          simp only [List.getElem?_cons_succ] at hq
          exact i2 i q hq

/-- A difference of two numbers is not lost by rounding. -/
theorem Rounds.sub_neg_iff (hr : Rounds r) {x y : Rat} (hx : IsF32 x) (hy : IsF32 y) : r (x - y) < 0 ↔ x < y := by
  constructor
  · intro h
    by_contra hc
    have := hr.nonneg (x := x - y) (by linarith [not_lt.1 hc])
    linarith
  · intro h
    obtain ⟨a, ha⟩ := hx.smallest
    obtain ⟨b, hb⟩ := hy.smallest
    have hs := two_zpow_pos (-149)
    have h1 := step_apart hs (a := a) (b := b) (by rw [← ha, ← hb]; exact h)
    have h2 : IsF32 (-(2 : Rat) ^ (-149 : Int)) := ⟨-1, -149, by norm_num, le_rfl, by push_cast; ring⟩
    have := hr.le h2 (x := x - y) (by rw [ha, hb]; linarith)
    linarith

theorem clockIn_f32 (hr : Rounds r) {start : Rat} (h : IsF32 start) (times : List Rat) : IsF32 (clockIn r start times) := by
  induction times generalizing start with
  | nil => exact h
  | cons t ts ih => exact ih (hr.number _)

/-- C91: nothing is seen exactly as long as the clock is before the delay. -/
theorem C91_begins (hr : Rounds r) {fuel : Nat} {times : List Rat} {a a' : Animator} {ps : List (Option Progress)}
    (hd : 0 < a.duration) (hrun : a.running = true) (hdelay : IsF32 a.delay) (hstart : a.time = 0) (h : a.framesIn r fuel times = .ok (a', ps)) {i : Nat} {p : Option Progress}
    (hp : ps[i]? = some p) : p = none ↔ clockIn r 0 (times.take (i + 1)) < a.delay := by
  obtain ⟨-, g⟩ := framesIn_clock hd hrun h
  have g := g i p hp
  rw [updateIn_eq _ { a with time := clockIn r a.time (times.take i) } _ hd hrun] at g
  simp only at g
  rw [hstart] at g
  rw [← hr.sub_neg_iff (clockIn_f32 hr IsF32.zero _) hdelay]
  split at g
  · rename_i hlt
    injection g with g; injection g with g1 g2
    have : r (clockIn r 0 (times.take i) + times.getD i 0) = clockIn r 0 (times.take (i + 1)) := congrArg Animator.time g1
    rw [this] at hlt
    exact ⟨fun _ => hlt, fun _ => g2.symm⟩
  · rename_i hlt
    split at g
    · cases g
    · injection g with g; injection g with g1 g2
      have : r (clockIn r 0 (times.take i) + times.getD i 0) = clockIn r 0 (times.take (i + 1)) := congrArg Animator.time g1
      rw [this] at hlt
      exact ⟨fun hc => (by rw [← g2] at hc; cases hc), fun hc => absurd hc hlt⟩

theorem wrapTimeIn_multiple (hr : Rounds r) {d : Rat} (hd : 0 < d) {n : Nat} (hn : 0 < n) (hm : ∀ k : Nat, k ≤ n → IsF32 (k * d)) {fuel : Nat} {t : Rat}
    (h : wrapTimeIn r d fuel (n * d) = .ok t) : t = d := by
  induction n generalizing fuel with
  | zero => omega
  | succ n ih =>
    cases fuel with
    | zero => cases h
    | succ fuel =>
      simp only [wrapTimeIn] at h
      by_cases hz : n = 0
      · subst hz
        rw [if_neg (by push_cast; linarith)] at h
        injection h with h
        rw [← h]; push_cast; ring
      · have h1 : (1 : Rat) ≤ n := by exact_mod_cast Nat.one_le_iff_ne_zero.2 hz
        rw [if_pos (by push_cast; nlinarith)] at h
        have e : ((n + 1 : Nat) : Rat) * d - d = n * d := by push_cast; ring
        rw [e, hr.exact (hm n (by omega))] at h
        exact ih (by omega) (fun k hk => hm k (by omega)) h

/-- C91 (part): an animation of `n` iterations has progress 1, at step 100 of its keyframes, from its end on, if the multiples
of its duration up to the end are `f32`. Missing: other durations, for which it is false (`C91_end_counterexample`). -/
theorem C91_ends_partial (hr : Rounds r) {fuel : Nat} {times : List Rat} {a a' : Animator} {ps : List (Option Progress)} {n : Nat}
    (hd : 0 < a.duration) (hrun : a.running = true) (hn : 0 < n) (hi : a.iterations = .number n) (hm : ∀ k : Nat, k ≤ n → IsF32 (k * a.duration))
    (hstart : a.time = 0) (h : a.framesIn r fuel times = .ok (a', ps)) {i : Nat} {p : Option Progress} (hp : ps[i]? = some p)
    (hend : n * a.duration ≤ clockIn r 0 (times.take (i + 1)) - a.delay) : p = some (.value 1) ∧ stepIn r (.value 1) = 100 := by
  obtain ⟨-, g⟩ := framesIn_clock hd hrun h
  have g := g i p hp
  have hnd : 0 < (n : Rat) * a.duration := mul_pos (by exact_mod_cast hn) hd
  have hend' := hr.ge (hm n le_rfl) hend
  refine ⟨?_, ?_⟩
  · rw [updateIn_eq _ { a with time := clockIn r a.time (times.take i) } _ hd hrun] at g
    simp only [hstart, hi] at g
    split at g
    · rename_i hlt
      injection g with g; injection g with g1 g2
      have : r (clockIn r 0 (times.take i) + times.getD i 0) = clockIn r 0 (times.take (i + 1)) := congrArg Animator.time g1
      rw [this] at hlt
      linarith
    · split at g
      · cases g
      · rename_i t hw
        injection g with g; injection g with g1 g2
        have : r (clockIn r 0 (times.take i) + times.getD i 0) = clockIn r 0 (times.take (i + 1)) := congrArg Animator.time g1
        rw [this, hr.exact (hm n le_rfl), min_eq_right hend'] at hw
        rw [wrapTimeIn_multiple hr hd hn hm hw, div_self hd.ne', hr.one] at g2
        exact g2.symm
  · have h100 : IsF32 100 := by exact_mod_cast IsF32.ofNat (m := 100) (by norm_num)
    have : r (1 * 100) = 100 := by rw [one_mul]; exact hr.exact h100
    simp only [stepIn, this]
    decide +kernel

theorem IsF32.double {x : Rat} (h : IsF32 x) : IsF32 (2 * x) := by
  obtain ⟨m, e, h1, h2, h3⟩ := h
  exact ⟨m, e + 1, h1, by omega, by rw [h3, two_zpow_succ]; ring⟩

/-- C91: so it is with every `f32` duration for one and for two iterations. -/
theorem C91_ends_once (hr : Rounds r) {fuel : Nat} {times : List Rat} {a a' : Animator} {ps : List (Option Progress)} {n : Nat}
    (hd : 0 < a.duration) (hdf : IsF32 a.duration) (hrun : a.running = true) (hn : n = 1 ∨ n = 2) (hi : a.iterations = .number n)
    (hstart : a.time = 0) (h : a.framesIn r fuel times = .ok (a', ps)) {i : Nat} {p : Option Progress} (hp : ps[i]? = some p)
    (hend : n * a.duration ≤ clockIn r 0 (times.take (i + 1)) - a.delay) : p = some (.value 1) := by
  refine (C91_ends_partial hr hd hrun (by omega) hi (fun k hk => ?_) hstart h hp hend).1
  rcases (show k = 0 ∨ k = 1 ∨ k = 2 by omega) with rfl | rfl | rfl
  · simpa using IsF32.zero
  · simpa using hdf
  · exact_mod_cast hdf.double

/-- `0.1s`, three iterations. -/
def thrice : Animator := { duration := f32 (1 / 10), iterations := .number 3 }

/-- C91, counterexample: an animation of three iterations of `0.1s` does not end at its last keyframe: after a second, when all
is long over, the progress is 5/33554432, step 0 of the keyframes. In exact arithmetic it would be 1 (`C51_ends_at_one`). -/
theorem C91_end_counterexample : (∃ a', thrice.framesIn f32 9 [1] = .ok (a', [some (.value (5 / 33554432))])) ∧
    stepIn f32 (.value (5 / 33554432)) = 0 ∧ thrice.iterations = .number 3 ∧ 3 * thrice.duration < clockIn f32 0 [1] - thrice.delay := by
  refine ⟨⟨{ thrice with time := 1 }, by decide +kernel⟩, by decide +kernel, rfl, by decide +kernel⟩

/-- The same in what is shown: the property is back at the value of the first keyframe. -/
theorem C91_end_shown : (∃ a', thrice.playIn f32 9 1 [⟨⟨.Opacity, 0⟩, [(0, .number 0), (100, .number 1)]⟩] [] = .ok (a', [(⟨.Opacity, 0⟩, .number 0)])) ∧
    (∃ a', ({ duration := 1 / 10, iterations := .number 3 } : Animator).play 9 1 [⟨⟨.Opacity, 0⟩, [(0, .number 0), (100, .number 1)]⟩] [] = .ok (a', [(⟨.Opacity, 0⟩, .number 1)])) := by
  exact ⟨⟨{ thrice with time := 1 }, by decide +kernel⟩, ⟨{ duration := 1 / 10, iterations := .number 3, time := 1 }, by decide +kernel⟩⟩

/-- C91 on a concrete animation: `0.1s` after a delay of `0.2s`, once; frames of `0.05s`, rounded. -/
theorem C91_example : (∃ a', ({ duration := f32 (1 / 10), delay := f32 (1 / 5), iterations := .number 1 } : Animator).framesIn f32 9 (List.replicate 8 (f32 (1 / 20))) =
    .ok (a', [none, none, none, some (.value 0), some (.value (16777215 / 33554432)), some (.value 1), some (.value 1), some (.value 1)])) := by
  refine ⟨{ duration := f32 (1 / 10), delay := f32 (1 / 5), iterations := .number 1, time := clockIn f32 0 (List.replicate 8 (f32 (1 / 20))) }, ?_⟩
  decide +kernel

/-! ## C92: the loop over the iterations -/

theorem wrapTimeIn_total (hr : Rounds r) {d : Rat} (hd : 0 < d) (hdf : IsF32 d) {t : Rat} (ht : IsF32 t) (h0 : 0 ≤ t) (hle : t < 2 ^ 24 * d) :
    ∃ n t', ∀ fuel ≥ n, wrapTimeIn r d fuel t = .ok t' := by
  obtain ⟨k, hk⟩ := ht.smallest
  have hs := two_zpow_pos (-149)
  have hk0 : 0 ≤ k := by
    have : (0 : Rat) ≤ k := by
      rw [hk] at h0
      exact nonneg_of_mul_nonneg_left h0 hs
    exact_mod_cast this
  obtain ⟨m, rfl⟩ := Int.eq_ofNat_of_zero_le hk0
  induction m using Nat.strongRecOn generalizing t with
  | ind m ih =>
    by_cases hlt : t > d
    · have hlt' := hr.sub_lt ht (by linarith) hdf hd hle
      have hnn : 0 ≤ r (t - d) := hr.nonneg (by linarith)
      obtain ⟨k', hk'⟩ := (hr.number (t - d)).smallest
      have hk0' : 0 ≤ k' := by
        have : (0 : Rat) ≤ k' := by
          rw [hk'] at hnn
          exact nonneg_of_mul_nonneg_left hnn hs
        exact_mod_cast this
      obtain ⟨m', rfl⟩ := Int.eq_ofNat_of_zero_le hk0'
      have hmm : m' < m := by
        rw [hk'] at hlt'
        conv_rhs at hlt' => rw [hk]
        have := lt_of_mul_lt_mul_right hlt' hs.le
        exact_mod_cast this
      obtain ⟨n, t', h⟩ := ih m' hmm (hr.number (t - d)) hnn (by linarith) hk' (Int.natCast_nonneg _)
      refine ⟨n + 1, t', fun fuel hf => ?_⟩
      obtain ⟨f, rfl⟩ := Nat.exists_eq_add_of_le' (show 1 ≤ fuel by omega)
      simp only [wrapTimeIn]
      rw [if_pos hlt]
      exact h f (by omega)
    · refine ⟨1, t, fun fuel hf => ?_⟩
      obtain ⟨f, rfl⟩ := Nat.exists_eq_add_of_le' hf
      simp only [wrapTimeIn]
      rw [if_neg hlt]

theorem IsF32.scale {x : Rat} (h : IsF32 x) (k : Nat) : IsF32 (2 ^ k * x) := by
  obtain ⟨m, e, h1, h2, h3⟩ := h
  exact ⟨m, e + k, h1, by omega, by rw [h3, two_zpow_shift]; ring⟩

theorem updateIn_total (hr : Rounds r) {a : Animator} (hd : 0 < a.duration) (hdf : IsF32 a.duration) (hrun : a.running = true) (time : Rat)
    (hle : ∀ t, 0 ≤ t → t = (match a.iterations with
        | .number n => min (r (r (a.time + time) - a.delay)) (r (n * a.duration))
        | .infinite => r (r (a.time + time) - a.delay)) → t < 2 ^ 24 * a.duration) (hf : a.Forward) : ∃ n, ∀ fuel ≥ n, ∃ res, a.updateIn r fuel time = .ok res := by
  by_cases hneg : r (r (a.time + time) - a.delay) < 0
  · exact ⟨0, fun fuel _ => ⟨_, by rw [updateIn_eq _ _ _ hd hrun, if_pos hneg]⟩⟩
  · have hnn := not_lt.1 hneg
    have hpos : 0 ≤ (match a.iterations with
        | .number n => min (r (r (a.time + time) - a.delay)) (r (n * a.duration))
        | .infinite => r (r (a.time + time) - a.delay)) := by
      cases hi : a.iterations with
      | infinite => exact hnn
      | number n => exact le_min hnn (hr.nonneg (mul_nonneg (hf n hi) hd.le))
    have hnum : IsF32 (match a.iterations with
        | .number n => min (r (r (a.time + time) - a.delay)) (r (n * a.duration))
        | .infinite => r (r (a.time + time) - a.delay)) := by
      cases a.iterations with
      | infinite => exact hr.number _
      | number n => exact (min_choice (r (r (a.time + time) - a.delay)) (r (n * a.duration))).elim (fun h => by simp only [h]; exact hr.number _) (fun h => by simp only [h]; exact hr.number _)
    obtain ⟨n, t', h⟩ := wrapTimeIn_total hr hd hdf hnum hpos (hle _ hpos rfl)
    refine ⟨n, fun fuel hf => ⟨({ a with time := r (a.time + time) }, some (.value (r (t' / a.duration)))), ?_⟩⟩
    rw [updateIn_eq _ _ _ hd hrun, if_neg hneg, h fuel hf]

/-- C92: with a positive duration, an animation of a number of iterations up to 8388608 comes to an end in every frame. -/
theorem C92_finite (hr : Rounds r) {a : Animator} (hd : 0 < a.duration) (hdf : IsF32 a.duration) (hrun : a.running = true) {n : Rat}
    (hi : a.iterations = .number n) (h0 : 0 ≤ n) (hn : n ≤ 2 ^ 23) (time : Rat) : ∃ k, ∀ fuel ≥ k, ∃ res, a.updateIn r fuel time = .ok res := by
  refine updateIn_total hr hd hdf hrun time (fun t _ ht => ?_) (fun m hm => by rw [hi] at hm; injection hm with hm; rw [← hm]; exact h0)
  rw [hi] at ht
  have : r (n * a.duration) ≤ 2 ^ 23 * a.duration := hr.le (hdf.scale 23) (mul_le_mul_of_nonneg_right hn hd.le)
  have h2 := min_le_right (r (r (a.time + time) - a.delay)) (r (n * a.duration))
  rw [ht]
  refine lt_of_le_of_lt h2 ?_
  norm_num at this ⊢
  linarith

/-- C92 (part): an infinite animation comes to an end in every frame of the first 8388608 iterations. Missing: later frames, for
which it is false (`C92_hangs`). -/
theorem C92_infinite_partial (hr : Rounds r) {a : Animator} (hd : 0 < a.duration) (hdf : IsF32 a.duration) (hrun : a.running = true)
    (hi : a.iterations = .infinite) {time : Rat} (hle : r (a.time + time) - a.delay ≤ 2 ^ 23 * a.duration) :
    ∃ k, ∀ fuel ≥ k, ∃ res, a.updateIn r fuel time = .ok res := by
  refine updateIn_total hr hd hdf hrun time (fun t _ ht => ?_) (fun m hm => by rw [hi] at hm; cases hm)
  rw [hi] at ht
  have := hr.le (hdf.scale 23) hle
  rw [ht]
  norm_num at this ⊢
  linarith

theorem wrapTimeIn_hangs (hr : Rounds r) {d t : Rat} (hd : 0 < d) (ht : IsF32 t) (h : 2 ^ 25 * d < t) (fuel : Nat) : wrapTimeIn r d fuel t = .error .endless := by
  induction fuel with
  | zero => rfl
  | succ n ih =>
    simp only [wrapTimeIn]
    rw [if_pos (by norm_num at h; linarith), hr.sub_stays ht hd.le h]
    exact ih

/-- C92: an infinite animation hangs the program for ever when its clock has passed 67108864 iterations. -/
theorem C92_hangs (hr : Rounds r) {a : Animator} (hd : 0 < a.duration) (hdf : IsF32 a.duration) (hrun : a.running = true)
    (hi : a.iterations = .infinite) {time : Rat} (hle : 2 ^ 26 * a.duration ≤ r (a.time + time) - a.delay) (fuel : Nat) :
    a.updateIn r fuel time = .error .endless := by
  have h1 := hr.ge (hdf.scale 26) hle
  have h2 : 2 ^ 25 * a.duration < r (r (a.time + time) - a.delay) := by norm_num at h1 ⊢; linarith
  rw [updateIn_eq _ _ _ hd hrun, if_neg (by norm_num at h2; linarith), hi]
  simp only
  rw [wrapTimeIn_hangs hr hd (hr.number _) h2]

/-- C92, counterexample: the update of an infinite animation of `1ms` hangs after ten hours, for example if the computer has been
asleep for so long. In exact arithmetic it would come to an end (`C52_terminates_partial`). -/
theorem C92_sleep_counterexample (fuel : Nat) : ({ duration := f32 (1 / 1000), iterations := .infinite } : Animator).updateIn f32 fuel 36000 = .error .endless := by
  have hd : 0 < f32 (1 / 1000) := by decide +kernel
  rw [updateIn_eq _ _ _ hd rfl, if_neg (by decide +kernel)]
  simp only
  rw [wrapTimeIn_hangs f32_rounds hd (f32_rounds.number _) (by decide +kernel)]

/-- C92: clocks stop: when the frames are shorter than a part of 33554432 of the time on the clock, they change nothing, and
all frames have the same progress for ever. At 60 frames a second this is so after seven days. -/
theorem C92_stops (hr : Rounds r) {a a' : Animator} {fuel : Nat} {times : List Rat} {ps : List (Option Progress)} (hd : 0 < a.duration) (hrun : a.running = true)
    (ht : IsF32 a.time) (hs : ∀ time ∈ times, 0 ≤ time ∧ 2 ^ 25 * time < a.time) (h : a.framesIn r fuel times = .ok (a', ps)) :
    a' = a ∧ ∀ p ∈ ps, ∀ q ∈ ps, p = q := by
  have hup : ∀ time ∈ times, a.updateIn r fuel time = a.updateIn r fuel 0 := by
    intro time hm
    obtain ⟨h1, h2⟩ := hs time hm
    rw [updateIn_eq _ _ _ hd hrun, updateIn_eq _ _ _ hd hrun, hr.add_stays ht h1 h2, add_zero, hr.exact ht]
  have hsame : ∀ {b : Animator} {p : Option Progress}, a.updateIn r fuel 0 = .ok (b, p) → b = a := by
    intro b p hb
    rw [updateIn_eq _ _ _ hd hrun, add_zero, hr.exact ht] at hb
    split at hb
    · injection hb with hb; injection hb with hb; exact hb.symm
    · split at hb
      · cases hb
      · injection hb with hb; injection hb with hb; exact hb.symm
  suffices ∀ (times : List Rat) {ps : List (Option Progress)} {a'}, (∀ time ∈ times, a.updateIn r fuel time = a.updateIn r fuel 0) → a.framesIn r fuel times = .ok (a', ps) →
      a' = a ∧ ∀ p ∈ ps, ∃ b, a.updateIn r fuel 0 = .ok (b, p) by
    obtain ⟨h1, h2⟩ := this times hup h
    refine ⟨h1, fun p hp q hq => ?_⟩
    obtain ⟨b, hb⟩ := h2 p hp
    obtain ⟨c, hc⟩ := h2 q hq
    rw [hb] at hc; injection hc with hc; injection hc
  clear h hup hs
  intro times
  induction times with
  | nil =>
    intro ps a' _ h
    simp only [Animator.framesIn] at h
    injection h with h; injection h with h1 h2
    exact ⟨h1.symm, fun p hp => by rw [← h2] at hp; cases hp⟩
  | cons time times ih =>
    intro ps a' hup h
    simp only [Animator.framesIn] at h
    rw [hup time (List.mem_cons_self ..)] at h
    cases hu : a.updateIn r fuel 0 with
    | error e => rw [hu] at h; cases h
    | ok res =>
      obtain ⟨b, p⟩ := res
      rw [hu] at h
      simp only at h
      have hba := hsame hu
      subst hba
      cases hb : b.framesIn r fuel times with
      | error e => rw [hb] at h; cases h
      | ok res =>
        obtain ⟨c, qs⟩ := res
        rw [hb] at h
        injection h with h; injection h with h1 h2
        obtain ⟨i1, i2⟩ := ih (fun t ht => hup t (List.mem_cons_of_mem _ ht)) hb
        refine ⟨by rw [← h1]; exact i1, fun q hq => ?_⟩
        rw [← h2] at hq
        rcases List.mem_cons.1 hq with rfl | hq
        · exact ⟨_, rfl⟩
        · obtain ⟨d, hd⟩ := i2 q hq
          exact ⟨d, by rw [← hu]; exact hd⟩

/-- C92 on a concrete clock: after seven days, with frames of 1/60 s. -/
theorem C92_stops_example : (∃ x, ({ duration := 100000, iterations := .infinite, time := 604800 } : Animator).framesIn f32 9 [f32 (1 / 60), f32 (1 / 60)] =
      .ok ({ duration := 100000, iterations := .infinite, time := 604800 }, [some (.value x), some (.value x)]) ∧ x < 1 / 20) ∧
    2 ^ 25 * f32 (1 / 60) < 604800 := by
  exact ⟨⟨f32 (4800 / 100000), by decide +kernel, by decide +kernel⟩, by decide +kernel⟩

/-! ## C93: interpolation and transitions -/

theorem mixIn_between (hr : Rounds r) {x y t : Rat} (hx : IsF32 x) (hy : IsF32 y) (ht : IsF32 t) (h0 : 0 ≤ t) (h1 : t < 1) :
    min x y ≤ mixIn r x y t ∧ mixIn r x y t ≤ max x y := hr.mix_between hx hy ht h0 h1

theorem mixChannelIn_between (hr : Rounds r) {x y : Nat} (hx : x ≤ 255) (hy : y ≤ 255) {t : Rat} (ht : IsF32 t) (h0 : 0 ≤ t) (h1 : t < 1) :
    min x y ≤ mixChannelIn r x y t ∧ mixChannelIn r x y t ≤ max x y := by
  obtain ⟨ha, hb⟩ := mixIn_between hr (IsF32.ofNat (m := x) (by omega)) (IsF32.ofNat (m := y) (by omega)) ht h0 h1
  unfold mixChannelIn
  have hmin : ((min x y : Nat) : Rat) = min (x : Rat) y := by push_cast; rfl
  have hmax : ((max x y : Nat) : Rat) = max (x : Rat) y := by push_cast; rfl
  constructor
  · have := asU8_mono (le_trans ha (le_max_left _ 0))
    rwa [← hmin, asU8_nat _ (by omega)] at this
  · have h : max (mixIn r x y t) 0 ≤ ((max x y : Nat) : Rat) := by
      rw [hmax]
      exact max_le hb (le_trans (Nat.cast_nonneg x) (le_max_left _ _))
    have := asU8_mono h
    rwa [asU8_nat _ (by omega)] at this

/-- C93: interpolation is exact at its ends, for all values. -/
theorem C93_ends (a b : ComputedValue) : animateIn r a b 0 = a ∧ animateIn r a b 1 = b := by
  constructor
  · simp [animateIn]
  · unfold animateIn; rw [if_neg (by norm_num), if_pos rfl]

/-- C93: interpolation of `f32` values stays between its ends, in spite of the rounding of all three operations. -/
theorem C93_between (hr : Rounds r) {a b : ComputedValue} {t : Rat} (ha : a.Bytes) (hb : b.Bytes) (fa : a.F32) (fb : b.F32) (ht : IsF32 t) (h0 : 0 ≤ t) (h1 : t ≤ 1) :
    Between a b (animateIn r a b t) := by
  unfold animateIn
  split
  · exact .inl rfl
  split
  · exact .inr (.inl rfl)
  rename_i hne
  have h1 : t < 1 := lt_of_le_of_ne h1 hne
  split
  · rename_i x y
    obtain ⟨p, q⟩ := mixIn_between hr (x := x) (y := y) fa fb ht h0 h1
    exact .inr (.inr (.inl ⟨x, y, _, rfl, rfl, rfl, p, q⟩))
  · rename_i x y
    obtain ⟨p, q⟩ := mixIn_between hr (x := x) (y := y) fa fb ht h0 h1
    exact .inr (.inr (.inr (.inl ⟨x, y, _, rfl, rfl, rfl, p, q⟩)))
  · rename_i x
    obtain ⟨p, q⟩ := mixIn_between hr (x := x) (y := 0) fa IsF32.zero ht h0 h1
    split
    · exact .inr (.inl rfl)
    · exact .inr (.inr (.inr (.inr (.inl ⟨x, _, rfl, rfl, rfl, p, q⟩))))
  · rename_i y
    obtain ⟨p, q⟩ := mixIn_between hr (x := 0) (y := y) IsF32.zero fb ht h0 h1
    exact .inr (.inr (.inr (.inr (.inr (.inl ⟨y, _, rfl, rfl, rfl, p, q⟩)))))
  · rename_i x y
    split
    · split
      · exact .inl rfl
      · exact .inr (.inl rfl)
    · rename_i hu
      have hu := not_not.1 hu
      obtain ⟨x, u⟩ := x
      obtain ⟨y, w⟩ := y
      simp only at hu; subst hu
      obtain ⟨p, q⟩ := mixIn_between hr (x := x) (y := y) fa fb ht h0 h1
      exact .inr (.inr (.inr (.inr (.inr (.inr (.inl ⟨x, y, _, u, rfl, rfl, rfl, p, q⟩))))))
  · rename_i x y
    obtain ⟨a1, a2, a3, a4⟩ := ha x rfl
    obtain ⟨b1, b2, b3, b4⟩ := hb y rfl
    obtain ⟨r1, r2⟩ := mixChannelIn_between hr a1 b1 ht h0 h1
    obtain ⟨g1, g2⟩ := mixChannelIn_between hr a2 b2 ht h0 h1
    obtain ⟨c1, c2⟩ := mixChannelIn_between hr a3 b3 ht h0 h1
    obtain ⟨d1, d2⟩ := mixChannelIn_between hr a4 b4 ht h0 h1
    exact .inr (.inr (.inr (.inr (.inr (.inr (.inr ⟨x, y, _, rfl, rfl, rfl, r1, r2, g1, g2, c1, c2, d1, d2⟩))))))
  · split
    · exact .inl rfl
    · exact .inr (.inl rfl)

/-- C93: and it does not go back: a later progress has a value at least as near to the end. -/
theorem C93_forward (hr : Rounds r) {x y t t' : Rat} (hx : IsF32 x) (hy : IsF32 y) (ht : IsF32 t) (h0 : 0 ≤ t) (h : t ≤ t') (h1 : t' ≤ 1) {z z' : Rat}
    (hz : animateIn r (.number x) (.number y) t = .number z) (hz' : animateIn r (.number x) (.number y) t' = .number z') (hxy : x ≤ y) : z ≤ z' := by
  have hle : ∀ s, IsF32 s → 0 ≤ s → s ≤ 1 → ∀ w, animateIn r (.number x) (.number y) s = .number w → x ≤ w ∧ w ≤ y := by
    intro s hs s0 s1 w hw
    have := C93_between hr (a := .number x) (b := .number y) (fun c hc => by cases hc) (fun c hc => by cases hc) hx hy hs s0 s1
    rw [hw] at this
    rcases this with h | h | ⟨_, _, _, e1, e2, e3, e4, e5⟩ | h | h | h | h | h
    · injection h with h; subst h; exact ⟨le_rfl, hxy⟩
    · injection h with h; subst h; exact ⟨hxy, le_rfl⟩
    · cases e1; cases e2; cases e3
      rw [min_eq_left hxy] at e4; rw [max_eq_right hxy] at e5
      exact ⟨e4, e5⟩
    · obtain ⟨_, _, _, h, _⟩ := h; cases h
    · obtain ⟨_, _, h, _⟩ := h; cases h
    · obtain ⟨_, _, h, _⟩ := h; cases h
    · obtain ⟨_, _, _, _, h, _⟩ := h; cases h
    · obtain ⟨_, _, _, h, _⟩ := h; cases h
  by_cases e0 : t = 0
  · subst e0
    rw [(C93_ends _ _).1] at hz; injection hz with hz; subst hz
    by_cases e1 : t' = 0
    · subst e1; rw [(C93_ends _ _).1] at hz'; injection hz' with hz'; exact hz'.le
    by_cases e2 : t' = 1
    · subst e2; rw [(C93_ends _ _).2] at hz'; injection hz' with hz'; subst hz'; exact hxy
    · unfold animateIn at hz'
      rw [if_neg e1, if_neg e2] at hz'
      injection hz' with hz'
      subst hz'
      exact hr.ge hx (by
        have : 0 ≤ r (r (y - x) * t') := hr.nonneg (mul_nonneg (hr.nonneg (by linarith)) h)
        linarith)
  by_cases e2 : t' = 1
  · subst e2
    rw [(C93_ends _ _).2] at hz'; injection hz' with hz'; subst hz'
    exact (hle t ht h0 h z hz).2
  · have e1 : t ≠ 1 := fun e => e2 (le_antisymm h1 (e ▸ h))
    have e3 : t' ≠ 0 := fun e => e0 (le_antisymm (e ▸ h) h0)
    unfold animateIn at hz hz'
    rw [if_neg e0, if_neg e1] at hz
    rw [if_neg e3, if_neg e2] at hz'
    injection hz with hz; injection hz' with hz'
    subst hz hz'
    exact hr.mix_mono hxy h

theorem loopIn_single {key : PropertyKey} {x : Rat} {fuel : Nat} (hfuel : 2 ≤ fuel) {t : Transition} {style : ComputedStyle} {a b v : ComputedValue}
    (hr : t.range = some (a, b)) (hs : Single style key v) :
    ∃ shown, Transition.loopIn r key (.value x) fuel 0 t style =
        .ok (if b ≠ v then { t with range := some (animateIn r a b x, v), animator := { t.animator with time := 0 } } else t, shown) ∧
      shown.get ⟨key, 0⟩ = some (animateIn r a b x) ∧ ∀ d, d ≠ ⟨key, 0⟩ → shown.get d = style.get d := by
  obtain ⟨n, rfl⟩ : ∃ n, fuel = n + 2 := ⟨fuel - 2, by omega⟩
  have hne : (⟨key, 1⟩ : Descriptor) ≠ ⟨key, 0⟩ := by intro h; injection h with _ h; cases h
  refine ⟨if animateIn r a b x ≠ v then style.insert ⟨key, 0⟩ (animateIn r a b x) else style, ?_, ?_, ?_⟩
  · have h1 : (if animateIn r a b x ≠ v then style.insert ⟨key, 0⟩ (animateIn r a b x) else style).get ⟨key, 0 + 1⟩ = none := by
      split
      · rw [ComputedStyle.get_insert_other _ _ hne]; exact hs.2
      · exact hs.2
    rw [Transition.loopIn, hs.1]
    simp only [hr, animateAtIn]
    rw [Transition.loopIn, h1]
  · split
    · exact ComputedStyle.get_insert_same _ _ _
    · rename_i h; rw [not_not.1 h]; exact hs.1
  · intro d hd
    split
    · exact ComputedStyle.get_insert_other _ _ hd
    · rfl

theorem plain_updateIn (hr : Rounds r) {t : Transition} {key : PropertyKey} (h : t.Plain key) (hdf : IsF32 t.animator.duration) {fuel : Nat} (hfuel : 1 ≤ fuel) {time : Rat}
    (ht : 0 ≤ t.animator.time + time) :
    t.animator.updateIn r fuel time = .ok ({ t.animator with time := r (t.animator.time + time) },
      some (.value (r (min (r (t.animator.time + time)) t.animator.duration / t.animator.duration)))) := by
  obtain ⟨-, h2, h3, h4, h5⟩ := h
  obtain ⟨n, rfl⟩ : ∃ n, fuel = n + 1 := ⟨fuel - 1, by omega⟩
  rw [updateIn_eq _ _ _ h5 h2, h3, sub_zero, hr.exact (hr.number _), if_neg (not_lt.2 (hr.nonneg ht)), h4]
  simp only [one_mul, hr.exact hdf, wrapTimeIn]
  rw [if_neg (not_lt.2 (min_le_right _ _))]
  simp only [h3, h4]

theorem plain_playIn (hr : Rounds r) {t : Transition} {key : PropertyKey} (h : t.Plain key) (hdf : IsF32 t.animator.duration) {fuel : Nat} (hfuel : 2 ≤ fuel) {time : Rat}
    (ht : 0 ≤ t.animator.time + time) {a v : ComputedValue} (hrange : t.range = some (a, v)) {style : ComputedStyle} (hs : Single style key v) :
    ∃ shown, t.playIn r fuel time style = .ok ({ t with animator := { t.animator with time := r (t.animator.time + time) } }, shown) ∧
      shown.get ⟨key, 0⟩ = some (animateIn r a v (r (min (r (t.animator.time + time)) t.animator.duration / t.animator.duration))) ∧
      ∀ d, d ≠ ⟨key, 0⟩ → shown.get d = style.get d := by
  obtain ⟨shown, h1, h2, h3⟩ := loopIn_single (r := r) (key := key) (x := r (min (r (t.animator.time + time)) t.animator.duration / t.animator.duration)) hfuel
    (t := { t with animator := { t.animator with time := r (t.animator.time + time) } }) hrange hs
  refine ⟨shown, ?_, h2, h3⟩
  unfold Transition.playIn
  rw [h.1]
  simp only [plain_updateIn hr h hdf (show 1 ≤ fuel by omega) ht]
  rw [h.1] at h1
  simpa using h1

/-- C93 (part): a property with a transition of positive duration and no delay, on its way from `old` to `v`, displays in every
frame a value between the two, and exactly `v` in every frame in which the clock has passed the duration; nothing else is
touched. Missing: as for C55, a delay, a duration of zero and properties with several values. -/
theorem C93_transition_partial (hr : Rounds r) {key : PropertyKey} {fuel : Nat} (hfuel : 2 ≤ fuel) {old v : ComputedValue} (bo : old.Bytes) (bv : v.Bytes) (fo : old.F32) (fv : v.F32)
    (frames : List (Rat × ComputedStyle)) {t : Transition} (h : t.Plain key) (hdf : IsF32 t.animator.duration) (hrange : t.range = some (old, v)) (h0 : 0 ≤ t.animator.time)
    (hf : ∀ f ∈ frames, 0 ≤ f.1 ∧ Single f.2 key v) :
    ∃ t' shown, t.framesIn r fuel frames = .ok (t', shown) ∧ shown.length = frames.length ∧
      ∀ i st, shown[i]? = some st →
        (∃ value, st.get ⟨key, 0⟩ = some value ∧ Between old v value ∧
          (t.animator.duration ≤ clockIn r t.animator.time ((frames.take (i + 1)).map (·.1)) → value = v)) ∧
        ∀ d, d ≠ ⟨key, 0⟩ → ∀ f, frames[i]? = some f → st.get d = f.2.get d := by
  induction frames generalizing t with
  | nil => exact ⟨t, [], rfl, rfl, fun i st hst => by simp at hst⟩
  | cons f fs ih =>
    obtain ⟨time, style⟩ := f
    obtain ⟨f1, f2⟩ := hf (time, style) (by simp)
    simp only at f1 f2
    have hnn := add_nonneg h0 f1
    obtain ⟨shown, p1, p2, p3⟩ := plain_playIn hr h hdf hfuel hnn hrange f2
    obtain ⟨t', rest, r1, r2, r3⟩ := ih (t := { t with animator := { t.animator with time := r (t.animator.time + time) } }) h hdf hrange
      (hr.nonneg hnn) (fun f hf' => hf f (by simp [hf']))
    have hd := h.2.2.2.2
    refine ⟨t', shown :: rest, ?_, by simp [r2], ?_⟩
    · simp only [Transition.framesIn, p1]
      rw [init_ranged _ (by simp [hrange]), r1]
    · intro i st hst
      cases i with
      | zero =>
        simp only [List.getElem?_cons_zero, Option.some.injEq] at hst
        subst hst
        refine ⟨⟨_, p2, ?_, ?_⟩, ?_⟩
        · exact C93_between hr bo bv fo fv (hr.number _) (hr.nonneg (div_nonneg (le_min (hr.nonneg hnn) hd.le) hd.le))
            (hr.le IsF32.one ((div_le_one hd).2 (min_le_right _ _)))
        · intro hle
          have hle : t.animator.duration ≤ r (t.animator.time + time) := by simpa [clockIn] using hle
          rw [min_eq_right hle, div_self hd.ne', hr.one, (C93_ends _ _).2]
        · intro d hd f hf'
          simp only [List.getElem?_cons_zero, Option.some.injEq] at hf'
          subst hf'; exact p3 d hd
      | succ i =>
        simp only [List.getElem?_cons_succ] at hst
        obtain ⟨⟨value, q1, q2, q3⟩, q4⟩ := r3 i st hst
        refine ⟨⟨value, q1, q2, fun hle => q3 ?_⟩, fun d hd f hf' => q4 d hd f (by simpa using hf')⟩
        simpa [clockIn] using hle

/-- C93 on concrete values: a tenth of the way from 0.1 to 0.7, and a transition of `0.3s` in frames of `0.1s`, rounded. -/
theorem C93_example : animateIn f32 (.number (f32 (1 / 10))) (.number (f32 (7 / 10))) (f32 (1 / 10)) = .number (5368709 / 33554432) ∧
    (match ({ key := some .Width, animator := { duration := f32 (3 / 10) }, range := some (.dimension ⟨10, .px⟩, .dimension ⟨40, .px⟩) } : Transition).framesIn f32 2
        (List.replicate 4 (f32 (1 / 10), [(⟨.Width, 0⟩, .dimension ⟨40, .px⟩)])) with
      | .ok (_, shown) => shown.map (·.get ⟨.Width, 0⟩) | .error _ => []) =
      [some (.dimension ⟨20, .px⟩), some (.dimension ⟨15728639 / 524288, .px⟩), some (.dimension ⟨40, .px⟩), some (.dimension ⟨40, .px⟩)] := by
  refine ⟨by decide +kernel, by decide +kernel⟩

/-! ## C94: scrolling -/

/-- C94 (part): through every history of frames and turns of the wheel, the offset stays between 0 and what the content sticks out
by, on both axes. Missing: as for C59, frames in which the content is smaller than the element on one axis. -/
theorem C94_scroll_partial (hr : Rounds r) (events : List ScrollEvent) (hf : ∀ layout, .frame layout ∈ events → layout.Filled) :
    ∀ s, events.foldl (scrollStepIn r) none = some s → s.InRange := by
  suffices ∀ (events : List ScrollEvent) (s : Option Scrolling), (∀ c, s = some c → c.InRange) → (∀ layout, .frame layout ∈ events → layout.Filled) →
      ∀ c, events.foldl (scrollStepIn r) s = some c → c.InRange from this events none (by simp) hf
  intro events
  induction events with
  | nil => intro s hs _ c hc; exact hs c hc
  | cons ev events ih =>
    intro s hs hf c hc
    refine ih (scrollStepIn r s ev) ?_ (fun l hl => hf l (List.mem_cons_of_mem _ hl)) c hc
    intro c hc
    cases ev with
    | frame layout =>
      obtain ⟨f1, f2⟩ := hf layout List.mem_cons_self
      simp only [scrollStepIn, Scrolling.ensureIn] at hc
      have g1 := hr.nonneg (x := layout.contentWidth - layout.width) (by linarith)
      have g2 := hr.nonneg (x := layout.contentHeight - layout.height) (by linarith)
      split at hc
      · injection hc with hc
        subst hc
        cases s with
        | none => exact ⟨⟨le_min le_rfl g1, min_le_right _ _⟩, ⟨le_min le_rfl g2, min_le_right _ _⟩⟩
        | some c =>
          obtain ⟨⟨c1, c2⟩, c3, c4⟩ := hs c rfl
          exact ⟨⟨le_min c1 g1, min_le_right _ _⟩, ⟨le_min c3 g2, min_le_right _ _⟩⟩
      · cases hc
    | wheel w =>
      cases s with
      | none => cases hc
      | some s =>
        obtain ⟨⟨c1, c2⟩, c3, c4⟩ := hs s rfl
        simp only [scrollStepIn, Option.map_some, Option.some.injEq] at hc
        subst hc
        unfold Scrolling.offsetIn
        refine ⟨?_, ?_⟩ <;> split <;> split <;> simp only <;> constructor <;> grind

/-- C94 on a concrete history. -/
theorem C94_example : [ScrollEvent.frame ⟨0, 0, 100, 50, 100, f32 (1203 / 10)⟩, .wheel (0, -1), .wheel (0, -1), .frame ⟨0, 0, 100, 50, 100, f32 (1001 / 10)⟩].foldl (scrollStepIn f32) none =
    some ⟨0, f32 (f32 (1001 / 10) - 50), 0, f32 (f32 (1001 / 10) - 50)⟩ := by
  decide +kernel

end Verif
