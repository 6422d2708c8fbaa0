import Verif.Spec.Animation
import Verif.Css.AnimationLemmas
import Verif.Css.BlockLemmas
/-!
# C51-C56: animations and transitions

`Animator.update` is what the crate does with the clock of an animation in each frame, `computeTracks` and
`Animator.play` make the displayed style of a frame, `Transition.play` and `Transition.init` run a transition.
Loops have fuel; "for every large enough fuel" is "the loop comes to an end".
-/
namespace Verif

/-! ## C51 -/

/-- The clock after a frame. -/
def clockAfter (a : Animator) (time : Rat) : Rat := if a.running ∧ a.duration > 0 then a.time + time else a.time

theorem update_eq (fuel : Nat) (a : Animator) (time : Rat) : a.update fuel time =
    if clockAfter a time - a.delay < 0 then .ok ({ a with time := clockAfter a time }, none) else
      match wrapTime a.duration fuel (playedTime a (clockAfter a time - a.delay)) with
      | .error e => .error e
      | .ok t => .ok ({ a with time := clockAfter a time }, some (if a.duration = 0 then .nan else .value (t / a.duration))) := by
  unfold Animator.update clockAfter
  by_cases h : a.running = true ∧ a.duration > 0
  · simp only [if_pos h]; rfl
  · simp only [if_neg h]; rfl

theorem update_cases {fuel : Nat} {a b : Animator} {time : Rat} {p : Option Progress} (h : a.update fuel time = .ok (b, p)) :
    b = { a with time := clockAfter a time } ∧
    ((b.time - a.delay < 0 ∧ p = none) ∨
     (0 ≤ b.time - a.delay ∧ ∃ r, wrapTime a.duration fuel (playedTime a (b.time - a.delay)) = .ok r ∧
       p = some (if a.duration = 0 then .nan else .value (r / a.duration)))) := by
  rw [update_eq] at h
  generalize clockAfter a time = T at h ⊢
  by_cases hlt : T - a.delay < 0
  · rw [if_pos hlt] at h
    injection h with h; injection h with h1 h2
    subst h1; exact ⟨rfl, .inl ⟨hlt, h2.symm⟩⟩
  · rw [if_neg hlt] at h
    cases hw : wrapTime a.duration fuel (playedTime a (T - a.delay)) with
    | error e => rw [hw] at h; cases h
    | ok r =>
      rw [hw] at h
      injection h with h; injection h with h1 h2
      subst h1; exact ⟨rfl, .inr ⟨not_lt.1 hlt, r, hw, h2.symm⟩⟩

theorem update_total {a : Animator} {time : Rat} (hd : 0 < a.duration) : ∃ n, ∀ fuel ≥ n, ∃ r, a.update fuel time = .ok r := by
  obtain ⟨n, r, hr⟩ := wrapTime_total hd (playedTime a (clockAfter a time - a.delay))
  refine ⟨n, fun fuel hf => ?_⟩
  rw [update_eq, wrapTime_mono hf hr]
  split
  · exact ⟨_, rfl⟩
  · exact ⟨_, rfl⟩

theorem played_nonneg {a : Animator} (hd : 0 < a.duration) (hf : a.Forward) {t : Rat} (ht : 0 ≤ t) : 0 ≤ playedTime a t := by
  unfold playedTime
  split
  · rename_i n hn
    exact le_min ht (mul_nonneg (hf n hn) hd.le)
  · exact ht

theorem frames_spec {fuel : Nat} (times : List Rat) {a a' : Animator} (hd : 0 < a.duration) {ps : List (Option Progress)}
    (h : a.frames fuel times = .ok (a', ps)) :
    ps.length = times.length ∧ a' = { a with time := a.time + if a.running then times.sum else 0 } ∧
    ∀ i p, ps[i]? = some p →
      ∃ b, ({ a with time := a.time + if a.running then (times.take i).sum else 0 } : Animator).update fuel (times.getD i 0) = .ok (b, p) ∧
        b.time = a.time + if a.running then (times.take (i + 1)).sum else 0 := by
  induction times generalizing a ps with
  | nil =>
    simp only [Animator.frames] at h
    injection h with h; injection h with h1 h2
    subst h1 h2; simp
  | cons x xs ih =>
    simp only [Animator.frames] at h
    cases hu : a.update fuel x with
    | error e => rw [hu] at h; cases h
    | ok r =>
      obtain ⟨b, p⟩ := r
      rw [hu] at h; simp only at h
      cases hr : b.frames fuel xs with
      | error e => rw [hr] at h; cases h
      | ok r =>
        obtain ⟨c, qs⟩ := r
        rw [hr] at h; injection h with h; injection h with h1 h2
        subst h1 h2
        obtain ⟨hb, -⟩ := update_cases hu
        have hbd : b.duration = a.duration := by rw [hb]
        have hbr : b.running = a.running := by rw [hb]
        have hbt : b.time = a.time + if a.running then x else 0 := by
          rw [hb]; unfold clockAfter; cases a.running <;> simp [hd]
        have hba : ∀ T : Rat, ({ b with time := T } : Animator) = { a with time := T } := by intro T; rw [hb]
        obtain ⟨i1, i2, i3⟩ := ih (hbd ▸ hd) hr
        refine ⟨by simp [i1], ?_, ?_⟩
        · rw [i2, hba, hbr, hbt]
          congr 1
          cases a.running <;> simp [add_assoc]
        · intro i q hq
          cases i with
          | zero =>
            simp only [List.getElem?_cons_zero, Option.some.injEq] at hq
            subst hq
            refine ⟨b, ?_, ?_⟩
            · simpa using hu
            · rw [hbt]; simp
          | succ i =>
            simp only [List.getElem?_cons_succ] at hq
            obtain ⟨b', h1, h2⟩ := i3 i q hq
            refine ⟨b', ?_, ?_⟩
            · rw [hba, hbr, hbt] at h1
              simp only [List.getD_cons_succ, List.take_succ_cons, List.sum_cons]
              rw [← h1]
              congr 2
              cases a.running <;> simp [add_assoc]
            · rw [h2, hbr, hbt]
              cases a.running <;> simp [add_assoc, List.take_succ_cons]

/-- C51: an animation with a positive duration and any lengths of frames. In frame `i` there is nothing to see
exactly while the delay has not passed; otherwise the progress is a number from 0 to 1, and it is the time
played modulo the duration, the end of an iteration counting as 1. -/
theorem C51_progress {fuel : Nat} {times : List Rat} {a a' : Animator} {ps : List (Option Progress)}
    (hd : 0 < a.duration) (hf : a.Forward) (hstart : a.time = 0) (h : a.frames fuel times = .ok (a', ps)) {i : Nat} {p : Option Progress}
    (hp : ps[i]? = some p) :
    (p = none ↔ elapsed a times i < 0) ∧
    (∀ q, p = some q → ∃ (x : Rat) (k : Nat), q = .value x ∧ 0 ≤ x ∧ x ≤ 1 ∧
      playedTime a (elapsed a times i) = (k + x) * a.duration ∧ (0 < k → 0 < x)) := by
  obtain ⟨-, -, h3⟩ := frames_spec times hd h
  obtain ⟨b, hu, hb⟩ := h3 i p hp
  obtain ⟨-, hc⟩ := update_cases hu
  have he : b.time - a.delay = elapsed a times i := by rw [hb, hstart]; simp [elapsed]
  simp only [he] at hc
  rcases hc with ⟨h1, h2⟩ | ⟨h1, r, hw, h2⟩
  · exact ⟨by simp [h2, h1], by intro q hq; rw [h2] at hq; cases hq⟩
  · refine ⟨by simp [h2, h1], ?_⟩
    intro q hq
    rw [h2, if_neg hd.ne'] at hq
    injection hq with hq
    have hpl : playedTime ({ a with time := a.time + if a.running then (times.take i).sum else 0 } : Animator) (elapsed a times i) = playedTime a (elapsed a times i) := rfl
    rw [hpl] at hw
    obtain ⟨k, k1, k2, k3, k4⟩ := wrapTime_spec hd (played_nonneg hd hf h1) hw
    refine ⟨r / a.duration, k, hq.symm, div_nonneg k2 hd.le, (div_le_one hd).2 k3, ?_, fun hk => div_pos (k4 hk) hd⟩
    rw [k1, add_mul, div_mul_cancel₀ _ hd.ne']
    ring

/-- C51: a finite animation with a whole number of iterations shows exactly 1 from its end on. -/
theorem C51_ends_at_one {fuel : Nat} {times : List Rat} {a a' : Animator} {ps : List (Option Progress)} {n : Nat}
    (hd : 0 < a.duration) (hn : 0 < n) (hi : a.iterations = .number n) (hstart : a.time = 0) (h : a.frames fuel times = .ok (a', ps)) {i : Nat} {p : Option Progress}
    (hp : ps[i]? = some p) (hend : n * a.duration ≤ elapsed a times i) : p = some (.value 1) := by
  have hf : a.Forward := by
    intro m hm; rw [hi] at hm; injection hm with hm; rw [← hm]; exact Nat.cast_nonneg n
  obtain ⟨h1, h2⟩ := C51_progress hd hf hstart h hp
  have hpos : 0 < (n : Rat) * a.duration := mul_pos (by exact_mod_cast hn) hd
  cases p with
  | none => have := h1.1 rfl; linarith
  | some q =>
    obtain ⟨x, k, rfl, x0, x1, hx, hk⟩ := h2 q rfl
    have : playedTime a (elapsed a times i) = n * a.duration := by
      unfold playedTime; rw [hi]; exact min_eq_right hend
    rw [this] at hx
    have hx : (n : Rat) = k + x := mul_right_cancel₀ hd.ne' hx
    have hkn : k = n ∨ k + 1 = n := by
      have a1 : k ≤ n := by exact_mod_cast (show (k : Rat) ≤ n by linarith)
      have a2 : n ≤ k + 1 := by exact_mod_cast (show (n : Rat) ≤ (k + 1 : Nat) by push_cast; linarith)
      omega
    rcases hkn with rfl | rfl
    · have := hk hn; linarith
    · push_cast at hx
      rw [show x = 1 by linarith]

/-- C51: the clock is the sum of the frame times while the animation runs and stands still otherwise; with
enough fuel there is always a result. -/
theorem C51_clock {times : List Rat} {a : Animator} (hd : 0 < a.duration) :
    ∃ n, ∀ fuel ≥ n, ∃ a' ps, a.frames fuel times = .ok (a', ps) ∧ ps.length = times.length ∧
      a'.time = a.time + if a.running then times.sum else 0 := by
  have total : ∀ (times : List Rat) (a : Animator), 0 < a.duration → ∃ n, ∀ fuel ≥ n, ∃ r, a.frames fuel times = .ok r := by
    intro times
    induction times with
    | nil => intro a _; exact ⟨0, fun _ _ => ⟨_, rfl⟩⟩
    | cons x xs ih =>
      intro a hd
      obtain ⟨n, hn⟩ := update_total (time := x) hd
      obtain ⟨m, hm⟩ := ih { a with time := clockAfter a x } hd
      refine ⟨max n m, fun fuel hf => ?_⟩
      obtain ⟨⟨b, p⟩, hr⟩ := hn fuel (le_trans (le_max_left _ _) hf)
      obtain ⟨⟨c, ps⟩, hc⟩ := hm fuel (le_trans (le_max_right _ _) hf)
      obtain ⟨hb, -⟩ := update_cases hr
      rw [← hb] at hc
      exact ⟨(c, p :: ps), by simp only [Animator.frames, hr, hc]⟩
  obtain ⟨n, hn⟩ := total times a hd
  refine ⟨n, fun fuel hf => ?_⟩
  obtain ⟨⟨a', ps⟩, hr⟩ := hn fuel hf
  obtain ⟨h1, h2, -⟩ := frames_spec times hd hr
  exact ⟨a', ps, hr, h1, by rw [h2]⟩

/-- An animation of 2 seconds, played twice after 1 second. -/
def twice : Animator := { duration := 2, delay := 1, iterations := .number 2 }

/-- `twice` meets the hypotheses of C51: frames of 1/2, 1, 3/2, 1, 1 and 1 seconds. -/
theorem C51_witness : twice.frames 9 [1/2, 1, 3/2, 1, 1, 1] =
    .ok ({ twice with time := 6 }, [none, some (.value (1/4)), some (.value 1), some (.value (1/2)), some (.value 1), some (.value 1)]) := by
  decide +kernel

/-! ## C52 -/

/-- C52 (part): with a positive duration the update of an animation comes to an end. Missing: other durations,
see `C52_exactly`. -/
theorem C52_terminates_partial (a : Animator) (time : Rat) (hd : 0 < a.duration) :
    ∃ n, ∀ fuel ≥ n, ∃ r, a.update fuel time = .ok r := update_total hd

/-- C52: the update does not come to an end exactly if the duration is zero or negative and the time played is
larger than it. -/
theorem C52_exactly (a : Animator) (time : Rat) :
    (∀ fuel, a.update fuel time = .error .endless) ↔
      a.duration ≤ 0 ∧ 0 ≤ a.time - a.delay ∧ a.duration < playedTime a (a.time - a.delay) := by
  by_cases hd : 0 < a.duration
  · constructor
    · intro h
      obtain ⟨n, hn⟩ := update_total (time := time) hd
      obtain ⟨r, hr⟩ := hn n le_rfl
      rw [h n] at hr; cases hr
    · intro h; exact absurd h.1 (not_le.2 hd)
  · have hd' := not_lt.1 hd
    have hu : ∀ fuel, a.update fuel time = if a.time - a.delay < 0 then .ok (a, none) else
        match wrapTime a.duration fuel (playedTime a (a.time - a.delay)) with
        | .error e => .error e
        | .ok t => .ok (a, some (if a.duration = 0 then .nan else .value (t / a.duration))) := by
      intro fuel
      rw [update_eq, show clockAfter a time = a.time from if_neg (fun h => hd h.2)]
    simp only [hu]
    by_cases hlt : a.time - a.delay < 0
    · simp only [if_pos hlt]
      constructor
      · intro h; cases h 0
      · intro h; exact absurd h.2.1 (not_le.2 hlt)
    · simp only [if_neg hlt]
      constructor
      · intro h
        refine ⟨hd', not_lt.1 hlt, ?_⟩
        by_contra hc
        have := h 1
        rw [show wrapTime a.duration 1 (playedTime a (a.time - a.delay)) = .ok (playedTime a (a.time - a.delay)) by
          simp only [wrapTime]; rw [if_neg hc]] at this
        cases this
      · intro h fuel
        rw [wrapTime_endless hd' h.2.2]

/-- Finding for C52: `animation: x -1s` with half an iteration, or `animation: x 0s -1s infinite`, hangs in the
first frame. -/
theorem C52_hangs_counterexample (time : Rat) (fuel : Nat) :
    ({ duration := -1, iterations := .number (1/2) } : Animator).update fuel time = .error .endless ∧
    ({ duration := 0, delay := -1, iterations := .infinite } : Animator).update fuel time = .error .endless := by
  constructor
  · exact (C52_exactly _ _).2 ⟨by decide +kernel, by decide +kernel, by decide +kernel⟩ fuel
  · exact (C52_exactly _ _).2 ⟨by decide +kernel, by decide +kernel, by decide +kernel⟩ fuel

/-! ## C54 -/

/-- C54: interpolation is exact at both ends. -/
theorem C54_ends (a b : ComputedValue) : animate a b 0 = a ∧ animate a b 1 = b := by
  constructor
  · simp [animate]
  · unfold animate; rw [if_neg (by norm_num), if_pos rfl]

/-- C54: interpolation stays between its ends. -/
theorem C54_between {a b : ComputedValue} {t : Rat} (ha : a.Bytes) (hb : b.Bytes) (h0 : 0 ≤ t) (h1 : t ≤ 1) :
    Between a b (animate a b t) := by
  unfold animate
  split
  · exact .inl rfl
  split
  · exact .inr (.inl rfl)
  split
  · rename_i x y
    obtain ⟨p, q⟩ := mix_between (x := x) (y := y) h0 h1
    exact .inr (.inr (.inl ⟨x, y, _, rfl, rfl, rfl, p, q⟩))
  · rename_i x y
    obtain ⟨p, q⟩ := mix_between (x := x) (y := y) h0 h1
    exact .inr (.inr (.inr (.inl ⟨x, y, _, rfl, rfl, rfl, p, q⟩)))
  · rename_i x
    obtain ⟨p, q⟩ := mix_between (x := x) (y := 0) h0 h1
    split
    · exact .inr (.inl rfl)
    · exact .inr (.inr (.inr (.inr (.inl ⟨x, _, rfl, rfl, rfl, p, q⟩))))
  · rename_i y
    obtain ⟨p, q⟩ := mix_between (x := 0) (y := y) h0 h1
    exact .inr (.inr (.inr (.inr (.inr (.inl ⟨y, _, rfl, rfl, rfl, p, q⟩)))))
  · rename_i x y
    split
    · split
      · exact .inl rfl
      · exact .inr (.inl rfl)
    · rename_i hu
      have hu := not_not.1 hu
      obtain ⟨x, u⟩ := x
      obtain ⟨y, w⟩ := y
      simp only at hu; subst hu
      obtain ⟨p, q⟩ := mix_between (x := x) (y := y) h0 h1
      exact .inr (.inr (.inr (.inr (.inr (.inr (.inl ⟨x, y, _, u, rfl, rfl, rfl, p, q⟩))))))
  · rename_i x y
    obtain ⟨a1, a2, a3, a4⟩ := ha x rfl
    obtain ⟨b1, b2, b3, b4⟩ := hb y rfl
    obtain ⟨r1, r2⟩ := mixChannel_between a1 b1 h0 h1
    obtain ⟨g1, g2⟩ := mixChannel_between a2 b2 h0 h1
    obtain ⟨c1, c2⟩ := mixChannel_between a3 b3 h0 h1
    obtain ⟨d1, d2⟩ := mixChannel_between a4 b4 h0 h1
    exact .inr (.inr (.inr (.inr (.inr (.inr (.inr ⟨x, y, _, rfl, rfl, rfl, r1, r2, g1, g2, c1, c2, d1, d2⟩))))))
  · split
    · exact .inl rfl
    · exact .inr (.inl rfl)

/-- C54: a colour is always a colour of bytes, whatever the progress. -/
theorem C54_bytes {a b : ComputedValue} (t : Rat) (ha : a.Bytes) (hb : b.Bytes) : (animate a b t).Bytes := by
  intro c hc
  unfold animate at hc
  split at hc
  · exact ha c hc
  split at hc
  · exact hb c hc
  split at hc
  · cases hc
  · cases hc
  · split at hc <;> cases hc
  · cases hc
  · split at hc <;> cases hc
  · rename_i x y
    injection hc with hc
    subst hc
    exact ⟨asU8_le _, asU8_le _, asU8_le _, asU8_le _⟩
  · split at hc
    · exact ha c hc
    · exact hb c hc

/-- C54: numbers, percentages and lengths of the same unit move along a straight line. -/
theorem C54_linear (x y t : Rat) (unit : Units) :
    animate (.number x) (.number y) t = .number (x + (y - x) * t) ∧
    animate (.percentage x) (.percentage y) t = .percentage (x + (y - x) * t) ∧
    animate (.dimension ⟨x, unit⟩) (.dimension ⟨y, unit⟩) t = .dimension ⟨x + (y - x) * t, unit⟩ := by
  unfold animate
  refine ⟨?_, ?_, ?_⟩
  all_goals
    by_cases h0 : t = 0
    · subst h0; simp
    · by_cases h1 : t = 1
      · subst h1; simp
      · simp [h0, h1]

/-- C54: each channel of a colour moves along a straight line and is rounded down. -/
theorem C54_channels {x y : Rgba} {t : Rat} (hx : x.Bytes) (hy : y.Bytes) (h0 : 0 ≤ t) (h1 : t ≤ 1) :
    ∃ z : Rgba, animate (.color x) (.color y) t = .color z ∧
      (z.r : Int) = ((x.r : Rat) + ((y.r : Rat) - x.r) * t).floor ∧ (z.g : Int) = ((x.g : Rat) + ((y.g : Rat) - x.g) * t).floor ∧
      (z.b : Int) = ((x.b : Rat) + ((y.b : Rat) - x.b) * t).floor ∧ (z.a : Int) = ((x.a : Rat) + ((y.a : Rat) - x.a) * t).floor := by
  have chan : ∀ {p q : Nat}, p ≤ 255 → q ≤ 255 → ((mixChannel p q t : Nat) : Int) = ((p : Rat) + ((q : Rat) - p) * t).floor := by
    intro p q hp hq
    obtain ⟨m1, m2⟩ := mix_between (x := (p : Rat)) (y := (q : Rat)) h0 h1
    have hnn : 0 ≤ (p : Rat) + ((q : Rat) - p) * t := le_trans (le_min (Nat.cast_nonneg p) (Nat.cast_nonneg q)) m1
    have hle : (p : Rat) + ((q : Rat) - p) * t ≤ 255 := le_trans m2 (max_le (by exact_mod_cast hp) (by exact_mod_cast hq))
    unfold mixChannel
    rw [max_eq_left hnn]
    generalize (p : Rat) + ((q : Rat) - p) * t = z at hnn hle
    unfold asU8
    split
    · rename_i hz
      rw [le_antisymm hz hnn]; rfl
    · split
      · rename_i hz
        rw [le_antisymm hle hz]; rfl
      · rw [Int.toNat_of_nonneg]
        exact Rat.le_floor_iff.2 (by simpa using hnn)
  refine ⟨mixColor x y t, ?_, chan hx.1 hy.1, chan hx.2.1 hy.2.1, chan hx.2.2.1 hy.2.2.1, chan hx.2.2.2 hy.2.2.2⟩
  have natFloor : ∀ n : Nat, (n : Rat).floor = n := fun n => Int.floor_natCast (R := Rat) n
  have same : ∀ {p q : Nat}, p ≤ 255 → q ≤ 255 → (t = 0 → mixChannel p q t = p) ∧ (t = 1 → mixChannel p q t = q) := by
    intro p q hp hq
    have hc := chan hp hq
    constructor
    · rintro rfl
      rw [mul_zero, add_zero, natFloor] at hc; exact_mod_cast hc
    · rintro rfl
      rw [mul_one, add_sub_cancel, natFloor] at hc; exact_mod_cast hc
  unfold animate
  by_cases ht0 : t = 0
  · unfold mixColor
    rw [if_pos ht0, (same hx.1 hy.1).1 ht0, (same hx.2.1 hy.2.1).1 ht0, (same hx.2.2.1 hy.2.2.1).1 ht0, (same hx.2.2.2 hy.2.2.2).1 ht0]
  · rw [if_neg ht0]
    by_cases ht1 : t = 1
    · unfold mixColor
      rw [if_pos ht1, (same hx.1 hy.1).2 ht1, (same hx.2.1 hy.2.1).2 ht1, (same hx.2.2.1 hy.2.2.1).2 ht1, (same hx.2.2.2 hy.2.2.2).2 ht1]
    · rw [if_neg ht1]

/-- C54: values that cannot be interpolated switch at one half. -/
theorem C54_switch {a b : ComputedValue} {t : Rat} (h : ¬ Smooth a b) (h0 : 0 ≤ t) (h1 : t ≤ 1) :
    animate a b t = if t < 1 / 2 then a else b := by
  unfold animate
  by_cases ht0 : t = 0
  · subst ht0; simp
  · rw [if_neg ht0]
    by_cases ht1 : t = 1
    · subst ht1; norm_num
    · rw [if_neg ht1]
      split
      · exact absurd trivial h
      · exact absurd trivial h
      · exact absurd trivial h
      · exact absurd trivial h
      · rename_i x y
        rw [if_pos (show x.unit ≠ y.unit from h)]
        split <;> rfl
      · exact absurd trivial h
      · rfl

/-- C54 on concrete values: half way from black to white, and from 10px to 4em. -/
theorem C54_witness : animate (.color ⟨0, 0, 0, 255⟩) (.color ⟨255, 255, 255, 255⟩) (1/2) = .color ⟨127, 127, 127, 255⟩ ∧
    animate (.dimension ⟨10, .px⟩) (.dimension ⟨4, .em⟩) (1/2) = .dimension ⟨4, .em⟩ ∧ ¬ Smooth (.dimension ⟨10, .px⟩) (.dimension ⟨4, .em⟩) := by
  refine ⟨by decide +kernel, by decide +kernel, ?_⟩
  intro h; cases h

/-! ## C53 -/

theorem playTracks_get {step : Nat} {shown : Descriptor → Except Trouble ComputedValue} (tracks : List Track)
    (hn : (tracks.map (·.descriptor)).Nodup) (hv : ∀ t ∈ tracks, ∃ v, trackValue t.frames step = .ok v ∧ shown t.descriptor = .ok v)
    (style : ComputedStyle) :
    ∃ style', playTracks step tracks style = .ok style' ∧
      ∀ d, (d ∉ tracks.map (·.descriptor) → style'.get d = style.get d) ∧
        (∀ v, d ∈ tracks.map (·.descriptor) → shown d = .ok v → style'.get d = some v) := by
  induction tracks generalizing style with
  | nil => exact ⟨style, rfl, fun d => ⟨fun _ => rfl, fun v h => by simp at h⟩⟩
  | cons t ts ih =>
    obtain ⟨v, h1, h2⟩ := hv t (by simp)
    simp only [List.map_cons, List.nodup_cons] at hn
    obtain ⟨style', g1, g2⟩ := ih hn.2 (fun t ht => hv t (by simp [ht])) (style.insert t.descriptor v)
    refine ⟨style', by simp only [playTracks, h1]; exact g1, fun d => ⟨fun hd => ?_, fun w hd hw => ?_⟩⟩
    · simp only [List.map_cons, List.mem_cons, not_or] at hd
      rw [(g2 d).1 hd.2, ComputedStyle.get_insert_other _ _ hd.1]
    · simp only [List.map_cons, List.mem_cons] at hd
      by_cases hin : d ∈ ts.map (·.descriptor)
      · exact (g2 d).2 w hin hw
      · rcases hd with rfl | hd
        · rw [(g2 _).1 hin, ComputedStyle.get_insert_same, ← show v = w by rw [h2] at hw; injection hw]
        · exact absurd hd hin

/-- The tracks of an animation: one for each property set in some keyframe, with the values of the
specification at each step, in order. -/
theorem computeTracks_spec {vars : Variables} {fuel : Nat} {animation : Animation} {style : ComputedStyle} {tracks : List Track}
    {styleOf : Keyframe → ComputedStyle}
    (hs : ∀ k ∈ animation.keyframes, keyframeStyle vars fuel k.declaration [] = some (styleOf k))
    (h : computeTracks vars fuel animation style = some tracks) :
    (tracks.map (·.descriptor)).Nodup ∧
    (∀ d, d ∈ tracks.map (·.descriptor) ↔ ∃ k ∈ animation.keyframes, ∃ v, (styleOf k).get d = some v) ∧
    ∀ t ∈ tracks, t.frames.Pairwise (fun a b => a.1 < b.1) ∧
      ∀ s, stepAt t.frames s = keyframeValue styleOf animation.keyframes style t.descriptor s := by
  unfold computeTracks at h
  cases hk : keyframeStyles vars fuel animation.keyframes [] [] with
  | none => rw [hk] at h; cases h
  | some r =>
    obtain ⟨styles, animated⟩ := r
    rw [hk] at h
    simp only [Option.some.injEq] at h
    obtain ⟨k1, k2, k3⟩ := keyframeStyles_spec animation.keyframes List.Pairwise.nil hk
    have hmem : ∀ d, d ∈ animated ↔ ∃ k ∈ animation.keyframes, ∃ v, (styleOf k).get d = some v := by
      intro d
      rw [k3]
      simp only [List.not_mem_nil, false_or]
      constructor
      · rintro ⟨k, hk, st, h1, h2⟩
        rw [hs k hk] at h1; injection h1 with h1; subst h1
        exact ⟨k, hk, (ComputedStyle.get_mem _ _).2 h2⟩
      · rintro ⟨k, hk, h2⟩
        exact ⟨k, hk, _, hs k hk, (ComputedStyle.get_mem _ _).1 h2⟩
    have hdesc : tracks.map (·.descriptor) = animated.dedup := by
      rw [← h, List.map_map]
      conv_rhs => rw [← List.map_id animated.dedup]
      rfl
    refine ⟨by rw [hdesc]; exact List.nodup_dedup _, fun d => by rw [hdesc, List.mem_dedup, hmem], ?_⟩
    intro t ht
    rw [← h, List.mem_map] at ht
    obtain ⟨d, hd, rfl⟩ := ht
    have hd' : d ∈ animated := List.mem_dedup.1 hd
    have s1 := insertStep_sorted 0 (completeFrame style animated.dedup ((stepAt styles 0).getD [])) styles k1
    have s2 := insertStep_sorted 100 (completeFrame style animated.dedup ((stepAt (insertStep 0 (completeFrame style animated.dedup ((stepAt styles 0).getD [])) styles) 100).getD [])) _ s1
    constructor
    · simp only
      refine List.Pairwise.filterMap _ ?_ s2
      intro a a' hlt b hb b' hb'
      simp only [Option.map_eq_some_iff] at hb hb'
      obtain ⟨_, _, rfl⟩ := hb
      obtain ⟨_, _, rfl⟩ := hb'
      exact hlt
    · intro s
      simp only
      rw [stepAt_filterMap _ s2 (fun st : ComputedStyle => st.get d), stepAt_insertStep _ _ _ s1, stepAt_insertStep _ _ _ k1, stepAt_insertStep _ _ _ k1]
      have hlast : ∀ s, (stepAt styles s) = ((animation.keyframes.filter (·.step == s)).getLast?).map styleOf := by
        intro s
        rw [k2]
        cases hg : (animation.keyframes.filter (·.step == s)).getLast? with
        | none => rfl
        | some k =>
          simp only [Option.map_some]
          exact hs k (List.mem_of_mem_filter (List.mem_of_getLast? hg))
      have hget : ∀ s, (((stepAt styles s).getD []).get d) =
          ((animation.keyframes.filter (·.step == s)).getLast?).bind fun k => (styleOf k).get d := by
        intro s
        rw [hlast]
        cases (animation.keyframes.filter (·.step == s)).getLast? <;> rfl
      unfold keyframeValue
      by_cases h100 : s = 100
      · subst h100
        rw [if_pos rfl, if_neg (by omega)]
        simp only [Option.bind_some, completeFrame_get, hget, hd, if_true]
        cases ((animation.keyframes.filter (·.step == 100)).getLast?).bind fun k => (styleOf k).get d with
        | some v => rfl
        | none => simp only [or_true, if_true]; cases style.get d <;> rfl
      · rw [if_neg h100]
        by_cases h0 : s = 0
        · subst h0
          rw [if_pos rfl]
          simp only [Option.bind_some, completeFrame_get, hget, hd, if_true]
          cases ((animation.keyframes.filter (·.step == 0)).getLast?).bind fun k => (styleOf k).get d with
          | some v => rfl
          | none => simp only [true_or, if_true]; cases style.get d <;> rfl
        · rw [if_neg h0, if_neg (by omega), hlast]
          cases (animation.keyframes.filter (·.step == s)).getLast? with
          | none => rfl
          | some k => simp only [Option.map_some, Option.bind_some]; cases (styleOf k).get d <;> rfl

/-- C53: in a frame with progress `x` from 0 to 1, for every order of the tracks, playing an animation does
not panic; every property set in some keyframe has the value of its keyframe at the percentage reached, if
there is one, and otherwise the interpolation of the nearest keyframes before and after; all other properties
keep their values. `styleOf k` is the style declared in the keyframe `k`, `style` the style of the element
without the animation. -/
theorem C53_play {vars : Variables} {fuel : Nat} {animation : Animation} {style shown : ComputedStyle} {tracks order : List Track}
    {styleOf : Keyframe → ComputedStyle} {a a' : Animator} {time x : Rat} {step : Nat}
    (hs : ∀ k ∈ animation.keyframes, keyframeStyle vars fuel k.declaration [] = some (styleOf k))
    (h : computeTracks vars fuel animation style = some tracks) (hperm : order.Perm tracks)
    (hu : a.update fuel time = .ok (a', some (.value x))) (h1 : x ≤ 1) (hl : (step : Rat) ≤ 100 * x) (hr : 100 * x < step + 1) :
    ∃ shown', a.play fuel time order shown = .ok (a', shown') ∧
      ∀ d, ((∀ k ∈ animation.keyframes, (styleOf k).get d = none) → shown'.get d = shown.get d) ∧
        ((∃ k ∈ animation.keyframes, ∃ v, (styleOf k).get d = some v) →
          (∀ v, keyframeValue styleOf animation.keyframes style d step = some v → shown'.get d = some v) ∧
          (keyframeValue styleOf animation.keyframes style d step = none →
            ∃ before after from_ to_, before < step ∧ step < after ∧
              keyframeValue styleOf animation.keyframes style d before = some from_ ∧
              keyframeValue styleOf animation.keyframes style d after = some to_ ∧
              (∀ s, before < s → s < after → keyframeValue styleOf animation.keyframes style d s = none) ∧
              shown'.get d = some (animate from_ to_ (((step : Rat) - before) / ((after : Rat) - before))))) := by
  obtain ⟨c1, c2, c3⟩ := computeTracks_spec hs h
  have hstep : stepOf (.value x) = step := by
    have hf : (x * 100).floor = step := by
      have := Int.floor_eq_iff (a := x * 100) (z := (step : Int)) |>.2 ⟨by push_cast; linarith, by push_cast; linarith⟩
      exact this
    have h100 : step ≤ 100 := by exact_mod_cast (show (step : Rat) ≤ 100 by linarith)
    simp only [stepOf, hf, Int.toNat_natCast]
    omega
  have h100 : step ≤ 100 := by exact_mod_cast (show (step : Rat) ≤ 100 by linarith)
  have hends : ∀ d, (∃ v, keyframeValue styleOf animation.keyframes style d 0 = some v) ∧ ∃ v, keyframeValue styleOf animation.keyframes style d 100 = some v := by
    intro d
    unfold keyframeValue
    constructor <;> split <;> simp
  have hval : ∀ t ∈ tracks, ∃ v, trackValue t.frames step = .ok v := by
    intro t ht
    obtain ⟨t1, t2⟩ := c3 t ht
    obtain ⟨e1, e2⟩ := hends t.descriptor
    obtain ⟨w1, w2⟩ := trackValue_spec t1 (t2 0 ▸ e1) (t2 100 ▸ e2) h100
    cases hk : stepAt t.frames step with
    | some v => exact ⟨v, w1 v hk⟩
    | none => obtain ⟨_, _, _, _, _, _, _, _, _, hh⟩ := w2 hk; exact ⟨_, hh⟩
  have hfind : ∃ f : Descriptor → Except Trouble ComputedValue, ∀ t ∈ tracks, f t.descriptor = trackValue t.frames step := by
    refine ⟨fun d => match tracks.find? (·.descriptor == d) with | some t => trackValue t.frames step | none => .error .panic, ?_⟩
    intro t ht
    cases hf : tracks.find? (·.descriptor == t.descriptor) with
    | none => exact absurd (List.find?_eq_none.1 hf t ht) (by simp)
    | some t' =>
      show (match tracks.find? (·.descriptor == t.descriptor) with | some t => trackValue t.frames step | none => .error .panic) = _
      rw [hf]
      have e1 : t'.descriptor = t.descriptor := by simpa using List.find?_some hf
      have : t' = t := List.inj_on_of_nodup_map c1 (List.mem_of_find?_eq_some hf) ht e1
      rw [this]
  obtain ⟨f, hf⟩ := hfind
  have hordn : (order.map (·.descriptor)).Nodup := (hperm.map _).nodup_iff.2 c1
  obtain ⟨shown', p1, p2⟩ := playTracks_get (step := step) (shown := f) order hordn
    (fun t ht => by
      have ht := hperm.mem_iff.1 ht
      obtain ⟨v, hv⟩ := hval t ht
      exact ⟨v, hv, by rw [hf t ht, hv]⟩) shown
  have hmem : ∀ d, d ∈ order.map (·.descriptor) ↔ d ∈ tracks.map (·.descriptor) := fun d => (hperm.map _).mem_iff
  refine ⟨shown', by simp only [Animator.play, hu, hstep, p1], fun d => ⟨fun hd => ?_, fun hd => ?_⟩⟩
  · refine (p2 d).1 (fun hin => ?_)
    obtain ⟨k, hk, v, hv⟩ := (c2 d).1 ((hmem d).1 hin)
    rw [hd k hk] at hv; cases hv
  · have hin := (c2 d).2 hd
    obtain ⟨t, ht, rfl⟩ := List.mem_map.1 hin
    have hin' := (hmem _).2 hin
    obtain ⟨t1, t2⟩ := c3 t ht
    obtain ⟨e1, e2⟩ := hends t.descriptor
    obtain ⟨w1, w2⟩ := trackValue_spec t1 (t2 0 ▸ e1) (t2 100 ▸ e2) h100
    simp only [t2] at w1 w2
    constructor
    · intro v hv
      exact (p2 _).2 v hin' (by rw [hf t ht, w1 v hv])
    · intro hv
      obtain ⟨b, c, y, z, q1, q2, q3, q4, q5, q6⟩ := w2 hv
      exact ⟨b, c, y, z, q1, q2, q3, q4, q5, (p2 _).2 _ hin' (by rw [hf t ht, q6])⟩

/-- C53: the style of a keyframe is what its last declarations say, with the variables of the element; the
variables a keyframe defines are ignored. -/
theorem C53_keyframe_style {vars : Variables} {fuel : Nat} {block : List Declaration} {st : ComputedStyle}
    (h : keyframeStyle vars fuel block [] = some st) (d : Descriptor) (v : ComputedValue) :
    st.get d = some v ↔ ∃ pre x post, block = pre ++ x :: post ∧ x.Sets vars d v ∧ ∀ y ∈ post, ∀ w, ¬ y.Sets vars d w := by
  rw [keyframeStyle_eq] at h
  obtain ⟨f, hf⟩ : ∃ f : Declaration → Bool, f = Declaration.isProperty := ⟨_, rfl⟩
  rw [← hf] at h
  obtain ⟨⟨vs, st'⟩, hc, rfl⟩ := Option.map_eq_some_iff.1 h
  rw [computeBlock_get _ hc]
  have hset : ∀ x w, x.Sets vars d w → f x = true := by
    rintro x w ⟨key, values, _, _, rfl, _⟩; rw [hf]; rfl
  have hscope : ∀ i, scopeAfter vars ((block.filter f).take i) = vars := by
    intro i
    funext name
    have : givenTo name ((block.filter f).take i) = [] := by
      unfold givenTo
      rw [List.filterMap_eq_nil_iff]
      intro x hx
      have := (List.mem_filter.1 (List.mem_of_mem_take hx)).2
      cases x with
      | «variable» k l => simp [hf, Declaration.isProperty] at this
      | property k l => rfl
    simp [scopeAfter, this]
  simp only [SetsAt, hscope]
  constructor
  · rintro ⟨i, ⟨x, hx, hs⟩, hlast⟩
    have hsplit : block.filter f = (block.filter f).take i ++ x :: (block.filter f).drop (i + 1) := by
      rw [List.getElem?_eq_some_iff] at hx
      obtain ⟨hi, hx⟩ := hx
      rw [← hx, List.getElem_cons_drop, List.take_append_drop]
    obtain ⟨l1, l2, hl, h1, h2⟩ := List.filter_eq_append_iff.1 hsplit
    obtain ⟨m1, m2, hm, n1, n2, n3⟩ := List.filter_eq_cons_iff.1 h2
    refine ⟨l1 ++ m1, x, m2, by rw [hl, hm, List.append_assoc], hs, ?_⟩
    intro y hy w hw
    have hmem : y ∈ (block.filter f).drop (i + 1) := by
      rw [← n3]; exact List.mem_filter.2 ⟨hy, hset y w hw⟩
    obtain ⟨j, hj⟩ := List.mem_iff_getElem?.1 hmem
    rw [List.getElem?_drop] at hj
    exact hlast (i + 1 + j) w (by omega) ⟨y, hj, hw⟩
  · rintro ⟨pre, x, post, rfl, hs, hl⟩
    refine ⟨(pre.filter f).length, ⟨x, ?_, hs⟩, ?_⟩
    · rw [List.filter_append, List.filter_cons, if_pos (hset x v hs)]; simp
    · rintro j w hj ⟨y, hy, hw⟩
      rw [List.filter_append, List.filter_cons, if_pos (hset x v hs), List.getElem?_append_right (by omega)] at hy
      obtain ⟨k, hk⟩ : ∃ k, j - (pre.filter f).length = k + 1 := ⟨j - (pre.filter f).length - 1, by omega⟩
      rw [hk, List.getElem?_cons_succ] at hy
      exact hl y (List.mem_of_mem_filter (List.mem_of_getElem? hy)) w hw

/-- `@keyframes x { from { width: 10px } 50% { width: 20px } }` on an element with `width: 40px`. -/
def growing : Animation := ⟨"x", [⟨0, [.property .Width [[.explicit (.dimension ⟨10, .px⟩)]]]⟩, ⟨50, [.property .Width [[.explicit (.dimension ⟨20, .px⟩)]]]⟩]⟩

/-- C53 on `growing`: 10px, 15px, 20px, 30px and 40px at 0%, 25%, 50%, 75% and 100%. -/
theorem C53_witness : ([0, 25, 50, 75, 100].map fun step =>
    match computeTracks (fun _ => none) 2 growing [(⟨.Width, 0⟩, .dimension ⟨40, .px⟩)] with
    | some tracks => (match playTracks step tracks [] with | .ok st => st.get ⟨.Width, 0⟩ | .error _ => none)
    | none => none) = [some (.dimension ⟨10, .px⟩), some (.dimension ⟨15, .px⟩), some (.dimension ⟨20, .px⟩), some (.dimension ⟨30, .px⟩), some (.dimension ⟨40, .px⟩)] := by
  decide +kernel

/-! ## C55 -/

theorem loop_single {key : PropertyKey} {x : Rat} {fuel : Nat} (hfuel : 2 ≤ fuel) {t : Transition} {style : ComputedStyle} {a b v : ComputedValue}
    (hr : t.range = some (a, b)) (hs : Single style key v) :
    ∃ shown, Transition.loop key (.value x) fuel 0 t style =
        .ok (if b ≠ v then { t with range := some (animate a b x, v), animator := { t.animator with time := 0 } } else t, shown) ∧
      shown.get ⟨key, 0⟩ = some (animate a b x) ∧ ∀ d, d ≠ ⟨key, 0⟩ → shown.get d = style.get d := by
  obtain ⟨n, rfl⟩ : ∃ n, fuel = n + 2 := ⟨fuel - 2, by omega⟩
  have hne : (⟨key, 1⟩ : Descriptor) ≠ ⟨key, 0⟩ := by intro h; injection h with _ h; cases h
  refine ⟨if animate a b x ≠ v then style.insert ⟨key, 0⟩ (animate a b x) else style, ?_, ?_, ?_⟩
  · have h1 : (if animate a b x ≠ v then style.insert ⟨key, 0⟩ (animate a b x) else style).get ⟨key, 0 + 1⟩ = none := by
      split
      · rw [ComputedStyle.get_insert_other _ _ hne]; exact hs.2
      · exact hs.2
    rw [Transition.loop, hs.1]
    simp only [hr, animateAt]
    rw [Transition.loop, h1]
  · split
    · exact ComputedStyle.get_insert_same _ _ _
    · rename_i h; rw [not_not.1 h]; exact hs.1
  · intro d hd
    split
    · exact ComputedStyle.get_insert_other _ _ hd
    · rfl

/-- A transition of one run without delay: `transition: key duration`. -/
def Transition.Plain (t : Transition) (key : PropertyKey) : Prop :=
  t.key = some key ∧ t.animator.running = true ∧ t.animator.delay = 0 ∧ t.animator.iterations = .number 1 ∧ 0 < t.animator.duration

theorem plain_update {t : Transition} {key : PropertyKey} (h : t.Plain key) {fuel : Nat} (hfuel : 1 ≤ fuel) {time : Rat}
    (ht : 0 ≤ t.animator.time + time) :
    t.animator.update fuel time = .ok ({ t.animator with time := t.animator.time + time },
      some (.value (min (t.animator.time + time) t.animator.duration / t.animator.duration))) := by
  obtain ⟨-, h2, h3, h4, h5⟩ := h
  obtain ⟨n, rfl⟩ : ∃ n, fuel = n + 1 := ⟨fuel - 1, by omega⟩
  have hc : clockAfter t.animator time = t.animator.time + time := if_pos ⟨h2, h5⟩
  rw [update_eq, hc, h3, sub_zero, if_neg (not_lt.2 ht)]
  have hp : playedTime t.animator (t.animator.time + time) = min (t.animator.time + time) t.animator.duration := by
    unfold playedTime; rw [h4]; simp
  rw [hp]
  have : wrapTime t.animator.duration (n + 1) (min (t.animator.time + time) t.animator.duration) = .ok (min (t.animator.time + time) t.animator.duration) := by
    simp only [wrapTime]
    rw [if_neg (not_lt.2 (min_le_right _ _))]
  simp only [this, if_neg h5.ne', h3]

theorem plain_play {t : Transition} {key : PropertyKey} (h : t.Plain key) {fuel : Nat} (hfuel : 2 ≤ fuel) {time : Rat}
    (ht : 0 ≤ t.animator.time + time) {a b v : ComputedValue} (hr : t.range = some (a, b)) {style : ComputedStyle} (hs : Single style key v) :
    ∃ shown, t.play fuel time style =
        .ok (if b ≠ v then { t with range := some (animate a b (min (t.animator.time + time) t.animator.duration / t.animator.duration), v), animator := { t.animator with time := 0 } }
             else { t with animator := { t.animator with time := t.animator.time + time } }, shown) ∧
      shown.get ⟨key, 0⟩ = some (animate a b (min (t.animator.time + time) t.animator.duration / t.animator.duration)) ∧
      ∀ d, d ≠ ⟨key, 0⟩ → shown.get d = style.get d := by
  obtain ⟨shown, h1, h2, h3⟩ := loop_single (key := key) (x := min (t.animator.time + time) t.animator.duration / t.animator.duration) hfuel
    (t := { t with animator := { t.animator with time := t.animator.time + time } }) hr hs
  refine ⟨shown, ?_, h2, h3⟩
  unfold Transition.play
  rw [h.1]
  simp only [plain_update h (show 1 ≤ fuel by omega) ht]
  rw [h.1] at h1
  exact h1

theorem init_ranged {t : Transition} (style : ComputedStyle) (h : t.range.isSome) : t.init style = t := by
  unfold Transition.init; rw [if_pos h]

theorem running_frames {key : PropertyKey} {fuel : Nat} (hfuel : 2 ≤ fuel) {old v : ComputedValue} (frames : List (Rat × ComputedStyle))
    {t : Transition} (h : t.Plain key) (hr : t.range = some (old, v)) (h0 : 0 ≤ t.animator.time)
    (hf : ∀ f ∈ frames, 0 ≤ f.1 ∧ Single f.2 key v) :
    ∃ shown, t.frames fuel frames = .ok ({ t with animator := { t.animator with time := t.animator.time + (frames.map (·.1)).sum } }, shown) ∧
      shown.length = frames.length ∧
      ∀ i st, shown[i]? = some st →
        st.get ⟨key, 0⟩ = some (animate old v (min (t.animator.time + ((frames.take (i + 1)).map (·.1)).sum) t.animator.duration / t.animator.duration)) ∧
        ∀ d, d ≠ ⟨key, 0⟩ → ∀ f, frames[i]? = some f → st.get d = f.2.get d := by
  induction frames generalizing t with
  | nil => exact ⟨[], by simp [Transition.frames], rfl, fun i st hst => by simp at hst⟩
  | cons f fs ih =>
    obtain ⟨time, style⟩ := f
    obtain ⟨f1, f2⟩ := hf (time, style) (by simp)
    simp only at f1 f2
    obtain ⟨shown, p1, p2, p3⟩ := plain_play h hfuel (add_nonneg h0 f1) hr f2
    simp only [ne_eq, not_true, if_false] at p1
    obtain ⟨rest, r1, r2, r3⟩ := ih (t := { t with animator := { t.animator with time := t.animator.time + time } }) h hr
      (add_nonneg h0 f1) (fun f hf' => hf f (by simp [hf']))
    refine ⟨shown :: rest, ?_, by simp [r2], ?_⟩
    · simp only [Transition.frames, p1]
      rw [init_ranged _ (by simp [hr]), r1]
      simp [add_assoc]
    · intro i st hst
      cases i with
      | zero =>
        simp only [List.getElem?_cons_zero, Option.some.injEq] at hst
        subst hst
        refine ⟨by rw [p2]; simp, ?_⟩
        intro d hd f hf'
        simp only [List.getElem?_cons_zero, Option.some.injEq] at hf'
        subst hf'; exact p3 d hd
      | succ i =>
        simp only [List.getElem?_cons_succ] at hst
        obtain ⟨q1, q2⟩ := r3 i st hst
        refine ⟨?_, fun d hd f hf' => q2 d hd f (by simpa using hf')⟩
        rw [q1, List.take_succ_cons, List.map_cons, List.sum_cons, ← add_assoc]

/-- C55 (part): a property with a transition of positive duration and no delay, on its way from `a` to `b` or
arrived there, gets the new value `v` and keeps it. In the frame of the change it displays its place on the old
way, called `old`; `i` frames later the value on the way from `old` to `v` for the time passed since the
change; and nothing else is touched. Missing: a delay, a duration of zero and properties with several values, see
`C55_delay_counterexample` and `C55_zero_duration_counterexample`. -/
theorem C55_transition_partial {key : PropertyKey} {fuel : Nat} (hfuel : 2 ≤ fuel) {a b v : ComputedValue} {t : Transition} (h : t.Plain key)
    (hr : t.range = some (a, b)) (h0 : 0 ≤ t.animator.time) {time : Rat} (ht : 0 ≤ time) {style : ComputedStyle} (hs : Single style key v) (hv : b ≠ v)
    (frames : List (Rat × ComputedStyle)) (hf : ∀ f ∈ frames, 0 ≤ f.1 ∧ Single f.2 key v) :
    ∃ old t' first shown, old = animate a b (min (t.animator.time + time) t.animator.duration / t.animator.duration) ∧
      t.frames fuel ((time, style) :: frames) = .ok (t', first :: shown) ∧ shown.length = frames.length ∧
      first.get ⟨key, 0⟩ = some old ∧ (∀ d, d ≠ ⟨key, 0⟩ → first.get d = style.get d) ∧
      ∀ i st, shown[i]? = some st →
        st.get ⟨key, 0⟩ = some (animate old v (min ((frames.take (i + 1)).map (·.1)).sum t.animator.duration / t.animator.duration)) ∧
        ∀ d, d ≠ ⟨key, 0⟩ → ∀ f, frames[i]? = some f → st.get d = f.2.get d := by
  obtain ⟨first, p1, p2, p3⟩ := plain_play h hfuel (add_nonneg h0 ht) hr hs
  rw [if_pos hv] at p1
  obtain ⟨shown, r1, r2, r3⟩ := running_frames hfuel frames
    (t := { t with range := some (animate a b (min (t.animator.time + time) t.animator.duration / t.animator.duration), v), animator := { t.animator with time := 0 } })
    h rfl le_rfl hf
  have hfr : ∃ t', t.frames fuel ((time, style) :: frames) = .ok (t', first :: shown) := by
    simp only [Transition.frames, p1]
    rw [init_ranged _ (by simp), r1]
    exact ⟨_, rfl⟩
  obtain ⟨t', hfr⟩ := hfr
  refine ⟨_, t', first, shown, rfl, hfr, r2, p2, p3, ?_⟩
  intro i st hst
  obtain ⟨q1, q2⟩ := r3 i st hst
  refine ⟨?_, q2⟩
  rw [q1, zero_add]

/-- C55 (part): on the way the value stays between the old and the new one, and it is the new value once the
time of the transition has passed. -/
theorem C55_converges_partial {old v : ComputedValue} {d s : Rat} (hd : 0 < d) (hs : 0 ≤ s) :
    (old.Bytes → v.Bytes → Between old v (animate old v (min s d / d))) ∧ (d ≤ s → animate old v (min s d / d) = v) ∧
    (s = 0 → animate old v (min s d / d) = old) := by
  refine ⟨fun h1 h2 => C54_between h1 h2 (div_nonneg (le_min hs hd.le) hd.le) ((div_le_one hd).2 (min_le_right _ _)), ?_, ?_⟩
  · intro h
    rw [min_eq_right h, div_self hd.ne']; exact (C54_ends _ _).2
  · rintro rfl
    rw [min_eq_left hd.le, zero_div]; exact (C54_ends _ _).1

theorem animate_same {v : ComputedValue} {x : Rat} (hv : v.Bytes) : animate v v x = v := by
  by_cases h0 : x = 0
  · simp [animate, h0]
  by_cases h1 : x = 1
  · simp [animate, h1]
  cases v
  case color c =>
    have chan : ∀ {n : Nat}, n ≤ 255 → mixChannel n n x = n := by
      intro n hn
      unfold mixChannel asU8
      have : ((n : Rat) + ((n : Rat) - n) * x) = n := by ring
      rw [this, max_eq_left (Nat.cast_nonneg n)]
      have hfl : ((n : Rat)).floor.toNat = n := by
        have : ((n : Rat)).floor = (n : Int) := by exact_mod_cast Rat.floor_intCast (n : Int)
        rw [this]; rfl
      simp only [Nat.cast_nonpos, hfl]
      split
      · omega
      · split
        · rename_i h; norm_cast at h; omega
        · rfl
    obtain ⟨b1, b2, b3, b4⟩ := hv c rfl
    simp [animate, h0, h1, mixColor, chan b1, chan b2, chan b3, chan b4]
  all_goals simp [animate, h0, h1]

theorem init_single {t : Transition} {key : PropertyKey} (hk : t.key = some key) (hr : t.range = none) {style : ComputedStyle} {v : ComputedValue}
    (hs : Single style key v) : t.init style = { t with range := some (v, v) } := by
  unfold Transition.init
  rw [hr, hk]
  simp only [Option.isSome_none, Bool.false_eq_true, if_false]
  have hl : ∃ n, style.length = n + 1 := by
    cases hl : style.length with
    | zero =>
      rw [List.length_eq_zero_iff] at hl
      have := hs.1
      rw [hl] at this
      simp [ComputedStyle.get] at this
    | succ n => exact ⟨n, rfl⟩
  obtain ⟨n, hl⟩ := hl
  rw [hl, initLoop, hs.1]
  simp only
  cases n with
  | zero => rfl
  | succ n => rw [initLoop, hs.2]

/-- C55 (part): a transition that starts with the element, when the property has the value `v`: as long as
the value stays `v`, that is what is displayed, and when it becomes `w` and stays so the display goes from `v` to
`w`. -/
theorem C55_start_partial {key : PropertyKey} {fuel : Nat} (hfuel : 2 ≤ fuel) {v w : ComputedValue} (hb : v.Bytes) (hw : v ≠ w)
    {t : Transition} (h : t.Plain key) (hr : t.range = none) (h0 : 0 ≤ t.animator.time) {start : ComputedStyle} (hs : Single start key v)
    (before : List (Rat × ComputedStyle)) (hf : ∀ f ∈ before, 0 ≤ f.1 ∧ Single f.2 key v)
    {time : Rat} (ht : 0 ≤ time) {change : ComputedStyle} (hc : Single change key w)
    (after : List (Rat × ComputedStyle)) (hg : ∀ f ∈ after, 0 ≤ f.1 ∧ Single f.2 key w) :
    ∃ t' t'' old new, (t.init start).frames fuel before = .ok (t', old) ∧ old.length = before.length ∧
      (∀ st ∈ old, st.get ⟨key, 0⟩ = some v) ∧
      t'.frames fuel ((time, change) :: after) = .ok (t'', new) ∧ new.length = after.length + 1 ∧
      ∀ i st, new[i]? = some st → st.get ⟨key, 0⟩ =
        some (animate v w (min ((after.take i).map (·.1)).sum t.animator.duration / t.animator.duration)) := by
  have hd : 0 < t.animator.duration := h.2.2.2.2
  have frac : ∀ x : Rat, animate v v x = v := fun _ => animate_same hb
  have sums : ∀ l : List (Rat × ComputedStyle), (∀ f ∈ l, 0 ≤ f.1) → 0 ≤ (l.map (·.1)).sum := by
    intro l hl
    induction l with
    | nil => simp
    | cons f fs ih =>
      rw [List.map_cons, List.sum_cons]
      exact add_nonneg (hl f (by simp)) (ih (fun g hg => hl g (by simp [hg])))
  rw [init_single h.1 hr hs]
  obtain ⟨old, r1, r2, r3⟩ := running_frames hfuel before (t := { t with range := some (v, v) }) h rfl h0 hf
  have hsum := sums before (fun f hf' => (hf f hf').1)
  obtain ⟨o, t'', first, new, e0, e1, e2, e3, -, e4⟩ := C55_transition_partial (key := key) hfuel (a := v) (b := v) (v := w)
    (t := { t with range := some (v, v), animator := { t.animator with time := t.animator.time + (before.map (·.1)).sum } })
    h rfl (add_nonneg h0 hsum) ht hc hw after hg
  rw [show animate v v _ = v from frac _] at e0
  subst e0
  refine ⟨_, t'', old, first :: new, r1, r2, ?_, e1, by simp [e2], ?_⟩
  · intro st hst
    obtain ⟨i, hi⟩ := List.mem_iff_getElem?.1 hst
    rw [(r3 i st hi).1]
    exact congrArg some (frac _)
  · intro i st hst
    cases i with
    | zero =>
      simp only [List.getElem?_cons_zero, Option.some.injEq] at hst
      subst hst
      rw [e3, List.take_zero]
      simp [(C54_ends o w).1, min_eq_left hd.le]
    | succ i =>
      simp only [List.getElem?_cons_succ] at hst
      exact (e4 i st hst).1

/-- C55 from the start of `transition: width 2s` with 10px: two frames, then 30px for three frames. -/
example : ({ key := some .Width, animator := { duration := 2 } } : Transition).Plain .Width ∧
    (match (({ key := some .Width, animator := { duration := 2 } } : Transition).init [(⟨.Width, 0⟩, .dimension ⟨10, .px⟩)]).frames 2
      (List.replicate 2 (1, [(⟨.Width, 0⟩, .dimension ⟨10, .px⟩)]) ++ List.replicate 3 (1, [(⟨.Width, 0⟩, .dimension ⟨30, .px⟩)])) with
      | .ok (_, shown) => shown.map (·.get ⟨.Width, 0⟩) | .error _ => []) =
    [some (.dimension ⟨10, .px⟩), some (.dimension ⟨10, .px⟩), some (.dimension ⟨10, .px⟩), some (.dimension ⟨20, .px⟩), some (.dimension ⟨30, .px⟩)] := by
  refine ⟨⟨rfl, rfl, rfl, rfl, by decide +kernel⟩, by decide +kernel⟩

/-- `transition: width 2s` having arrived at 10px. -/
def widthTransition : Transition := { key := some .Width, animator := { duration := 2, time := 5 }, range := some (.dimension ⟨10, .px⟩, .dimension ⟨10, .px⟩) }

/-- C55 on `widthTransition`: the width becomes 30px; frames of one second show 10px, 20px, 30px and 30px. -/
theorem C55_witness : widthTransition.Plain .Width ∧
    (match widthTransition.frames 2 (List.replicate 4 (1, [(⟨.Width, 0⟩, .dimension ⟨30, .px⟩)])) with
      | .ok (_, shown) => shown.map (·.get ⟨.Width, 0⟩) | .error _ => []) =
    [some (.dimension ⟨10, .px⟩), some (.dimension ⟨20, .px⟩), some (.dimension ⟨30, .px⟩), some (.dimension ⟨30, .px⟩)] := by
  refine ⟨⟨rfl, rfl, rfl, rfl, by decide +kernel⟩, by decide +kernel⟩

/-- Finding for C55: with a delay the new value is displayed at once, during the delay, and when the delay has
passed the display jumps back to the old value. -/
theorem C55_delay_counterexample {key : PropertyKey} {old v : ComputedValue} {duration delay s : Rat} (hd : 0 < duration) (h1 : 0 ≤ s) (h2 : s < delay)
    {style : ComputedStyle} (hs : Single style key v) {fuel : Nat} (hfuel : 2 ≤ fuel) :
    ∃ t' st st', ({ key := some key, animator := { duration := duration, delay := delay }, range := some (old, v) } : Transition).frames fuel
        [(s, style), (delay - s, style)] = .ok (t', [st, st']) ∧ st.get ⟨key, 0⟩ = some v ∧ st'.get ⟨key, 0⟩ = some old := by
  obtain ⟨n, rfl⟩ : ∃ n, fuel = n + 2 := ⟨fuel - 2, by omega⟩
  have u1 : ({ duration := duration, delay := delay } : Animator).update (n + 2) s = .ok ({ duration := duration, delay := delay, time := s }, none) := by
    rw [update_eq, show clockAfter ({ duration := duration, delay := delay } : Animator) s = s by simp [clockAfter, hd], if_pos (by simpa using h2)]
  have u2 : ({ duration := duration, delay := delay, time := s } : Animator).update (n + 2) (delay - s) =
      .ok ({ duration := duration, delay := delay, time := delay }, some (.value 0)) := by
    rw [update_eq, show clockAfter ({ duration := duration, delay := delay, time := s } : Animator) (delay - s) = delay by simp [clockAfter, hd], if_neg (by simp)]
    have : playedTime ({ duration := duration, delay := delay, time := s } : Animator) (delay - delay) = 0 := by
      simp [playedTime, hd.le]
    simp only [this, wrapTime, if_neg (not_lt.2 hd.le), if_neg hd.ne', zero_div, gt_iff_lt]
  obtain ⟨shown, l1, l2, -⟩ := loop_single (key := key) (x := 0) hfuel
    (t := { key := some key, animator := { duration := duration, delay := delay, time := delay }, range := some (old, v) }) rfl hs
  rw [(C54_ends old v).1] at l2
  have hfr : ∃ t', ({ key := some key, animator := { duration := duration, delay := delay }, range := some (old, v) } : Transition).frames (n + 2)
      [(s, style), (delay - s, style)] = .ok (t', [style, shown]) := by
    simp only [Transition.frames, Transition.play, u1, Transition.init, Option.isSome_some, if_true, u2, l1]
    exact ⟨_, rfl⟩
  obtain ⟨t', hfr⟩ := hfr
  exact ⟨t', style, shown, hfr, hs.1, l2⟩

/-- Finding for C55: with a duration of zero, the default of `transition-property: color`, a colour is
displayed as transparent black in every frame. -/
theorem C55_zero_duration_counterexample {fuel : Nat} (hfuel : 2 ≤ fuel) {style : ComputedStyle} {c : Rgba} (hs : Single style .Color (.color c)) (time : Rat) :
    ∃ shown, ({ key := some .Color, range := some (.color c, .color c) } : Transition).play fuel time style =
      .ok ({ key := some .Color, range := some (.color c, .color c) }, shown) ∧ shown.get ⟨.Color, 0⟩ = some (.color ⟨0, 0, 0, 0⟩) := by
  obtain ⟨n, rfl⟩ : ∃ n, fuel = n + 2 := ⟨fuel - 2, by omega⟩
  have u : ({} : Animator).update (n + 2) time = .ok ({}, some .nan) := by
    rw [update_eq, show clockAfter ({} : Animator) time = 0 by simp [clockAfter]]
    simp [playedTime, wrapTime]
  have hne : (⟨.Color, 1⟩ : Descriptor) ≠ ⟨.Color, 0⟩ := by decide
  refine ⟨if (.color ⟨0, 0, 0, 0⟩ : ComputedValue) ≠ .color c then style.insert ⟨.Color, 0⟩ (.color ⟨0, 0, 0, 0⟩) else style, ?_, ?_⟩
  · have h1 : (if (.color ⟨0, 0, 0, 0⟩ : ComputedValue) ≠ .color c then style.insert ⟨.Color, 0⟩ (.color ⟨0, 0, 0, 0⟩) else style).get ⟨.Color, 0 + 1⟩ = none := by
      split
      · rw [ComputedStyle.get_insert_other _ _ hne]; exact hs.2
      · exact hs.2
    simp only [Transition.play, u]
    rw [Transition.loop, hs.1]
    simp only [animateAt, animateNan]
    rw [Transition.loop, h1]
    simp
  · split
    · exact ComputedStyle.get_insert_same _ _ _
    · rename_i h; rw [not_not.1 h]; exact hs.1

/-! ## C56 -/

theorem loop_ends {key : PropertyKey} {p : Progress} (m : Nat) {n index : Nat} (hm : n = index + m) {fuel : Nat} (hf : m < fuel) {t : Transition}
    (hr : t.range.isSome) {style : ComputedStyle} (hn : style.get ⟨key, n⟩ = none) :
    Transition.loop key p fuel index t style ≠ .error .endless := by
  induction m generalizing index fuel t style with
  | zero =>
    obtain ⟨f, rfl⟩ : ∃ f, fuel = f + 1 := ⟨fuel - 1, by omega⟩
    rw [Transition.loop, ← show n = index by omega, hn]
    simp
  | succ m ih =>
    obtain ⟨f, rfl⟩ : ∃ f, fuel = f + 1 := ⟨fuel - 1, by omega⟩
    rw [Transition.loop]
    cases hg : style.get ⟨key, index⟩ with
    | none => simp
    | some value =>
      obtain ⟨⟨a, b⟩, hab⟩ := Option.isSome_iff_exists.1 hr
      simp only [hab]
      cases ha : animateAt a b p with
      | error e =>
        simp only
        intro he
        injection he with he
        subst he
        unfold animateAt animateNan at ha
        split at ha
        · cases ha
        · split at ha <;> (try split at ha) <;> cases ha
      | ok current =>
        simp only
        refine ih (by omega) (by omega) ?_ ?_
        · split
          · rfl
          · exact hr
        · split
          · rw [ComputedStyle.get_insert_other _ _ (by intro h; injection h; omega)]; exact hn
          · exact hn

theorem get_none_exists (style : ComputedStyle) (key : PropertyKey) : ∃ n, style.get ⟨key, n⟩ = none := by
  have : ∃ n, ∀ d ∈ style.map (·.1), d.index < n := by
    induction style.map (·.1) with
    | nil => exact ⟨0, by simp⟩
    | cons d l ih =>
      obtain ⟨n, hn⟩ := ih
      refine ⟨max n (d.index + 1), ?_⟩
      intro e he
      rcases List.mem_cons.1 he with rfl | he
      · omega
      · have := hn e he; omega
  obtain ⟨n, hn⟩ := this
  refine ⟨n, ?_⟩
  cases hg : style.get ⟨key, n⟩ with
  | none => rfl
  | some v =>
    have := hn _ ((ComputedStyle.get_mem style ⟨key, n⟩).1 ⟨v, hg⟩)
    simp at this

/-- C56 (part): playing a transition of positive duration comes to an end in every frame if the transition has
seen a value of its property before, or if the property has no value now. Missing: the first value after the
transition was created, see `C56_first_value_counterexample`. -/
theorem C56_terminates_partial {t : Transition} (hd : 0 < t.animator.duration) (time : Rat) {style : ComputedStyle}
    (h : t.range.isSome ∨ ∀ key, t.key = some key → style.get ⟨key, 0⟩ = none) :
    ∃ n, ∀ fuel ≥ n, t.play fuel time style ≠ .error .endless := by
  unfold Transition.play
  cases hk : t.key with
  | none => exact ⟨0, fun fuel _ => by simp⟩
  | some key =>
    obtain ⟨n, hn⟩ := update_total (time := time) hd
    obtain ⟨m, hm⟩ := get_none_exists style key
    refine ⟨max n (m + 1), fun fuel hf => ?_⟩
    obtain ⟨⟨a, p⟩, hu⟩ := hn fuel (le_trans (le_max_left _ _) hf)
    simp only [hu]
    cases p with
    | none => simp
    | some p =>
      simp only
      rcases h with h | h
      · exact loop_ends (n := m) (index := 0) (fuel := fuel) (t := { key := some key, animator := a, range := t.range }) m (by omega) (by omega) h hm
      · obtain ⟨f, rfl⟩ : ∃ f, fuel = f + 1 := ⟨fuel - 1, by omega⟩
        rw [Transition.loop, h key hk]
        simp

/-- Finding for C56: a transition without delay of a property that has no value when the transition starts
(`a { transition: color 1s } a:hover { color: red }`) hangs in the frame in which the property gets its first
value. -/
theorem C56_first_value_counterexample {key : PropertyKey} {before after : ComputedStyle} {v : ComputedValue} (hb : before.get ⟨key, 0⟩ = none)
    (ha : after.get ⟨key, 0⟩ = some v) {time : Rat} (ht : 0 ≤ time) (fuel : Nat) :
    (({ key := some key, animator := { duration := 1 } } : Transition).init before).play fuel time after = .error .endless := by
  have hi : ({ key := some key, animator := { duration := 1 } } : Transition).init before = { key := some key, animator := { duration := 1 } } := by
    unfold Transition.init
    simp only [Option.isSome_none, Bool.false_eq_true, if_false]
    cases before.length with
    | zero => rfl
    | succ n => rw [initLoop, hb]
  rw [hi]
  unfold Transition.play
  simp only
  cases fuel with
  | zero =>
    rw [update_eq, show clockAfter ({ duration := 1 } : Animator) time = time by simp [clockAfter]]
    simp [not_lt.2 ht, wrapTime]
  | succ n =>
    have hu := plain_update (t := { key := some key, animator := { duration := 1 } }) (key := key) ⟨rfl, rfl, rfl, rfl, by norm_num⟩ (fuel := n + 1) (by omega)
      (time := time) (by simpa using ht)
    simp only at hu
    rw [hu]
    simp only
    generalize (Progress.value _) = p
    generalize hT : (0 + time) = T
    suffices h : ∀ fuel, Transition.loop key p fuel 0 { key := some key, animator := { duration := 1, time := T } } after = .error .endless from h _
    intro fuel
    induction fuel with
    | zero => rfl
    | succ f ih => rw [Transition.loop, ha]; exact ih

end Verif
