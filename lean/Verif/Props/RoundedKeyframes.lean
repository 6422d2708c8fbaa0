import Verif.Props.Rounded
import Verif.Float.Bounds
/-!
# C95: keyframes in 32-bit arithmetic
-/
namespace Verif

variable {r : Rat → Rat}

theorem playTracksIn_get {step : Nat} {shown : Descriptor → Except Trouble ComputedValue} (tracks : List Track)
    (hn : (tracks.map (·.descriptor)).Nodup) (hv : ∀ t ∈ tracks, ∃ v, trackValueIn r t.frames step = .ok v ∧ shown t.descriptor = .ok v)
    (style : ComputedStyle) :
    ∃ style', playTracksIn r step tracks style = .ok style' ∧
      ∀ d, (d ∉ tracks.map (·.descriptor) → style'.get d = style.get d) ∧
        (∀ v, d ∈ tracks.map (·.descriptor) → shown d = .ok v → style'.get d = some v) := by
  induction tracks generalizing style with
  | nil => exact ⟨style, rfl, fun d => ⟨fun _ => rfl, fun v h => by simp at h⟩⟩
  | cons t ts ih =>
    obtain ⟨v, h1, h2⟩ := hv t (by simp)
    simp only [List.map_cons, List.nodup_cons] at hn
    obtain ⟨style', g1, g2⟩ := ih hn.2 (fun t ht => hv t (by simp [ht])) (style.insert t.descriptor v)
    refine ⟨style', by simp only [playTracksIn, h1]; exact g1, fun d => ⟨fun hd => ?_, fun w hd hw => ?_⟩⟩
    · simp only [List.map_cons, List.mem_cons, not_or] at hd
      rw [(g2 d).1 hd.2, ComputedStyle.get_insert_other _ _ hd.1]
    · simp only [List.map_cons, List.mem_cons] at hd
      by_cases hin : d ∈ ts.map (·.descriptor)
      · exact (g2 d).2 w hin hw
      · rcases hd with rfl | hd
        · rw [(g2 _).1 hin, ComputedStyle.get_insert_same, ← show v = w by rw [h2] at hw; injection hw]
        · exact absurd hd hin

theorem trackValueIn_spec {frames : List (Nat × ComputedValue)} (hs : frames.Pairwise (fun a b => a.1 < b.1)) (h0 : ∃ v, stepAt frames 0 = some v)
    {t last : Nat} (hl : ∃ v, stepAt frames last = some v) (ht : t ≤ last) :
    (∀ v, stepAt frames t = some v → trackValueIn r frames t = .ok v) ∧
    (stepAt frames t = none → ∃ a b x y, a < t ∧ t < b ∧ stepAt frames a = some x ∧ stepAt frames b = some y ∧
      (∀ s, a < s → s < b → stepAt frames s = none) ∧
      trackValueIn r frames t = .ok (animateIn r x y (r (((t : Rat) - a) / ((b : Rat) - a))))) := by
  have hsteps : (frames.map (·.1)).Pairwise (· < ·) := List.pairwise_map.2 hs
  have hz : 0 ∈ frames.map (·.1) := (stepAt_isSome _ _).1 h0
  have hlast : last ∈ frames.map (·.1) := (stepAt_isSome _ _).1 hl
  have hspec := bracket_spec t (frames.map (·.1)) hsteps 0 0 (.inr ⟨rfl, fun _ _ => Nat.zero_le _⟩) (fun _ _ => .inr rfl) ⟨last, hlast, ht⟩
  constructor
  · intro v hv
    have hb := hspec.1 ((stepAt_isSome _ _).1 ⟨v, hv⟩)
    unfold trackValueIn
    simp [hb, hv]
  · intro hn
    have hnot : t ∉ frames.map (·.1) := by
      intro hm
      obtain ⟨v, hv⟩ := (stepAt_isSome _ _).2 hm
      rw [hn] at hv; cases hv
    obtain ⟨y, hy, hty, x, hx, he, hxt, hbet⟩ := hspec.2 hnot
    have hx' : x ∈ frames.map (·.1) := by
      rcases hx with h | h
      · exact h
      · rw [h]; exact hz
    have hxlt : x < t := by
      rcases hxt with h | h
      · rcases Nat.eq_zero_or_pos t with e | e
        · rw [e] at hnot; exact absurd hz hnot
        · omega
      · exact h
    obtain ⟨vx, hvx⟩ := (stepAt_isSome _ _).2 hx'
    obtain ⟨vy, hvy⟩ := (stepAt_isSome _ _).2 hy
    refine ⟨x, y, vx, vy, hxlt, hty, hvx, hvy, ?_, ?_⟩
    · intro s h1 h2
      cases hsv : stepAt frames s with
      | none => rfl
      | some v =>
        have := hbet s ((stepAt_isSome _ _).1 ⟨v, hsv⟩) h2
        omega
    · unfold trackValueIn
      simp only [he]
      rw [if_pos (by omega), hvx, hvy]

/-- The step of the keyframes a progress from 0 to 1 stands for. -/
theorem stepIn_spec (hr : Rounds r) {x : Rat} (h0 : 0 ≤ x) (h1 : x ≤ 1) :
    stepIn r (.value x) ≤ 100 ∧ 100 * x < stepIn r (.value x) + 1 ∧ (stepIn r (.value x) : Rat) ≤ 100 * x + 2 ^ (-18 : Int) := by
  have h100 : IsF32 100 := by exact_mod_cast IsF32.ofNat (m := 100) (by norm_num)
  have hle : r (x * 100) ≤ 100 := hr.le h100 (by linarith)
  have hge : 0 ≤ r (x * 100) := hr.nonneg (by linarith)
  have herr := hr.error (x := x * 100) (e := -17) (by norm_num) (by rw [abs_of_nonneg (by linarith)]; norm_num; linarith)
  have hf0 : 0 ≤ (r (x * 100)).floor := Int.floor_nonneg.2 hge
  have hf1 : ((r (x * 100)).floor : Rat) ≤ r (x * 100) := Int.floor_le _
  have hf2 : r (x * 100) < (r (x * 100)).floor + 1 := Int.lt_floor_add_one _
  obtain ⟨k, hk⟩ := Int.eq_ofNat_of_zero_le hf0
  have hk100 : k ≤ 100 := by
    rw [hk] at hf1
    exact_mod_cast (show (k : Rat) ≤ 100 by push_cast at hf1; linarith)
  have hstep : stepIn r (.value x) = k := by
    simp only [stepIn, hk, Int.toNat_natCast]
    show min (Int.toNat k) 4294967295 = k
    rw [Int.toNat_natCast]
    omega
  rw [hk] at hf1 hf2
  push_cast at hf1 hf2
  rw [hstep]
  refine ⟨hk100, ?_, ?_⟩
  · by_contra hc
    have h2 : IsF32 ((k + 1 : Nat) : Rat) := IsF32.ofNat (by omega)
    have := hr.ge h2 (x := x * 100) (by push_cast; linarith [not_lt.1 hc])
    push_cast at this
    linarith
  · have h3 := (abs_le.1 herr).2
    have h4 : (2 : Rat) ^ (-17 : Int) / 2 = 2 ^ (-18 : Int) := by norm_num
    rw [h4] at h3
    generalize (2 : Rat) ^ (-18 : Int) = z at h3 ⊢
    linarith

/-- C95: in a frame of an animation with a positive duration, in 32-bit arithmetic and for every order of the tracks, playing
does not panic: there is a step of the keyframes, at most 100, which is the progress in percent rounded down (or, if the progress is
off by less than 2 ^ -18 percent, the next one) such that every property set in some keyframe has the value of its keyframe at that
step, if there is one, and otherwise a value between the nearest keyframes before and after; all other properties keep their values. -/
theorem C95_play (hr : Rounds r) {vars : Variables} {fuel : Nat} {animation : Animation} {style shown : ComputedStyle} {tracks order : List Track}
    {styleOf : Keyframe → ComputedStyle} {a a' : Animator} {time : Rat} {p : Progress}
    (hs : ∀ k ∈ animation.keyframes, keyframeStyle vars fuel k.declaration [] = some (styleOf k))
    (h : computeTracks vars fuel animation style = some tracks) (hperm : order.Perm tracks)
    (hd : 0 < a.duration) (hf : a.Forward) (hu : a.updateIn r fuel time = .ok (a', some p)) :
    ∃ x step shown', p = .value x ∧ 0 ≤ x ∧ x ≤ 1 ∧ step ≤ 100 ∧ 100 * x < ((step : Nat) : Rat) + 1 ∧ (step : Rat) ≤ 100 * x + 2 ^ (-18 : Int) ∧
      a.playIn r fuel time order shown = .ok (a', shown') ∧
      ∀ d, ((∀ k ∈ animation.keyframes, (styleOf k).get d = none) → shown'.get d = shown.get d) ∧
        ((∃ k ∈ animation.keyframes, ∃ v, (styleOf k).get d = some v) →
          (∀ v, keyframeValue styleOf animation.keyframes style d step = some v → shown'.get d = some v) ∧
          (keyframeValue styleOf animation.keyframes style d step = none →
            ∃ before after from_ to_ v, before < step ∧ step < after ∧
              keyframeValue styleOf animation.keyframes style d before = some from_ ∧
              keyframeValue styleOf animation.keyframes style d after = some to_ ∧
              (∀ s, before < s → s < after → keyframeValue styleOf animation.keyframes style d s = none) ∧
              shown'.get d = some v ∧ v = animateIn r from_ to_ (r (((step : Rat) - before) / ((after : Rat) - before))) ∧
              (from_.Bytes → to_.Bytes → from_.F32 → to_.F32 → Between from_ to_ v))) := by
  obtain ⟨x, rfl, h0, h1, -⟩ := (updateIn_range hr hd hf hu).2 p rfl
  obtain ⟨s1, s2, s3⟩ := stepIn_spec hr h0 h1
  generalize hstep : stepIn r (.value x) = step at s1 s2 s3
  obtain ⟨c1, c2, c3⟩ := computeTracks_spec hs h
  have hends : ∀ d, (∃ v, keyframeValue styleOf animation.keyframes style d 0 = some v) ∧ ∃ v, keyframeValue styleOf animation.keyframes style d 100 = some v := by
    intro d
    unfold keyframeValue
    constructor <;> split <;> simp
  have hval : ∀ t ∈ tracks, ∃ v, trackValueIn r t.frames step = .ok v := by
    intro t ht
    obtain ⟨t1, t2⟩ := c3 t ht
    obtain ⟨e1, e2⟩ := hends t.descriptor
    obtain ⟨w1, w2⟩ := trackValueIn_spec (r := r) t1 (t2 0 ▸ e1) (t2 100 ▸ e2) s1
    cases hk : stepAt t.frames step with
    | some v => exact ⟨v, w1 v hk⟩
    | none => obtain ⟨_, _, _, _, _, _, _, _, _, hh⟩ := w2 hk; exact ⟨_, hh⟩
  have hfind : ∃ f : Descriptor → Except Trouble ComputedValue, ∀ t ∈ tracks, f t.descriptor = trackValueIn r t.frames step := by
    refine ⟨fun d => match tracks.find? (·.descriptor == d) with | some t => trackValueIn r t.frames step | none => .error .panic, ?_⟩
    intro t ht
    cases hf : tracks.find? (·.descriptor == t.descriptor) with
    | none => exact absurd (List.find?_eq_none.1 hf t ht) (by simp)
    | some t' =>
      show (match tracks.find? (·.descriptor == t.descriptor) with | some t => trackValueIn r t.frames step | none => .error .panic) = _
      rw [hf]
      have e1 : t'.descriptor = t.descriptor := by simpa using List.find?_some hf
      have : t' = t := List.inj_on_of_nodup_map c1 (List.mem_of_find?_eq_some hf) ht e1
      rw [this]
  obtain ⟨f, hf⟩ := hfind
  have hordn : (order.map (·.descriptor)).Nodup := (hperm.map _).nodup_iff.2 c1
  obtain ⟨shown', p1, p2⟩ := playTracksIn_get (r := r) (step := step) (shown := f) order hordn
    (fun t ht => by
      have ht := hperm.mem_iff.1 ht
      obtain ⟨v, hv⟩ := hval t ht
      exact ⟨v, hv, by rw [hf t ht, hv]⟩) shown
  have hmem : ∀ d, d ∈ order.map (·.descriptor) ↔ d ∈ tracks.map (·.descriptor) := fun d => (hperm.map _).mem_iff
  refine ⟨x, step, shown', rfl, h0, h1, s1, s2, s3, by simp only [Animator.playIn, hu, hstep, p1], fun d => ⟨fun hd => ?_, fun hd => ?_⟩⟩
  · refine (p2 d).1 (fun hin => ?_)
    obtain ⟨k, hk, v, hv⟩ := (c2 d).1 ((hmem d).1 hin)
    rw [hd k hk] at hv; cases hv
  · have hin := (c2 d).2 hd
    obtain ⟨t, ht, rfl⟩ := List.mem_map.1 hin
    have hin' := (hmem _).2 hin
    obtain ⟨t1, t2⟩ := c3 t ht
    obtain ⟨e1, e2⟩ := hends t.descriptor
    obtain ⟨w1, w2⟩ := trackValueIn_spec (r := r) t1 (t2 0 ▸ e1) (t2 100 ▸ e2) s1
    simp only [t2] at w1 w2
    constructor
    · intro v hv
      exact (p2 _).2 v hin' (by rw [hf t ht, w1 v hv])
    · intro hv
      obtain ⟨b, c, y, z, q1, q2, q3, q4, q5, q6⟩ := w2 hv
      refine ⟨b, c, y, z, _, q1, q2, q3, q4, q5, (p2 _).2 _ hin' (by rw [hf t ht, q6]), rfl, fun b1 b2 f1 f2 => ?_⟩
      have k1 : (b : Rat) < step := by exact_mod_cast q1
      have k2 : (step : Rat) < c := by exact_mod_cast q2
      have hpos : (0 : Rat) < (c : Rat) - b := by linarith
      exact C93_between hr b1 b2 f1 f2 (hr.number _) (hr.nonneg (div_nonneg (by linarith) hpos.le)) (hr.le IsF32.one ((div_le_one hpos).2 (by linarith)))

/-- C95: as long as the clock is before the delay, the styles are not touched. -/
theorem C95_waits (hr : Rounds r) {fuel : Nat} {a : Animator} {time : Rat} (hd : 0 < a.duration) (hrun : a.running = true) (hdelay : IsF32 a.delay)
    (h : r (a.time + time) < a.delay) (tracks : List Track) (shown : ComputedStyle) :
    a.playIn r fuel time tracks shown = .ok ({ a with time := r (a.time + time) }, shown) := by
  have := (hr.sub_neg_iff (hr.number (a.time + time)) hdelay).2 h
  unfold Animator.playIn
  rw [updateIn_eq _ _ _ hd hrun, if_pos this]

/-- C95 on a concrete animation: one third of the way of a second the step is 33, and the width is 33/50 of the way to its keyframe in the middle. -/
theorem C95_example : (∃ a', ({ duration := 1 } : Animator).updateIn f32 9 (f32 (1 / 3)) = .ok (a', some (.value (f32 (1 / 3))))) ∧
    (match computeTracks (fun _ => none) 2 growing [(⟨.Width, 0⟩, .dimension ⟨40, .px⟩)] with
    | some tracks => (match ({ duration := 1 } : Animator).playIn f32 9 (f32 (1 / 3)) tracks [] with | .ok (_, st) => st.get ⟨.Width, 0⟩ | .error _ => none)
    | none => none) = some (.dimension ⟨f32 (166 / 10), .px⟩) := by
  refine ⟨⟨{ duration := 1, time := f32 (1 / 3) }, by decide +kernel⟩, by decide +kernel⟩

/-- The clock of an animation is the time that has passed, give or take half of the last place for every frame: with frames that are
not negative and a clock below `2 ^ (e + 24)` seconds, `2 ^ e / 2` each. -/
theorem C91_clock (hr : Rounds r) {times : List Rat} (hp : ∀ t ∈ times, 0 ≤ t) {e : Int} (he : -149 ≤ e) (hlt : clockIn r 0 times < 2 ^ (e + 24)) :
    |clockIn r 0 times - times.sum| ≤ times.length * (2 ^ e / 2) := by
  suffices ∀ (times : List Rat) (start : Rat), IsF32 start → 0 ≤ start → (∀ t ∈ times, 0 ≤ t) → clockIn r start times < 2 ^ (e + 24) →
      start ≤ clockIn r start times ∧ |clockIn r start times - (start + times.sum)| ≤ times.length * (2 ^ e / 2) by
    simpa using (this times 0 IsF32.zero le_rfl hp hlt).2
  intro times
  induction times with
  | nil => intro start _ _ _ _; simp [clockIn]
  | cons t ts ih =>
    intro start hsf hs0 hp hlt
    have ht := hp t List.mem_cons_self
    have hle : start ≤ r (start + t) := hr.ge hsf (by linarith)
    obtain ⟨g1, g2⟩ := ih (r (start + t)) (hr.number _) (by linarith) (fun t ht => hp t (List.mem_cons_of_mem _ ht)) hlt
    have e1 : clockIn r start (t :: ts) = clockIn r (r (start + t)) ts := rfl
    rw [e1] at hlt ⊢
    refine ⟨by linarith, ?_⟩
    have hsm : |start + t| ≤ 2 ^ (e + 24) := hr.small (by omega) (by rw [abs_of_nonneg (by linarith)]; linarith)
    have herr := hr.error he hsm
    have := abs_add_le (clockIn r (r (start + t)) ts - (r (start + t) + ts.sum)) (r (start + t) - (start + t))
    have e2 : clockIn r (r (start + t)) ts - (r (start + t) + ts.sum) + (r (start + t) - (start + t)) = clockIn r (r (start + t)) ts - (start + (t :: ts).sum) := by
      simp only [List.sum_cons]; ring
    rw [e2] at this
    simp only [List.length_cons]
    push_cast
    linarith

/-- C91 on a concrete run: a second of frames of a sixtieth is off by less than a tenth of a millisecond. -/
theorem C91_clock_example : |clockIn f32 0 (List.replicate 60 (f32 (1 / 60))) - 60 * f32 (1 / 60)| ≤ 60 * (2 ^ (-23 : Int) / 2) ∧
    clockIn f32 0 (List.replicate 60 (f32 (1 / 60))) ≠ 60 * f32 (1 / 60) := by
  constructor <;> decide +kernel

end Verif
