import Verif.Css.Animation
import Verif.Css.BlockLemmas
import Mathlib.Tactic.Linarith
import Mathlib.Tactic.FieldSimp
import Mathlib.Tactic.Ring
import Mathlib.Algebra.Order.Archimedean.Basic
import Mathlib.Data.Rat.Floor
/-!
# Lemmas about animations (for C51-C56)
-/
namespace Verif

/-! ## Progress -/

theorem wrapTime_spec {d : Rat} (hd : 0 < d) {fuel : Nat} {t r : Rat} (ht : 0 ≤ t) (h : wrapTime d fuel t = .ok r) :
    ∃ k : Nat, t = r + k * d ∧ 0 ≤ r ∧ r ≤ d ∧ (0 < k → 0 < r) := by
  induction fuel generalizing t with
  | zero => cases h
  | succ n ih =>
    simp only [wrapTime] at h
    by_cases hgt : t > d
    · rw [if_pos hgt] at h
      have hgt' : d < t := hgt
      obtain ⟨k, h1, h2, h3, h4⟩ := ih (by linarith) h
      refine ⟨k + 1, by push_cast; linarith, h2, h3, fun _ => ?_⟩
      rcases Nat.eq_zero_or_pos k with hk | hk
      · subst hk
        simp only [Nat.cast_zero, zero_mul, add_zero] at h1
        linarith
      · exact h4 hk
    · rw [if_neg hgt] at h
      cases h
      exact ⟨0, by simp, ht, not_lt.1 hgt, fun h => absurd h (by omega)⟩

theorem wrapTime_mono {d : Rat} {fuel fuel' : Nat} (hf : fuel ≤ fuel') {t r : Rat} (h : wrapTime d fuel t = .ok r) :
    wrapTime d fuel' t = .ok r := by
  induction fuel generalizing t fuel' with
  | zero => cases h
  | succ n ih =>
    obtain ⟨m, rfl⟩ : ∃ m, fuel' = m + 1 := ⟨fuel' - 1, by omega⟩
    simp only [wrapTime] at h ⊢
    by_cases hgt : t > d
    · rw [if_pos hgt] at h ⊢; exact ih (by omega) h
    · rw [if_neg hgt] at h ⊢; exact h

theorem wrapTime_total {d : Rat} (hd : 0 < d) (t : Rat) : ∃ fuel r, wrapTime d fuel t = .ok r := by
  obtain ⟨n, hn⟩ := exists_nat_gt (t / d)
  rw [div_lt_iff₀ hd] at hn
  suffices h : ∀ (n : Nat) (t : Rat), t < n * d → ∃ r, wrapTime d (n + 1) t = .ok r by
    obtain ⟨r, hr⟩ := h n t hn
    exact ⟨_, r, hr⟩
  intro n
  induction n with
  | zero =>
    intro t ht
    simp only [Nat.cast_zero, zero_mul] at ht
    refine ⟨t, ?_⟩
    simp only [wrapTime]
    rw [if_neg (by linarith)]
  | succ n ih =>
    intro t ht
    by_cases hgt : t > d
    · obtain ⟨r, hr⟩ := ih (t - d) (by push_cast at ht; linarith)
      refine ⟨r, ?_⟩
      rw [wrapTime, if_pos hgt]; exact hr
    · refine ⟨t, ?_⟩
      rw [wrapTime, if_neg hgt]

/-- Without a positive duration the loop ends at once or never. -/
theorem wrapTime_endless {d : Rat} (hd : d ≤ 0) {t : Rat} (ht : d < t) (fuel : Nat) : wrapTime d fuel t = .error .endless := by
  induction fuel generalizing t with
  | zero => rfl
  | succ n ih =>
    simp only [wrapTime]
    rw [if_pos ht]
    exact ih (by linarith)

/-! ## Interpolation -/

theorem asU8_nat (n : Nat) (h : n ≤ 255) : asU8 (n : Rat) = n := by
  unfold asU8
  split
  · rename_i h0
    have : n = 0 := by exact_mod_cast le_antisymm h0 (Nat.cast_nonneg n)
    exact this.symm
  · split
    · rename_i h1
      have : (255 : Nat) ≤ n := by exact_mod_cast h1
      omega
    · have : (n : Rat).floor = n := by
        have := Rat.floor_intCast (n : Int)
        simpa using this
      rw [this]; simp

theorem asU8_le (x : Rat) : asU8 x ≤ 255 := by
  unfold asU8
  split
  · omega
  · split
    · omega
    · rename_i h1 h2
      have hx : x < 255 := not_le.1 h2
      have : x.floor < 255 := by
        have h : (x.floor : Rat) ≤ x := Rat.floor_le x
        have : (x.floor : Rat) < (255 : Int) := by push_cast; linarith
        exact_mod_cast this
      omega

theorem asU8_mono {x y : Rat} (h : x ≤ y) : asU8 x ≤ asU8 y := by
  have hy := asU8_le y
  unfold asU8 at *
  by_cases h1 : x ≤ 0
  · simp [h1]
  · by_cases h2 : (255 : Rat) ≤ x
    · have h3 : (255 : Rat) ≤ y := le_trans h2 h
      have h4 : ¬ y ≤ 0 := by linarith
      simp [h1, h2, h3, h4]
    · by_cases h3 : (255 : Rat) ≤ y
      · have h4 : ¬ y ≤ 0 := by linarith
        simp only [h1, h2, h3, h4, if_false, if_true]
        have := asU8_le x
        unfold asU8 at this
        simpa [h1, h2] using this
      · have h4 : ¬ y ≤ 0 := by
          have : ¬ x ≤ 0 := h1
          intro hy'; exact this (le_trans h hy')
        simp only [h1, h2, h3, h4, if_false]
        have : x.floor ≤ y.floor := by
          have hf : ⌊x⌋ ≤ ⌊y⌋ := Int.floor_le_floor h
          exact hf
        omega

theorem mix_between {x y t : Rat} (h0 : 0 ≤ t) (h1 : t ≤ 1) : min x y ≤ x + (y - x) * t ∧ x + (y - x) * t ≤ max x y := by
  rcases le_total x y with h | h
  · rw [min_eq_left h, max_eq_right h]
    constructor
    · have : 0 ≤ (y - x) * t := mul_nonneg (by linarith) h0
      linarith
    · have : (y - x) * t ≤ (y - x) * 1 := mul_le_mul_of_nonneg_left h1 (by linarith)
      linarith
  · rw [min_eq_right h, max_eq_left h]
    constructor
    · have : (x - y) * t ≤ (x - y) * 1 := mul_le_mul_of_nonneg_left h1 (by linarith)
      linarith
    · have : 0 ≤ (x - y) * t := mul_nonneg (by linarith) h0
      linarith

theorem mixChannel_between {x y : Nat} (hx : x ≤ 255) (hy : y ≤ 255) {t : Rat} (h0 : 0 ≤ t) (h1 : t ≤ 1) :
    min x y ≤ mixChannel x y t ∧ mixChannel x y t ≤ max x y := by
  obtain ⟨ha, hb⟩ := mix_between (x := (x : Rat)) (y := (y : Rat)) h0 h1
  unfold mixChannel
  have hmin : ((min x y : Nat) : Rat) = min (x : Rat) y := by push_cast; rfl
  have hmax : ((max x y : Nat) : Rat) = max (x : Rat) y := by push_cast; rfl
  constructor
  · have := asU8_mono (le_trans ha (le_max_left _ 0))
    rwa [← hmin, asU8_nat _ (by omega)] at this
  · have h : max ((x : Rat) + ((y : Rat) - x) * t) 0 ≤ ((max x y : Nat) : Rat) := by
      rw [hmax]
      exact max_le hb (le_trans (Nat.cast_nonneg x) (le_max_left _ _))
    have := asU8_mono h
    rwa [asU8_nat _ (by omega)] at this

/-! ## Keyframes -/

theorem stepAt_insertStep {α} (s : Nat) (v : α) (l : List (Nat × α)) (hl : l.Pairwise (fun a b => a.1 < b.1)) (s' : Nat) :
    stepAt (insertStep s v l) s' = if s' = s then some v else stepAt l s' := by
  induction l with
  | nil =>
    by_cases h : s' = s
    · subst h; simp [insertStep, stepAt]
    · have h' : ¬ s = s' := fun e => h e.symm
      simp [insertStep, stepAt, h, h']
  | cons x l ih =>
    obtain ⟨a, w⟩ := x
    have hlt : ∀ y ∈ l, a < y.1 := fun y hy => (List.pairwise_cons.1 hl).1 y hy
    have hpl := (List.pairwise_cons.1 hl).2
    have ih := ih hpl
    simp only [insertStep]
    by_cases h1 : s < a
    · rw [if_pos h1]
      by_cases h : s' = s
      · subst h; simp [stepAt]
      · have h' : ¬ s = s' := fun e => h e.symm
        simp [stepAt, h, h']
    · rw [if_neg h1]
      by_cases h2 : s = a
      · rw [if_pos h2]
        subst h2
        by_cases h : s' = s
        · subst h; simp [stepAt]
        · have h' : ¬ s = s' := fun e => h e.symm
          simp [stepAt, h, h']
      · rw [if_neg h2]
        by_cases h : s' = a
        · subst h
          have : ¬ s' = s := fun e => h2 e.symm
          simp [stepAt, this]
        · have h' : ¬ a = s' := fun e => h e.symm
          have e1 : stepAt ((a, w) :: insertStep s v l) s' = stepAt (insertStep s v l) s' := by simp [stepAt, h']
          have e2 : stepAt ((a, w) :: l) s' = stepAt l s' := by simp [stepAt, h']
          rw [e1, e2, ih]

theorem insertStep_sorted {α} (s : Nat) (v : α) (l : List (Nat × α)) (hl : l.Pairwise (fun a b => a.1 < b.1)) :
    (insertStep s v l).Pairwise (fun a b => a.1 < b.1) := by
  have mem : ∀ (l : List (Nat × α)) y, y ∈ insertStep s v l → y.1 = s ∨ y ∈ l := by
    intro l
    induction l with
    | nil => intro y hy; simp only [insertStep, List.mem_singleton] at hy; exact .inl (by rw [hy])
    | cons x l ih =>
      obtain ⟨a, w⟩ := x
      intro y hy
      simp only [insertStep] at hy
      by_cases h1 : s < a
      · rw [if_pos h1] at hy
        rcases List.mem_cons.1 hy with rfl | hy
        · exact .inl rfl
        · exact .inr hy
      · rw [if_neg h1] at hy
        by_cases h2 : s = a
        · rw [if_pos h2] at hy
          rcases List.mem_cons.1 hy with rfl | hy
          · exact .inl rfl
          · exact .inr (List.mem_cons_of_mem _ hy)
        · rw [if_neg h2] at hy
          rcases List.mem_cons.1 hy with rfl | hy
          · exact .inr List.mem_cons_self
          · rcases ih y hy with h | h
            · exact .inl h
            · exact .inr (List.mem_cons_of_mem _ h)
  induction l with
  | nil => simp [insertStep]
  | cons x l ih =>
    obtain ⟨a, w⟩ := x
    have hlt : ∀ y ∈ l, a < y.1 := fun y hy => (List.pairwise_cons.1 hl).1 y hy
    have hpl := (List.pairwise_cons.1 hl).2
    simp only [insertStep]
    by_cases h1 : s < a
    · rw [if_pos h1]
      refine List.pairwise_cons.2 ⟨?_, hl⟩
      intro y hy
      rcases List.mem_cons.1 hy with rfl | hy
      · exact h1
      · exact Nat.lt_trans h1 (hlt y hy)
    · rw [if_neg h1]
      by_cases h2 : s = a
      · rw [if_pos h2]
        refine List.pairwise_cons.2 ⟨fun y hy => ?_, hpl⟩
        have := hlt y hy
        simp only; omega
      · rw [if_neg h2]
        refine List.pairwise_cons.2 ⟨fun y hy => ?_, ih hpl⟩
        rcases mem l y hy with h | h
        · simp only; omega
        · exact hlt y h

theorem stepAt_filterMap {α β} (l : List (Nat × α)) (hl : l.Pairwise (fun a b => a.1 < b.1)) (f : α → Option β) (s : Nat) :
    stepAt (l.filterMap fun x => (f x.2).map fun v => (x.1, v)) s = (stepAt l s).bind f := by
  induction l with
  | nil => rfl
  | cons x l ih =>
    obtain ⟨a, w⟩ := x
    have hlt : ∀ y ∈ l, a < y.1 := fun y hy => (List.pairwise_cons.1 hl).1 y hy
    have hpl := (List.pairwise_cons.1 hl).2
    by_cases h : a = s
    · subst h
      have hn : stepAt l a = none := by
        simp only [stepAt, Option.map_eq_none_iff, List.find?_eq_none, beq_iff_eq]
        intro y hy e
        exact absurd (hlt y hy) (by omega)
      have e : stepAt ((a, w) :: l) a = some w := by simp [stepAt]
      rw [e]
      cases hf : f w with
      | none => simp only [List.filterMap_cons, hf, Option.map_none, Option.bind_some]; rw [ih hpl, hn]; rfl
      | some v => simp [hf, stepAt]
    · have e : stepAt ((a, w) :: l) s = stepAt l s := by simp [stepAt, h]
      rw [e, ← ih hpl]
      cases hf : f w with
      | none => simp [hf]
      | some v => simp [hf, stepAt, h]

/-- The two frames around a step. -/
theorem bracket_spec (t : Nat) (steps : List Nat) (hs : steps.Pairwise (· < ·)) (a b : Nat) (ha : a < t ∨ (a = 0 ∧ ∀ s ∈ steps, a ≤ s))
    (hab : ∀ s ∈ steps, a < s ∨ a = 0) (hb : ∃ s ∈ steps, t ≤ s) :
    (t ∈ steps → bracket t steps a b = (t, t)) ∧
    (t ∉ steps → ∃ y, y ∈ steps ∧ t < y ∧ ∃ x, (x ∈ steps ∨ x = a) ∧ bracket t steps a b = (x, y) ∧
      (x = a ∨ x < t) ∧ (∀ s ∈ steps, s < y → s ≤ x)) := by
  induction steps generalizing a with
  | nil => obtain ⟨s, hs, _⟩ := hb; cases hs
  | cons s ss ih =>
    have hlt : ∀ y ∈ ss, s < y := fun y hy => (List.pairwise_cons.1 hs).1 y hy
    have hps := (List.pairwise_cons.1 hs).2
    simp only [bracket]
    rcases Nat.lt_trichotomy t s with h | h | h
    · -- the first step is after `t`
      have h1 : ¬ t ≥ s := by omega
      have h2 : t ≤ s := by omega
      rw [if_neg h1, if_pos h2]
      have hnot : t ∉ s :: ss := by
        intro hm
        rcases List.mem_cons.1 hm with e | hm
        · omega
        · have := hlt t hm; omega
      refine ⟨fun hm => absurd hm hnot, fun _ => ⟨s, List.mem_cons_self, h, a, .inr rfl, rfl, .inl rfl, ?_⟩⟩
      intro y hy hys
      rcases List.mem_cons.1 hy with e | hy
      · omega
      · have := hlt y hy; omega
    · subst h
      rw [if_pos (Nat.le_refl _), if_pos (Nat.le_refl _)]
      exact ⟨fun _ => rfl, fun hn => absurd List.mem_cons_self hn⟩
    · have h1 : t ≥ s := by omega
      have h2 : ¬ t ≤ s := by omega
      rw [if_pos h1, if_neg h2]
      obtain ⟨z, hz, htz⟩ := hb
      have hz' : z ∈ ss := by
        rcases List.mem_cons.1 hz with e | hz
        · omega
        · exact hz
      obtain ⟨ih1, ih2⟩ := ih hps s (.inl h) (fun y hy => .inl (hlt y hy)) ⟨z, hz', htz⟩
      constructor
      · intro hm
        rcases List.mem_cons.1 hm with e | hm
        · omega
        · exact ih1 hm
      · intro hn
        obtain ⟨y, hy, hty, x, hx, he, hxt, hbet⟩ := ih2 (fun hm => hn (List.mem_cons_of_mem _ hm))
        refine ⟨y, List.mem_cons_of_mem _ hy, hty, x, ?_, he, ?_, ?_⟩
        · rcases hx with hx | hx
          · exact .inl (List.mem_cons_of_mem _ hx)
          · exact .inl (by rw [hx]; exact List.mem_cons_self)
        · right
          rcases hxt with e | e
          · omega
          · exact e
        · intro w hw hwy
          rcases List.mem_cons.1 hw with e | hw
          · subst e
            rcases hx with hx | hx
            · exact Nat.le_of_lt (hlt x hx)
            · omega
          · exact hbet w hw hwy

theorem stepAt_isSome {α} (l : List (Nat × α)) (s : Nat) : (∃ v, stepAt l s = some v) ↔ s ∈ l.map (·.1) := by
  constructor
  · rintro ⟨v, hv⟩
    unfold stepAt at hv
    cases hf : l.find? (·.1 == s) with
    | none => rw [hf] at hv; cases hv
    | some x =>
      have h1 := List.find?_some hf
      simp only [beq_iff_eq] at h1
      exact List.mem_map.2 ⟨x, List.mem_of_find?_eq_some hf, h1⟩
  · intro hm
    obtain ⟨x, hx, hs⟩ := List.mem_map.1 hm
    unfold stepAt
    cases hf : l.find? (·.1 == s) with
    | none => exact absurd (List.find?_eq_none.1 hf x hx) (by simp [hs])
    | some y => exact ⟨y.2, rfl⟩

/-- The value of a track with a first and a last frame. -/
theorem trackValue_spec {frames : List (Nat × ComputedValue)} (hs : frames.Pairwise (fun a b => a.1 < b.1)) (h0 : ∃ v, stepAt frames 0 = some v)
    {t last : Nat} (hl : ∃ v, stepAt frames last = some v) (ht : t ≤ last) :
    (∀ v, stepAt frames t = some v → trackValue frames t = .ok v) ∧
    (stepAt frames t = none → ∃ a b x y, a < t ∧ t < b ∧ stepAt frames a = some x ∧ stepAt frames b = some y ∧
      (∀ s, a < s → s < b → stepAt frames s = none) ∧
      trackValue frames t = .ok (animate x y (((t : Rat) - a) / ((b : Rat) - a)))) := by
  have hsteps : (frames.map (·.1)).Pairwise (· < ·) := List.pairwise_map.2 hs
  have hz : 0 ∈ frames.map (·.1) := (stepAt_isSome _ _).1 h0
  have hlast : last ∈ frames.map (·.1) := (stepAt_isSome _ _).1 hl
  have hspec := bracket_spec t (frames.map (·.1)) hsteps 0 0 (.inr ⟨rfl, fun _ _ => Nat.zero_le _⟩) (fun _ _ => .inr rfl) ⟨last, hlast, ht⟩
  constructor
  · intro v hv
    have hb := hspec.1 ((stepAt_isSome _ _).1 ⟨v, hv⟩)
    unfold trackValue
    simp [hb, hv]
  · intro hn
    have hnot : t ∉ frames.map (·.1) := by
      intro hm
      obtain ⟨v, hv⟩ := (stepAt_isSome _ _).2 hm
      rw [hn] at hv; cases hv
    obtain ⟨y, hy, hty, x, hx, he, hxt, hbet⟩ := hspec.2 hnot
    have hx' : x ∈ frames.map (·.1) := by
      rcases hx with h | h
      · exact h
      · rw [h]; exact hz
    have hxlt : x < t := by
      rcases hxt with h | h
      · rcases Nat.eq_zero_or_pos t with e | e
        · rw [e] at hnot; exact absurd hz hnot
        · omega
      · exact h
    obtain ⟨vx, hvx⟩ := (stepAt_isSome _ _).2 hx'
    obtain ⟨vy, hvy⟩ := (stepAt_isSome _ _).2 hy
    refine ⟨x, y, vx, vy, hxlt, hty, hvx, hvy, ?_, ?_⟩
    · intro s h1 h2
      cases hsv : stepAt frames s with
      | none => rfl
      | some v =>
        have := hbet s ((stepAt_isSome _ _).1 ⟨v, hsv⟩) h2
        omega
    · unfold trackValue
      simp only [he]
      rw [if_pos (by omega), hvx, hvy]

theorem completeFrame_get (style : ComputedStyle) (animated : List Descriptor) (frame : ComputedStyle) (d : Descriptor) :
    (completeFrame style animated frame).get d =
      match frame.get d with
      | some v => some v
      | none => if d ∈ animated then some (match style.get d with | some v => v | none => initialValue d.key) else none := by
  induction animated generalizing frame with
  | nil =>
    simp only [completeFrame, List.foldl_nil, List.not_mem_nil, if_false]
    cases frame.get d <;> rfl
  | cons x l ih =>
    have : completeFrame style (x :: l) frame = completeFrame style l (if (frame.get x).isSome then frame else
        frame.insert x (match style.get x with | some v => v | none => initialValue x.key)) := rfl
    rw [this, ih]
    by_cases hx : (frame.get x).isSome = true
    · rw [if_pos hx]
      cases hd : frame.get d with
      | some v => rfl
      | none =>
        have hne : ¬ d = x := fun e => by rw [← e, hd] at hx; cases hx
        simp [hne]
    · rw [if_neg hx]
      by_cases he : d = x
      · subst he
        rw [ComputedStyle.get_insert_same]
        cases hd : frame.get d with
        | some v => rw [hd] at hx; exact absurd rfl hx
        | none => simp
      · rw [ComputedStyle.get_insert_other _ _ he]
        cases hd : frame.get d with
        | some v => rfl
        | none => simp [he]

theorem keyframeStyles_spec {vars : Variables} {fuel : Nat} (ks : List Keyframe) {styles : List (Nat × ComputedStyle)}
    {animated : List Descriptor} {styles' : List (Nat × ComputedStyle)} {animated' : List Descriptor}
    (hs : styles.Pairwise (fun a b => a.1 < b.1))
    (h : keyframeStyles vars fuel ks styles animated = some (styles', animated')) :
    styles'.Pairwise (fun a b => a.1 < b.1) ∧
    (∀ s, stepAt styles' s = match (ks.filter (·.step == s)).getLast? with
      | some k => keyframeStyle vars fuel k.declaration []
      | none => stepAt styles s) ∧
    (∀ d, d ∈ animated' ↔ d ∈ animated ∨ ∃ k ∈ ks, ∃ st, keyframeStyle vars fuel k.declaration [] = some st ∧ d ∈ st.map (·.1)) := by
  induction ks generalizing styles animated with
  | nil =>
    simp only [keyframeStyles, Option.some.injEq, Prod.mk.injEq] at h
    obtain ⟨rfl, rfl⟩ := h
    exact ⟨hs, fun s => rfl, fun d => by simp⟩
  | cons k ks ih =>
    simp only [keyframeStyles] at h
    cases hk : keyframeStyle vars fuel k.declaration [] with
    | none => rw [hk] at h; cases h
    | some st =>
      rw [hk] at h
      obtain ⟨h1, h2, h3⟩ := ih (insertStep_sorted _ _ _ hs) h
      refine ⟨h1, ?_, ?_⟩
      · intro s
        rw [h2, stepAt_insertStep _ _ _ hs]
        by_cases hks : k.step = s
        · have : (k :: ks).filter (·.step == s) = k :: ks.filter (·.step == s) := by simp [hks]
          rw [this]
          cases hg : (ks.filter (·.step == s)).getLast? with
          | none =>
            have : ks.filter (·.step == s) = [] := List.getLast?_eq_none_iff.1 hg
            rw [this]; simp [hks, hk]
          | some k' =>
            have : (k :: ks.filter (·.step == s)).getLast? = some k' := by
              rw [List.getLast?_cons, hg]; rfl
            rw [this]
        · have hks' : ¬ s = k.step := fun e => hks e.symm
          have : (k :: ks).filter (·.step == s) = ks.filter (·.step == s) := by simp [hks]
          rw [this, if_neg hks']
      · intro d
        rw [h3]
        constructor
        · rintro (h | ⟨k', hk', st', h4, h5⟩)
          · rcases List.mem_append.1 h with h | h
            · exact .inl h
            · exact .inr ⟨k, List.mem_cons_self, st, hk, h⟩
          · exact .inr ⟨k', List.mem_cons_of_mem _ hk', st', h4, h5⟩
        · rintro (h | ⟨k', hk', st', h4, h5⟩)
          · exact .inl (List.mem_append_left _ h)
          · rcases List.mem_cons.1 hk' with rfl | hk'
            · rw [hk] at h4
              cases h4
              exact .inl (List.mem_append_right _ h5)
            · exact .inr ⟨k', hk', st', h4, h5⟩

theorem ComputedStyle.get_mem (m : ComputedStyle) (d : Descriptor) : (∃ v, m.get d = some v) ↔ d ∈ m.map (·.1) := by
  constructor
  · rintro ⟨v, hv⟩
    unfold ComputedStyle.get at hv
    cases hf : m.find? (·.1 == d) with
    | none => rw [hf] at hv; cases hv
    | some x =>
      have h1 := List.find?_some hf
      simp only [beq_iff_eq] at h1
      exact List.mem_map.2 ⟨x, List.mem_of_find?_eq_some hf, h1⟩
  · intro hm
    obtain ⟨x, hx, hs⟩ := List.mem_map.1 hm
    unfold ComputedStyle.get
    cases hf : m.find? (·.1 == d) with
    | none => exact absurd (List.find?_eq_none.1 hf x hx) (by simp [hs])
    | some y => exact ⟨y.2, rfl⟩

/-- Not the definition of a variable. -/
def Declaration.isProperty : Declaration → Bool
  | .property _ _ => true
  | .variable _ _ => false

/-- A keyframe is computed like a block without its variables. -/
theorem keyframeStyle_eq (vars : Variables) (fuel : Nat) (block : List Declaration) (style : ComputedStyle) :
    keyframeStyle vars fuel block style =
      (computeBlock fuel (block.filter Declaration.isProperty) vars style).map (·.2) := by
  induction block generalizing style with
  | nil => rfl
  | cons x block ih =>
    cases x with
    | «variable» k l => simp only [keyframeStyle, List.filter_cons, Declaration.isProperty]; exact ih style
    | property key values =>
      simp only [keyframeStyle, List.filter_cons, Declaration.isProperty, if_true, computeBlock]
      cases computeValues vars fuel key 0 values style with
      | none => rfl
      | some s => exact ih s

end Verif
