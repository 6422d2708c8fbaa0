import Verif.Spec.RoundedLengths
import Verif.Float.Reads
/-!
# C97: lengths, percentages and times in 32-bit arithmetic
-/
namespace Verif
open Sheet

variable {r : Rat → Rat}

theorem Rounds.nearestF32 (hr : Rounds r) (x : Rat) : NearestF32 x (r x) := ⟨hr.number x, hr.nearest x⟩

/-- Two roundings with a division between them are off by at most one part in `2 ^ 22`. -/
theorem Rounds.twice_relative (hr : Rounds r) {x k : Rat} (hk : 1 ≤ k) (h : 2 ^ (-125 : Int) ≤ |x / k|) : |r (r x / k) - x / k| ≤ |x / k| / 2 ^ 22 := by
  have hk0 : 0 < k := by linarith
  have hp : (2 : Rat) ^ (-125 : Int) = 2 * 2 ^ (-126 : Int) := by exact two_zpow_pred (-125)
  have hpos := two_zpow_pos (-126)
  rw [hp] at h
  have hxk : |x / k| ≤ |x| := by
    rw [abs_div, abs_of_pos hk0]
    exact div_le_self (abs_nonneg x) hk
  have h1 := hr.relative (x := x) (by
    generalize (2 : Rat) ^ (-126 : Int) = s at h hpos ⊢
    linarith)
  have h2 : |r x / k - x / k| ≤ |x / k| / 2 ^ 24 := by
    rw [← sub_div, abs_div, abs_div, abs_of_pos hk0, div_right_comm]
    exact div_le_div_of_nonneg_right h1 hk0.le
  have h3 : |r x / k| ≤ |x / k| + |x / k| / 2 ^ 24 := by
    have := abs_sub_abs_le_abs_sub (r x / k) (x / k)
    linarith
  have h4 : |x / k| - |x / k| / 2 ^ 24 ≤ |r x / k| := by
    have := abs_sub_abs_le_abs_sub (x / k) (r x / k)
    rw [abs_sub_comm] at this
    linarith
  have h5 := hr.relative (x := r x / k) (by
    generalize (2 : Rat) ^ (-126 : Int) = s at h hpos ⊢
    norm_num at h4
    linarith)
  have h6 : |r (r x / k) - x / k| ≤ |r (r x / k) - r x / k| + |r x / k - x / k| := abs_sub_le _ _ _
  norm_num at *
  linarith [abs_nonneg (x / k)]

/-- What a length is in exact arithmetic, before and after the division. -/
theorem dimLengthIn_cases (r : Rat → Rat) (em vw vh : Rat) (color : Rgba) (x : Rat) (u : Units) :
    (u = .px ∧ dimLengthIn r (.around em vw vh color) ⟨x, u⟩ = x ∧ pixels em vw vh u x = x) ∨
    (u.ofViewport = false ∧ dimLengthIn r (.around em vw vh color) ⟨x, u⟩ = r (pixels em vw vh u x)) ∨
    (u.ofViewport = true ∧ dimLengthIn r (.around em vw vh color) ⟨x, u⟩ = r (r (100 * pixels em vw vh u x) / 100)) := by
  cases u <;> simp only [dimLengthIn, Sizes.around, pixels, Units.ofViewport]
  case px => exact .inl (by simp)
  case em => exact .inr (.inl ⟨trivial, by rw [mul_comm]⟩)
  case rem => exact .inr (.inl ⟨trivial, by rw [mul_comm]⟩)
  all_goals
    refine .inr (.inr ⟨trivial, ?_⟩)
    congr 3
    ring

/-- C97: a length in pixels is the written number; one in `em` or `rem` is as near to the exact one as 32 bits allow; one in a part
of the viewport is off by at most one part in `2 ^ 22`. -/
theorem C97_lengths (hr : Rounds r) (em vw vh : Rat) (color : Rgba) {x : Rat} (hx : IsF32 x) (u : Units) :
    IsF32 (dimLengthIn r (.around em vw vh color) ⟨x, u⟩) ∧
    (u.ofViewport = false → NearestF32 (pixels em vw vh u x) (dimLengthIn r (.around em vw vh color) ⟨x, u⟩)) ∧
    (2 ^ (-125 : Int) ≤ |pixels em vw vh u x| →
      |dimLengthIn r (.around em vw vh color) ⟨x, u⟩ - pixels em vw vh u x| ≤ |pixels em vw vh u x| / 2 ^ 22) := by
  have hle : ∀ a : Rat, |a| / 2 ^ 24 ≤ |a| / 2 ^ 22 := fun a => div_le_div_of_nonneg_left (abs_nonneg a) (by norm_num) (by norm_num)
  rcases dimLengthIn_cases r em vw vh color x u with ⟨rfl, h1, h2⟩ | ⟨hu, h1⟩ | ⟨hu, h1⟩
  · rw [h1, h2]
    exact ⟨hx, fun _ => ⟨hx, fun z _ => by simp⟩, fun _ => by simpa using by positivity⟩
  · rw [h1]
    refine ⟨hr.number _, fun _ => hr.nearestF32 _, fun h => ?_⟩
    refine le_trans (hr.relative (le_trans (two_zpow_le (by norm_num)) h)) (hle _)
  · rw [h1]
    refine ⟨hr.number _, fun h => (by rw [hu] at h; cases h), fun h => ?_⟩
    have e : pixels em vw vh u x = 100 * pixels em vw vh u x / 100 := by ring
    have := hr.twice_relative (x := 100 * pixels em vw vh u x) (k := 100) (by norm_num) (by rw [← e]; exact h)
    rwa [← e] at this

/-- C97: a length that 32 bits can hold is exact; one in a part of the viewport if they can also hold a hundred times it. -/
theorem C97_exact (hr : Rounds r) (em vw vh : Rat) (color : Rgba) (x : Rat) (u : Units) (h : IsF32 (pixels em vw vh u x))
    (h100 : u.ofViewport = true → IsF32 (100 * pixels em vw vh u x)) :
    dimLengthIn r (.around em vw vh color) ⟨x, u⟩ = pixels em vw vh u x := by
  rcases dimLengthIn_cases r em vw vh color x u with ⟨rfl, h1, h2⟩ | ⟨hu, h1⟩ | ⟨hu, h1⟩
  · rw [h1, h2]
  · rw [h1, hr.exact h]
  · rw [h1, hr.exact (h100 hu), mul_div_cancel_left₀ _ (by norm_num), hr.exact h]

/-- C97: `1em` is exactly the font size around, `1rem` exactly 16, and in a viewport of whole pixels, less than 167772 of them,
`100vw` and `100vh` are exactly its width and height, `50vw` and `50vh` exactly the half of them. -/
theorem C97_whole (hr : Rounds r) (color : Rgba) {em vw vh : Rat} :
    (IsF32 em → dimLengthIn r (.around em vw vh color) ⟨1, .em⟩ = em) ∧
    dimLengthIn r (.around em vw vh color) ⟨1, .rem⟩ = 16 ∧
    (∀ w : Nat, w < 167772 →
      dimLengthIn r (.around em w vh color) ⟨100, .vw⟩ = w ∧ dimLengthIn r (.around em w vh color) ⟨50, .vw⟩ = w / 2 ∧
      dimLengthIn r (.around em vw w color) ⟨100, .vh⟩ = w ∧ dimLengthIn r (.around em vw w color) ⟨50, .vh⟩ = w / 2) := by
  have half : ∀ w : Nat, w < 167772 → IsF32 ((w : Rat) / 2) := fun w hw => ⟨w, -1, by rw [abs_of_nonneg (by positivity)]; norm_cast; omega, by norm_num, by
    push_cast; rw [zpow_neg_one]; ring⟩
  have big : ∀ w : Nat, w < 167772 → IsF32 (100 * (w : Rat)) := fun w hw => by exact_mod_cast IsF32.ofNat (m := 100 * w) (by omega)
  have fifty : ∀ w : Nat, w < 167772 → IsF32 (100 * ((w : Rat) / 2)) := fun w hw => by
    rw [show 100 * ((w : Rat) / 2) = ((50 * w : Nat) : Rat) by push_cast; ring]
    exact IsF32.ofNat (by omega)
  refine ⟨fun h => ?_, ?_, fun w hw => ⟨?_, ?_, ?_, ?_⟩⟩
  · have := C97_exact hr em vw vh color 1 .em (by simpa [pixels] using h) (by simp [Units.ofViewport])
    simpa [pixels] using this
  · have := C97_exact hr em vw vh color 1 .rem (by simpa [pixels] using IsF32.ofNat (m := 16) (by norm_num)) (by simp [Units.ofViewport])
    simpa [pixels] using this
  · have e : pixels em (w : Rat) vh .vw 100 = w := by simp only [pixels]; ring
    have := C97_exact hr em w vh color 100 .vw (by rw [e]; exact IsF32.ofNat (by omega)) (fun _ => by rw [e]; exact big w hw)
    rwa [e] at this
  · have e : pixels em (w : Rat) vh .vw 50 = w / 2 := by simp only [pixels]; ring
    have := C97_exact hr em w vh color 50 .vw (by rw [e]; exact half w hw) (fun _ => by rw [e]; exact fifty w hw)
    rwa [e] at this
  · have e : pixels em vw (w : Rat) .vh 100 = w := by simp only [pixels]; ring
    have := C97_exact hr em vw w color 100 .vh (by rw [e]; exact IsF32.ofNat (by omega)) (fun _ => by rw [e]; exact big w hw)
    rwa [e] at this
  · have e : pixels em vw (w : Rat) .vh 50 = w / 2 := by simp only [pixels]; ring
    have := C97_exact hr em vw w color 50 .vh (by rw [e]; exact half w hw) (fun _ => by rw [e]; exact fifty w hw)
    rwa [e] at this

theorem pixels_mono {em vw vh : Rat} (hem : 0 ≤ em) (hvw : 0 ≤ vw) (hvh : 0 ≤ vh) (u : Units) {x y : Rat} (h : x ≤ y) : pixels em vw vh u x ≤ pixels em vw vh u y := by
  cases u <;> simp only [pixels]
  case px => exact h
  all_goals refine mul_le_mul_of_nonneg_right h ?_
  all_goals first | assumption | positivity

/-- C97: a larger number is never a smaller length, what is not negative stays so, and a larger font size or viewport never makes a
length smaller. -/
theorem C97_order (hr : Rounds r) (color : Rgba) {em vw vh : Rat} (hem : 0 ≤ em) (hvw : 0 ≤ vw) (hvh : 0 ≤ vh) (u : Units) {x y : Rat} :
    (x ≤ y → dimLengthIn r (.around em vw vh color) ⟨x, u⟩ ≤ dimLengthIn r (.around em vw vh color) ⟨y, u⟩) ∧
    (0 ≤ x → 0 ≤ dimLengthIn r (.around em vw vh color) ⟨x, u⟩) ∧
    (0 ≤ x → ∀ em' vw' vh', em ≤ em' → vw ≤ vw' → vh ≤ vh' →
      dimLengthIn r (.around em vw vh color) ⟨x, u⟩ ≤ dimLengthIn r (.around em' vw' vh' color) ⟨x, u⟩) := by
  have base : ∀ {a b : Rat}, a ≤ b → r (r a / 100) ≤ r (r b / 100) := fun h => hr.mono (div_le_div_of_nonneg_right (hr.mono h) (by norm_num))
  refine ⟨fun h => ?_, fun h => ?_, fun h em' vw' vh' h1 h2 h3 => ?_⟩
  · cases u <;> simp only [dimLengthIn, Sizes.around]
    case px => exact h
    case em => exact hr.mono (mul_le_mul_of_nonneg_left h hem)
    case rem => exact hr.mono (mul_le_mul_of_nonneg_left h (by norm_num))
    all_goals refine base (mul_le_mul_of_nonneg_left h ?_)
    all_goals first | assumption | positivity
  · cases u <;> simp only [dimLengthIn, Sizes.around]
    case px => exact h
    case em => exact hr.nonneg (by positivity)
    case rem => exact hr.nonneg (by positivity)
    all_goals
      refine hr.nonneg (div_nonneg (hr.nonneg (mul_nonneg ?_ h)) (by norm_num))
    all_goals first | assumption | positivity
  · cases u <;> simp only [dimLengthIn, Sizes.around]
    case px => exact le_refl _
    case em => exact hr.mono (mul_le_mul_of_nonneg_right h1 h)
    case rem => exact le_refl _
    all_goals refine base (mul_le_mul_of_nonneg_right ?_ h)
    · assumption
    · assumption
    · exact max_le_max h2 h3
    · exact min_le_min h2 h3

/-- C97: a length of `vmin` is the same length of `vw` or of `vh`, and not more than either; one of `vmax` not less than either. -/
theorem C97_vmin_vmax (hr : Rounds r) (color : Rgba) {em vw vh x : Rat} (hx : 0 ≤ x) :
    let len u := dimLengthIn r (.around em vw vh color) ⟨x, u⟩
    len .vmin = min (len .vw) (len .vh) ∧ len .vmax = max (len .vw) (len .vh) := by
  have base : ∀ {a b : Rat}, a ≤ b → r (r (a * x) / 100) ≤ r (r (b * x) / 100) := fun h =>
    hr.mono (div_le_div_of_nonneg_right (hr.mono (mul_le_mul_of_nonneg_right h hx)) (by norm_num))
  simp only [dimLengthIn, Sizes.around]
  rcases le_total vw vh with h | h
  · rw [min_eq_left h, max_eq_right h, min_eq_left (base h), max_eq_right (base h)]
    exact ⟨rfl, rfl⟩
  · rw [min_eq_right h, max_eq_left h, min_eq_right (base h), max_eq_left (base h)]
    exact ⟨rfl, rfl⟩

/-- C97: a percentage of a number that 32 bits can hold is read as the text of its hundredth is, and is the nearest number to it;
from 0 to 100 percent every percentage is from 0 to 1, and 100 percent are 1. -/
theorem C97_percent (hr : Rounds r) {v : Rat} {t : List Char} (h : Number v t) :
    ∃ p, ReadsAs r (t ++ ['%']) (.percentage p) ∧
      (IsF32 v → NearestF32 (v / 100) p ∧ ∀ t', Explicit (.number (v / 100)) t' → ReadsAs r t' (.number p)) ∧
      (0 ≤ v → 0 ≤ p) ∧ (v ≤ 100 → p ≤ 1) ∧ (v = 100 → p = 1) ∧
      (2 ^ (-125 : Int) ≤ |v / 100| → |p - v / 100| ≤ |v / 100| / 2 ^ 22) := by
  refine ⟨r (r v / 100), runs_explicitIn (.percentage h), fun hv => ?_, fun hv => ?_, fun hv => ?_, ?_, fun hv => ?_⟩
  · rw [hr.exact hv]
    refine ⟨hr.nearestF32 _, fun t' ht' => ?_⟩
    cases ht' with
    | number hn hz => exact runs_explicitIn (.number hn hz)
  · exact hr.nonneg (div_nonneg (hr.nonneg hv) (by norm_num))
  · refine hr.le IsF32.one ?_
    rw [div_le_one (by norm_num)]
    exact hr.le (by exact_mod_cast IsF32.ofNat (m := 100) (by norm_num)) hv
  · rintro rfl
    rw [hr.exact (x := 100) (by exact_mod_cast IsF32.ofNat (m := 100) (by norm_num)), div_self (by norm_num), hr.one]
  · exact hr.twice_relative (by norm_num) hv

/-- C97: a time in milliseconds that 32 bits can hold is read as the same time in seconds is, to the nearest number; 1000 milliseconds are 1. -/
theorem C97_times (hr : Rounds r) {v : Rat} {t : List Char} (h : Number v t) :
    (∃ p, ReadsAs r (t ++ ['s']) (.time p) ∧ NearestF32 v p) ∧
    ∃ p, ReadsAs r (t ++ ['m', 's']) (.time p) ∧
      (IsF32 v → NearestF32 (v / 1000) p ∧ ∀ t', Number (v / 1000) t' → ReadsAs r (t' ++ ['s']) (.time p)) ∧
      (0 ≤ v → 0 ≤ p) ∧ (v = 1000 → p = 1) ∧
      (2 ^ (-125 : Int) ≤ |v / 1000| → |p - v / 1000| ≤ |v / 1000| / 2 ^ 22) := by
  refine ⟨⟨r v, runs_explicitIn (.seconds h), hr.nearestF32 v⟩,
    r (r v / 1000), runs_explicitIn (.milliseconds h), fun hv => ?_, fun hv => ?_, ?_, fun hv => ?_⟩
  · rw [hr.exact hv]
    exact ⟨hr.nearestF32 _, fun t' ht' => runs_explicitIn (.seconds ht')⟩
  · exact hr.nonneg (div_nonneg (hr.nonneg hv) (by norm_num))
  · rintro rfl
    rw [hr.exact (x := 1000) (by exact_mod_cast IsF32.ofNat (m := 1000) (by norm_num)), div_self (by norm_num), hr.one]
  · exact hr.twice_relative (by norm_num) hv

/-- C97: the number of a length, or a number alone, is read as the nearest number. -/
theorem C97_written (hr : Rounds r) {v : Rat} {t : List Char} :
    (Number v t → ∀ name u, (name, u) ∈ unitNames → ∃ x, ReadsAs r (t ++ name.toList) (.dimension ⟨x, u⟩) ∧ NearestF32 v x) ∧
    (Explicit (.number v) t → ∃ x, ReadsAs r t (.number x) ∧ NearestF32 v x) := by
  refine ⟨fun h name u hu => ⟨r v, runs_explicitIn (.dimension h hu), hr.nearestF32 v⟩, fun h => ⟨r v, ?_, hr.nearestF32 v⟩⟩
  cases h with
  | number hn hz => exact runs_explicitIn (.number hn hz)

/-- C97: a font size in percent is the nearest number to that part of the font size around; `100%` is exactly it, a part up to 1 never more. -/
theorem C97_font (hr : Rounds r) (sizes : Sizes) {base p : Rat} (hb : IsF32 base) :
    ∃ x, resolveLengthIn r sizes base (.percentage p) = some x ∧ NearestF32 (p * base) x ∧ (p = 1 → x = base) ∧
      (0 ≤ base → p ≤ 1 → x ≤ base) ∧ (0 ≤ base → 1 ≤ p → base ≤ x) := by
  refine ⟨r (p * base), rfl, hr.nearestF32 _, ?_, fun h0 hp => ?_, fun h0 hp => ?_⟩
  · rintro rfl
    rw [one_mul, hr.exact hb]
  · exact hr.le hb (mul_le_of_le_one_left h0 hp)
  · exact hr.ge hb (le_mul_of_one_le_left h0 hp)

/-- C97: widths, borders, font sizes, margins and insets alike: a written length is used as the same number of pixels everywhere, in `em`
and `rem` the nearest to the exact one, in parts of the viewport off by at most one part in `2 ^ 22`; zero is zero, percentages of
widths, margins and insets are left as they are read, and a bare number is itself where numbers are taken. -/
theorem C97_used (hr : Rounds r) (em vw vh base : Rat) (color : Rgba) {x : Rat} (hx : IsF32 x) (u : Units) :
    (∃ y, IsF32 y ∧ dimensionLengthIn r (.around em vw vh color) (.dimension ⟨x, u⟩) = some y ∧
      resolveLengthIn r (.around em vw vh color) base (.dimension ⟨x, u⟩) = some y ∧
      lengthpAutoIn r (.around em vw vh color) (.dimension ⟨x, u⟩) = some (.length y) ∧
      (u = .px → y = x) ∧ (u.ofViewport = false → NearestF32 (pixels em vw vh u x) y) ∧
      (2 ^ (-125 : Int) ≤ |pixels em vw vh u x| → |y - pixels em vw vh u x| ≤ |pixels em vw vh u x| / 2 ^ 22)) ∧
    (dimensionLengthIn r (.around em vw vh color) .zero = some 0 ∧ resolveLengthIn r (.around em vw vh color) base .zero = some 0 ∧
      lengthpAutoIn r (.around em vw vh color) .zero = some (.length 0)) ∧
    (dimensionLengthIn r (.around em vw vh color) (.number x) = some x ∧ resolveLengthIn r (.around em vw vh color) base (.number x) = some x) ∧
    (lengthpAutoIn r (.around em vw vh color) (.percentage x) = some (.percent x) ∧
      lengthpAutoIn r (.around em vw vh color) (.keyword "auto") = some .auto) := by
  obtain ⟨h1, h2, h3⟩ := C97_lengths hr em vw vh color hx u
  refine ⟨⟨_, h1, rfl, rfl, rfl, ?_, h2, h3⟩, ⟨rfl, rfl, rfl⟩, ⟨rfl, rfl⟩, rfl, rfl⟩
  rintro rfl
  rfl

/-- C97: where rounding shows: `100vw` is not the width of this viewport, ten columns of `10vw` are wider than a viewport of 101 pixels,
`0.7%` is not read as `0.007` is, nor `0.1ms` as `0.0001s`. -/
theorem C97_example :
    IsF32 (15300789 / 8192) ∧ dimLengthIn f32 (.around 16 (15300789 / 8192) 600 ⟨0, 0, 0, 0⟩) ⟨100, .vw⟩ ≠ 15300789 / 8192 ∧
    101 < 10 * dimLengthIn f32 (.around 16 101 600 ⟨0, 0, 0, 0⟩) ⟨10, .vw⟩ ∧
    (∃ p q, p ≠ q ∧ ReadsAs f32 "0.7%".toList (.percentage p) ∧ ReadsAs f32 "0.007".toList (.number q)) ∧
    (∃ p q, p ≠ q ∧ ReadsAs f32 "0.1ms".toList (.time p) ∧ ReadsAs f32 "0.0001s".toList (.time q)) := by
  have n1 : Number (7 / 10) ['0', '.', '7'] := by
    have := Number.plain (Unsigned.frac (t := ['0']) (u := ['7']) (by decide) ⟨by simp, by decide⟩)
    rw [show (7 / 10 : Rat) = decimal ['0'] + (decimal ['7'] : Rat) / 10 ^ ['7'].length by decide +kernel]
    exact this
  have n2 : Number (7 / 1000) ['0', '.', '0', '0', '7'] := by
    have := Number.plain (Unsigned.frac (t := ['0']) (u := ['0', '0', '7']) (by decide) ⟨by simp, by decide⟩)
    rw [show (7 / 1000 : Rat) = decimal ['0'] + (decimal ['0', '0', '7'] : Rat) / 10 ^ ['0', '0', '7'].length by decide +kernel]
    exact this
  have n3 : Number (1 / 10) ['0', '.', '1'] := by
    have := Number.plain (Unsigned.frac (t := ['0']) (u := ['1']) (by decide) ⟨by simp, by decide⟩)
    rw [show (1 / 10 : Rat) = decimal ['0'] + (decimal ['1'] : Rat) / 10 ^ ['1'].length by decide +kernel]
    exact this
  have n4 : Number (1 / 10000) ['0', '.', '0', '0', '0', '1'] := by
    have := Number.plain (Unsigned.frac (t := ['0']) (u := ['0', '0', '0', '1']) (by decide) ⟨by simp, by decide⟩)
    rw [show (1 / 10000 : Rat) = decimal ['0'] + (decimal ['0', '0', '0', '1'] : Rat) / 10 ^ ['0', '0', '0', '1'].length by decide +kernel]
    exact this
  exact ⟨⟨15300789, -13, by decide +kernel, by decide, by decide +kernel⟩, by decide +kernel, by decide +kernel,
    ⟨f32 (f32 (7 / 10) / 100), f32 (7 / 1000), by decide +kernel, runs_explicitIn (.percentage n1), runs_explicitIn (.number n2 (by rintro u ⟨⟩; exact ⟨_, rfl⟩))⟩,
    ⟨f32 (f32 (1 / 10) / 1000), f32 (1 / 10000), by decide +kernel, runs_explicitIn (.milliseconds n3), runs_explicitIn (.seconds n4)⟩⟩

end Verif
