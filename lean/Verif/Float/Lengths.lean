import Verif.Float.Bounds
import Verif.Float.Concrete
import Verif.Css.Apply
import Verif.Css.Reader
/-!
# Written numbers and lengths in rounded arithmetic

`read_explicit_value` and the lengths of `styles/apply.rs` once more, with the result of every operation on `f32` rounded by `r`.
With `r = id` they are the functions of `Css/Reader.lean` and `Css/Apply.lean`.
-/
namespace Verif

variable (r : Rat → Rat)

/-- `css/reader.rs` 263-269 `read_number`, rounded (`str::parse::<f32>` gives the nearest number; 0 is one). -/
def readNumberIn (t : List Char) : Rat := r (readNumber t)

/-- `css/reader.rs` 220-232 `read_explicit_value`, with `read_dimension` (234-244), `read_percentage` (246-250) and
`read_seconds` (252-261), rounded. -/
def readExplicitIn : Pair CssRule → Option ComputedValue
  | .mk .keyword t _ => some (.keyword (String.ofList t))
  | .mk .color t _ => some (.color (readColor t))
  | .mk .zero _ _ => some .zero
  | .mk .time _ (n :: u :: _) =>
    if u.str = "s" then some (.time (readNumberIn r n.str.toList)) else if u.str = "ms" then some (.time (r (readNumberIn r n.str.toList / 1000))) else none
  | .mk .percentage _ (n :: _) => some (.percentage (r (readNumberIn r n.str.toList / 100)))
  | .mk .dimension _ (n :: u :: _) => some (.dimension ⟨readNumberIn r n.str.toList, (Units.parse u.str).getD .px⟩)
  | .mk .number t _ => some (.number (readNumberIn r t))
  | .mk .string _ (s :: _) => some (.str s.str)
  | _ => none

/-- `apply.rs` 475-488 `parse_dimension_length`, rounded. -/
def dimLengthIn (sizes : Sizes) (d : Dim) : Rat :=
  match d.unit with
  | .px => d.value
  | .em => r (sizes.parentFontSize * d.value)
  | .rem => r (sizes.rootFontSize * d.value)
  | .vw => r (r (sizes.viewportWidth * d.value) / 100)
  | .vh => r (r (sizes.viewportHeight * d.value) / 100)
  | .vmax => r (r (max sizes.viewportWidth sizes.viewportHeight * d.value) / 100)
  | .vmin => r (r (min sizes.viewportWidth sizes.viewportHeight * d.value) / 100)

/-- `apply.rs` 450-463 `resolve_length`, rounded. -/
def resolveLengthIn (sizes : Sizes) (base : Rat) : ComputedValue → Option Rat
  | .zero => some 0
  | .dimension d => some (dimLengthIn r sizes d)
  | .percentage p => some (r (p * base))
  | .number v => some v
  | _ => none

/-- `apply.rs` 465-473 `dimension_length`, rounded. -/
def dimensionLengthIn (sizes : Sizes) : ComputedValue → Option Rat
  | .zero => some 0
  | .dimension d => some (dimLengthIn r sizes d)
  | .number v => some v
  | _ => none

/-- `apply.rs` 490-502 `dimension` and 529-544 `lengthp_auto`, rounded. -/
def lengthpAutoIn (sizes : Sizes) : ComputedValue → Option LengthPA
  | .zero => some (.length 0)
  | .dimension d => some (.length (dimLengthIn r sizes d))
  | .percentage p => some (.percent p)
  | .keyword k => if k = "auto" then some .auto else none
  | _ => none

theorem readExplicitIn_id (p : Pair CssRule) : readExplicitIn id p = readExplicit p := by
  unfold readExplicitIn readExplicit readNumberIn
  split <;> simp

theorem dimLengthIn_id (sizes : Sizes) (d : Dim) : dimLengthIn id sizes d = dimLength sizes d := by
  unfold dimLengthIn dimLength
  cases d.unit <;> rfl

theorem resolveLengthIn_id (sizes : Sizes) (base : Rat) (v : ComputedValue) : resolveLengthIn id sizes base v = resolveLength sizes base v := by
  cases v <;> simp [resolveLengthIn, resolveLength, dimLengthIn_id]

theorem dimensionLengthIn_id (sizes : Sizes) (v : ComputedValue) : dimensionLengthIn id sizes v = dimensionLength sizes v := by
  cases v <;> simp [dimensionLengthIn, dimensionLength, dimLengthIn_id]

theorem lengthpAutoIn_id (sizes : Sizes) (v : ComputedValue) : lengthpAutoIn id sizes v = lengthpAuto sizes v := by
  cases v <;> simp [lengthpAutoIn, lengthpAuto, dimLengthIn_id]

/-- Away from zero rounding is off by at most one part in `2 ^ 24`. -/
theorem Rounds.relative {r : Rat → Rat} (hr : Rounds r) {x : Rat} (h : 2 ^ (-126 : Int) ≤ |x|) : |r x - x| ≤ |x| / 2 ^ 24 := by
  have hx : x ≠ 0 := by
    rintro rfl
    have := two_zpow_pos (-126)
    rw [abs_zero] at h
    exact absurd h (not_le.2 this)
  obtain ⟨h1, h2⟩ := binaryLog_spec hx
  have hlog : -126 ≤ binaryLog x := by
    by_contra hc
    have : (2 : Rat) ^ (binaryLog x + 1) ≤ 2 ^ (-126 : Int) := two_zpow_le (by omega)
    linarith
  have h3 := hr.error (x := x) (e := binaryLog x - 23) (by omega) (by
    rw [show binaryLog x - 23 + 24 = binaryLog x + 1 by ring]; exact h2.le)
  have h4 : (2 : Rat) ^ binaryLog x = 2 ^ 23 * 2 ^ (binaryLog x - 23) := by
    rw [show binaryLog x = binaryLog x - 23 + (23 : Nat) by push_cast; ring, two_zpow_shift]
    norm_num
  refine h3.trans ?_
  rw [le_div_iff₀ (by norm_num)]
  rw [h4] at h1
  generalize (2 : Rat) ^ (binaryLog x - 23) = s at h1 ⊢
  norm_num at h1 ⊢
  linarith

end Verif
