import Verif.ViewModel.React
import Verif.Spec.Duration
import Mathlib.Data.Rat.Floor
import Mathlib.Tactic.Linarith
import Mathlib.Tactic.Ring
import Mathlib.Tactic.FieldSimp
/-!
# The transformer every view has (`src/view_model.rs` 763-780)

`std::time::Duration` is third party (trusted, from its documentation and source): a duration is a number of whole
nanoseconds here, `secs = n / 10^9` and `nanos = n % 10^9`.
-/
namespace Verif
open Json

/-- Nearest natural number, ties to even (the rounding of `Duration::from_secs_f64`), of a number that is not negative. -/
def nearest (q : Rat) : Nat :=
  let n := q.floor.toNat
  let r := q - n
  if r < 1 / 2 then n else if 1 / 2 < r then n + 1 else if n % 2 = 0 then n else n + 1

/-- `Duration::from_secs_f64` (trusted): the nanoseconds; `none` = panic, on negative numbers and when the seconds do
not fit a `u64`. -/
def fromSecs (q : Rat) : Option Nat :=
  if q < 0 then none
  else
    let n := nearest (q * 10 ^ 9)
    if n / 10 ^ 9 < 2 ^ 64 then some n else none

/-- The digits `fmt_decimal` of `Duration`'s `Debug` writes after the point (trusted): at most nine, until nothing is left. -/
def fractionDigits : Nat → Nat → Nat → List Nat
  | 0, _, _ => []
  | k + 1, fraction, divisor =>
    if fraction = 0 then [] else fraction / divisor :: fractionDigits k (fraction % divisor) (divisor / 10)

/-- `fmt_decimal` without sign, width and precision (trusted). -/
def fmtDecimal (whole fraction divisor : Nat) (unit : String) : String :=
  match fractionDigits 9 fraction divisor with
  | [] => toString whole ++ unit
  | ds => toString whole ++ "." ++ String.join (ds.map fun d => toString d) ++ unit

/-- `format!("{value:?}")` of a `Duration` (trusted). -/
def debugDuration (n : Nat) : String :=
  if n / 10 ^ 9 > 0 then fmtDecimal (n / 10 ^ 9) (n % 10 ^ 9) (10 ^ 8) "s"
  else if n ≥ 10 ^ 6 then fmtDecimal (n / 10 ^ 6) (n % 10 ^ 6) (10 ^ 5) "ms"
  else if n ≥ 10 ^ 3 then fmtDecimal (n / 10 ^ 3) (n % 10 ^ 3) (10 ^ 2) "µs"
  else fmtDecimal n 0 1 "ns"

/-- `Value::as_f64`. -/
def Json.asF64 : Json → Option Rat
  | .num n => some n.asF64
  | _ => none

/-- `view_model.rs` 764-773 `duration`; `none` = panic. -/
def durationPipe (value : Json) : Option Json :=
  match value.asF64 with
  | none => some value
  | some q => (fromSecs q).map fun n => .str (debugDuration n)

/-- `view_model.rs` 763-777 `default_transformers`.  A transformer of the model has no way to panic: where `duration`
does, the value of this table says nothing about the program. -/
def defaultTransformers : Transformers := fun name =>
  if name = "duration" then some fun value => (durationPipe value).getD value else none

/-- `view.rs` 102-107 `View::pipe`: one more transformer, instead of the one of that name if there is one. -/
def Transformers.pipe (tr : Transformers) (name : String) (f : Json → Json) : Transformers := fun n =>
  if n = name then some f else tr n

/-! ### lemmas -/

theorem nearest_near {q : Rat} (h : 0 ≤ q) : |q - nearest q| ≤ 1 / 2 := by
  have h0 : (0 : Int) ≤ q.floor := by
    rw [Rat.le_floor_iff]; simpa using h
  have h1 : ((q.floor.toNat : Nat) : Rat) = (q.floor : Rat) := by
    have : ((q.floor.toNat : Nat) : Int) = q.floor := Int.toNat_of_nonneg h0
    exact_mod_cast this
  have h2 : (q.floor : Rat) ≤ q := Rat.floor_le q
  have h3 : q < q.floor + 1 := by
    have := Rat.lt_floor_add_one q
    push_cast at this; exact this
  unfold nearest
  dsimp only
  rw [abs_le]
  split
  · rw [h1] at *; constructor <;> linarith
  · split
    · push_cast; rw [h1] at *; constructor <;> linarith
    · split
      · rw [h1] at *; constructor <;> linarith
      · push_cast; rw [h1] at *; constructor <;> linarith

theorem fractionDigits_ok : ∀ (k m f : Nat), k < m → f < 10 ^ (k + 1) →
    afterPoint (fractionDigits m f (10 ^ k)) = f / 10 ^ (k + 1) ∧ (∀ d ∈ fractionDigits m f (10 ^ k), d < 10) ∧
    (fractionDigits m f (10 ^ k)).getLast? ≠ some 0 := by
  intro k
  induction k with
  | zero =>
    intro m f hm hf
    obtain ⟨m, rfl⟩ : ∃ n, m = n + 1 := ⟨m - 1, by omega⟩
    by_cases h0 : f = 0
    · subst h0; simp [fractionDigits, afterPoint]
    · have hr : fractionDigits m 0 0 = [] := by cases m <;> simp [fractionDigits]
      simp only [fractionDigits, if_neg h0, pow_zero, Nat.div_one, Nat.mod_one]
      have h2 : (1 : Nat) / 10 = 0 := rfl
      rw [h2, hr]
      refine ⟨by simp [afterPoint], by simpa using hf, by simpa using h0⟩
  | succ k ih =>
    intro m f hm hf
    obtain ⟨m, rfl⟩ : ∃ n, m = n + 1 := ⟨m - 1, by omega⟩
    by_cases h0 : f = 0
    · subst h0; simp [fractionDigits, afterPoint]
    · have hd : (10 : Nat) ^ (k + 1) / 10 = 10 ^ k := by rw [pow_succ]; omega
      have hpos : 0 < (10 : Nat) ^ (k + 1) := Nat.pos_of_ne_zero (by simp)
      obtain ⟨i1, i2, i3⟩ := ih m (f % 10 ^ (k + 1)) (by omega) (Nat.mod_lt _ hpos)
      simp only [fractionDigits, if_neg h0, hd]
      refine ⟨?_, ?_, ?_⟩
      · rw [afterPoint, i1]
        have hfm : (f : Rat) = 10 ^ (k + 1) * (f / 10 ^ (k + 1) : Nat) + (f % 10 ^ (k + 1) : Nat) := by
          exact_mod_cast (Nat.div_add_mod f (10 ^ (k + 1))).symm
        rw [hfm, pow_succ 10 (k + 1)]
        have : (10 : Rat) ^ (k + 1) ≠ 0 := by positivity
        rw [← hfm]
        field_simp
        linarith [hfm]
      · intro d hmem
        rcases List.mem_cons.1 hmem with rfl | hmem
        · rw [Nat.div_lt_iff_lt_mul hpos]; rw [pow_succ] at hf; omega
        · exact i2 d hmem
      · cases hr : fractionDigits m (f % 10 ^ (k + 1)) (10 ^ k) with
        | nil =>
          rw [hr] at i1
          simp only [afterPoint] at i1
          have hz : f % 10 ^ (k + 1) = 0 := by
            have hne : (10 : Rat) ^ (k + 1) ≠ 0 := by positivity
            have := (div_eq_zero_iff.1 i1.symm).resolve_right hne
            exact_mod_cast this
          have : f / 10 ^ (k + 1) ≠ 0 := by
            intro hz'
            have := Nat.div_add_mod f (10 ^ (k + 1))
            rw [hz, hz'] at this; omega
          simpa using this
        | cons a b =>
          rw [hr] at i3
          simpa [List.getLast?_cons] using i3
end Verif
