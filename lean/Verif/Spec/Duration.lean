import Mathlib.Data.Rat.Floor
/-!
# Specification: the text of a duration

Seconds, milliseconds, microseconds or nanoseconds in decimal notation, as in `1.5s`, `20ms`, `2.25µs`.
-/
namespace Verif

/-- The units a duration is written in. -/
inductive TimeUnit where
  | s | ms | us | ns
deriving DecidableEq, Repr

/-- The sign of a unit. -/
def TimeUnit.sign : TimeUnit → String
  | .s => "s" | .ms => "ms" | .us => "µs" | .ns => "ns"

/-- The nanoseconds of a unit. -/
def TimeUnit.nanos : TimeUnit → Nat
  | .s => 1000000000 | .ms => 1000000 | .us => 1000 | .ns => 1

/-- What digits after the point add. -/
def afterPoint : List Nat → Rat
  | [] => 0
  | d :: ds => (d + afterPoint ds) / 10

/-- `text` is `whole`, then a point and `digits` if there are any, then the sign of `unit`; it means exactly `n`
nanoseconds; no digit is superfluous; and the unit is the longest that fits into the duration (nanoseconds for nothing). -/
structure DurationText (text : String) (n whole : Nat) (digits : List Nat) (unit : TimeUnit) : Prop where
  written : text = toString whole ++ (if digits = [] then "" else "." ++ String.join (digits.map fun d => toString d)) ++ unit.sign
  decimal : ∀ d ∈ digits, d < 10
  short : digits.getLast? ≠ some 0
  means : (whole + afterPoint digits) * unit.nanos = n
  longest : ∀ u : TimeUnit, u.nanos ≤ n → u.nanos ≤ unit.nanos
  fits : unit.nanos ≤ n ∨ n = 0 ∧ unit = .ns

end Verif
