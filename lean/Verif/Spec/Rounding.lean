import Mathlib.Algebra.Order.Ring.Rat
import Mathlib.Algebra.Order.Field.Basic
import Mathlib.Tactic.Linarith
import Mathlib.Tactic.Positivity
import Mathlib.Tactic.Ring
import Mathlib.Tactic.FieldSimp
import Mathlib.Tactic.NormNum
/-!
# Numbers of 32 bits (C91-C94)

The other theorems take the `f32` of the crate for rationals. Here the numbers are those of the type: after every operation the
exact result is rounded to the nearest of them (IEEE 754). Not modelled: overflow, infinities, not-a-number and the two zeros.
-/
namespace Verif

/-- The number is one of the type `f32`: an integer of 24 bits times a power of two that is not below the smallest one. -/
def IsF32 (x : Rat) : Prop := ∃ m e : Int, |m| < 2 ^ 24 ∧ -149 ≤ e ∧ x = m * (2 : Rat) ^ e

/-- `r` rounds to the nearest `f32`; which one of two equally near ones is left open. -/
structure Rounds (r : Rat → Rat) : Prop where
  number : ∀ x, IsF32 (r x)
  nearest : ∀ x y, IsF32 y → |r x - x| ≤ |y - x|

/-- Rounding to the nearest integer, from the middle to the even one. -/
def roundEven (x : Rat) : Int :=
  let d := x - x.floor
  if d < 1 / 2 then x.floor else if 1 / 2 < d then x.floor + 1 else if x.floor % 2 = 0 then x.floor else x.floor + 1

/-- The largest `e` with `2 ^ e ≤ |x|`. -/
def binaryLog (x : Rat) : Int :=
  let g : Int := (x.num.natAbs.log2 : Int) - x.den.log2
  if (2 : Rat) ^ g ≤ |x| then g else g - 1

/-- The power of the last bit a `f32` near `x` has. -/
def lastPlace (x : Rat) : Int := max (binaryLog x - 23) (-149)

/-- What IEEE 754 prescribes: to the nearest, from the middle to the even one. -/
def f32 (x : Rat) : Rat := roundEven (x / (2 : Rat) ^ lastPlace x) * (2 : Rat) ^ lastPlace x

end Verif
