import Verif.View.Pointer
import Verif.Spec.Scope
/-!
# Specification vocabulary for paths that exist (C25)
-/
namespace Verif

/-- A field name that the pointer syntax of JSON reads back as it is: no `~`, and a number is written
without leading zeros or sign. -/
def PlainKey (t : String) : Prop := '~' ∉ t.toList ∧ ∀ i, parseU64 t = some i → t = toString i

/-- Two paths use every value they share either both as an array (by a number) or both as an object (by a
name). -/
def SameUse (p q : List String) : Prop :=
  ∀ pre t t' x y, p = pre ++ t :: x → q = pre ++ t' :: y → ((parseU64 t).isSome ↔ (parseU64 t').isSome)

/-- The paths of a template can exist together. -/
structure Consistent (paths : List String) : Prop where
  plain : ∀ p ∈ paths, ∀ t ∈ tokens p, PlainKey t
  use : ∀ p ∈ paths, ∀ q ∈ paths, SameUse (tokens p) (tokens q)
  notThis : ∀ p ∈ paths, p ≠ "/this"

end Verif
