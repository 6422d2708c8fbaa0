import Verif.Spec.Parts
import Verif.Spec.Useless
/-!
# Specification vocabulary for C110: selectors that another one covers
-/
namespace Verif

/-- `c'` asks for all that `c` asks for: it is `c` with more parts that say something of the elements on the way, and more elements on the way
up. -/
def Complex.Narrower (c c' : Complex) : Prop :=
  ∃ up c1, c' = up ++ c1 ∧ (up = [] ∨ ∃ q, up = q ++ [.combinator '>']) ∧ WithMore (fun x => ∀ d, x ≠ .combinator d) c c1

/-- `s'` is `s` with more selectors, each narrower than one of `s`. -/
structure Style.Covers (s s' : Style) : Prop where
  declaration : s'.declaration = s.declaration
  more : ∀ c ∈ s.selectors, c ∈ s'.selectors
  narrower : ∀ c' ∈ s'.selectors, ∃ c ∈ s.selectors, c.Narrower c'

end Verif
