import Verif.Css.Matching
import Verif.Spec.Rules
import Mathlib.Data.List.Forall2
/-!
# Specification vocabulary for C108: other words for the same selectors
-/
namespace Verif

/-- The two selectors say the same of each element on the way, part by part: parts next to each other change places, a part is
said twice, `*` is said as well; combinators stay between the same parts. -/
inductive Complex.SameParts : Complex → Complex → Prop
  | refl (c : Complex) : SameParts c c
  | same (x : Simple) {c c' : Complex} : SameParts c c' → SameParts (x :: c) (x :: c')
  | swap {x y : Simple} (c : Complex) : (∀ d, x ≠ .combinator d) → (∀ d, y ≠ .combinator d) → SameParts (x :: y :: c) (y :: x :: c)
  | twice {x : Simple} (c : Complex) : (∀ d, x ≠ .combinator d) → SameParts (x :: c) (x :: x :: c)
  | all (c : Complex) : SameParts c (.all :: c)
  | symm {c c' : Complex} : SameParts c c' → SameParts c' c
  | trans {c c' c'' : Complex} : SameParts c c' → SameParts c' c'' → SameParts c c''

/-- The declarations are the same, and each selector of the one rule is one of the other in other words. If there is a `+`, they
come in the same order and number, too (as it can panic, see C40). -/
structure Style.Reworded (s s' : Style) : Prop where
  declaration : s'.declaration = s.declaration
  selectors : List.Forall₂ Complex.SameParts s.selectors s'.selectors ∨
    (s.NoPlus ∧ (∀ c ∈ s.selectors, ∃ c' ∈ s'.selectors, c.SameParts c') ∧ ∀ c' ∈ s'.selectors, ∃ c ∈ s.selectors, c.SameParts c')

end Verif
