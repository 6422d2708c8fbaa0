import Verif.Spec.Copies
import Mathlib.Data.List.Forall2
/-!
# Specification vocabulary for C116: variables that are defined again before they are used
-/
namespace Verif

/-- `l'` is `l` with definitions dropped of variables that are defined again in the same block, with only definitions and literal properties in between. -/
inductive Redefined : List Declaration → List Declaration → Prop
  | nil : Redefined [] []
  | same {d l l'} : Redefined l l' → Redefined (d :: l) (d :: l')
  | drop {x v v' mid b l'} : (∀ d ∈ mid, d.Literal ∨ ∃ y w, d = .variable y w) → Redefined (mid ++ .variable x v' :: b) l' →
      Redefined (.variable x v :: (mid ++ .variable x v' :: b)) l'

/-- The same rule without such definitions. -/
structure Style.Redefined (s s' : Style) : Prop where
  selectors : s'.selectors = s.selectors
  declaration : Verif.Redefined s.declaration s'.declaration

end Verif
