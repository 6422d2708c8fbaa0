import Verif.Spec.Useless
/-!
# Specification vocabulary for C113: neighbouring rules with the same selectors
-/
namespace Verif

/-- `l'` is `l` with neighbouring rules with the same selectors joined, the declarations one after the other. -/
inductive Joined : List Style → List Style → Prop
  | nil : Joined [] []
  | same {s l l'} : Joined l l' → Joined (s :: l) (s :: l')
  | join {sel a b l l'} : Joined (⟨sel, a ++ b⟩ :: l) l' → Joined (⟨sel, a⟩ :: ⟨sel, b⟩ :: l) l'

end Verif
