import Verif.Spec.Useless
/-!
# Specification vocabulary for C111: declarations that a later one overrides
-/
namespace Verif

/-- One written-out value. -/
def Shorthand.Word (v : Shorthand) : Prop := ∃ x, v = [.explicit x]

/-- `d'` sets what `d` sets: the same property (other than `border`), at least as many values in its list, each a single word. -/
def Declaration.Outdoes : Declaration → Declaration → Prop
  | .property key' values', .property key values =>
    key' = key ∧ key ≠ .Border ∧ values.length ≤ values'.length ∧ (∀ v ∈ values', v.Word) ∧ ∀ v ∈ values, v.Word
  | _, _ => False

/-- `l'` is `l` with declarations dropped that are outdone by a later one in the same rule, or in a later rule with the same selectors. -/
inductive Trimmed : List Style → List Style → Prop
  | nil : Trimmed [] []
  | same {s l l'} : Trimmed l l' → Trimmed (s :: l) (s :: l')
  | drop {sel a d b l l'} : (∃ d' ∈ b, d'.Outdoes d) ∨ (∃ r ∈ l, r.selectors = sel ∧ ∃ d' ∈ r.declaration, d'.Outdoes d) → Trimmed l l' →
      Trimmed (⟨sel, a ++ d :: b⟩ :: l) (⟨sel, a ++ b⟩ :: l')

end Verif
