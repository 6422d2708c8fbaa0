import Verif.Spec.Copies
import Verif.Spec.Cascade
/-!
# Specification vocabulary for C105: rules in another order
-/
namespace Verif

/-- `l'` is `l` after any number of exchanges of neighbours; `S` holds of each pair that is exchanged. -/
inductive Swapped {α : Type} (S : α → α → Prop) : List α → List α → Prop
  | nil : Swapped S [] []
  | same {x l l'} : Swapped S l l' → Swapped S (x :: l) (x :: l')
  | swap {x y} (l) : S x y → Swapped S (x :: y :: l) (y :: x :: l)
  | trans {l l' l''} : Swapped S l l' → Swapped S l' l'' → Swapped S l l''

/-- A rule that defines no variables. -/
def Style.NoDefinitions (s : Style) : Prop := ∀ d ∈ s.declaration, ∃ k v, d = .property k v

/-- Two rules that have nothing to do with each other: there is no property that both can set, directly or with a shorthand, and neither
defines variables, or one neither defines nor uses them. -/
structure Style.Apart (a b : Style) : Prop where
  values : ∀ x ∈ a.declaration, ∀ y ∈ b.declaration, ∀ vars vars' d v w, x.Sets vars d v → ¬ y.Sets vars' d w
  scopes : (a.NoDefinitions ∧ b.NoDefinitions) ∨ a.NoVariables ∨ b.NoVariables

end Verif
