import Verif.Spec.Useless
/-!
# Specification vocabulary for C104: rules written more than once
-/
namespace Verif

/-- `l'` is `l` with copies: after itself (`T` has to hold of what is copied), or anywhere before (`E` has to). -/
inductive Copied {α : Type} (T E : α → Prop) : List α → List α → Prop
  | nil : Copied T E [] []
  | same {x l l'} : Copied T E l l' → Copied T E (x :: l) (x :: l')
  | twice {x l l'} : T x → Copied T E l l' → Copied T E (x :: l) (x :: x :: l')
  | earlier {x l l'} : E x → x ∈ l → Copied T E l l' → Copied T E l (x :: l')

/-- No reference to a variable. -/
inductive Definition.NoVar : Definition → Prop
  | explicit (v) : NoVar (.explicit v)
  | function (name args) : (∀ a ∈ args, NoVar a) → NoVar (.function name args)

/-- A property, with all its values written out. -/
def Declaration.Literal : Declaration → Prop
  | .variable _ _ => False
  | .property _ values => ∀ v ∈ values, ∀ d ∈ v, d.NoVar

/-- A rule that neither defines nor uses variables. -/
def Style.NoVariables (s : Style) : Prop := ∀ d ∈ s.declaration, d.Literal

/-- A rule that defines its variables before its properties. -/
def Style.VariablesFirst (s : Style) : Prop :=
  ∃ defs props, s.declaration = defs ++ props ∧ (∀ d ∈ defs, ∃ k v, d = .variable k v) ∧ ∀ d ∈ props, ∃ k v, d = .property k v

end Verif
