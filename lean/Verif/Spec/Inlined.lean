import Verif.Spec.Spelled
/-!
# Specification vocabulary for C115: variables replaced by their values
-/
namespace Verif

/-- `v'` is `v` with variables replaced by the words they are known to stand for. -/
inductive Replaced (known : String → Option (List ComputedValue)) : Shorthand → Shorthand → Prop
  | nil : Replaced known [] []
  | same {d v v'} : Replaced known v v' → Replaced known (d :: v) (d :: v')
  | var {x words v v'} : known x = some words → Replaced known v v' → Replaced known (.var x :: v) (words.map .explicit ++ v')

/-- `l'` is `l` with variables replaced by the words they were last defined as in the block. -/
inductive Inlined : (String → Option (List ComputedValue)) → List Declaration → List Declaration → Prop
  | nil {known} : Inlined known [] []
  | words {known x words l l'} : Inlined (fun y => if y = x then some words else known y) l l' →
      Inlined known (.variable x (words.map .explicit) :: l) (.variable x (words.map .explicit) :: l')
  | define {known x v l l'} : Inlined (fun y => if y = x then none else known y) l l' → Inlined known (.variable x v :: l) (.variable x v :: l')
  | property {known key vs vs' l l'} : List.Forall₂ (Replaced known) vs vs' → Inlined known l l' → Inlined known (.property key vs :: l) (.property key vs' :: l')

/-- The same rule with variables that it defines replaced by their values. -/
structure Style.Inlined (s s' : Style) : Prop where
  selectors : s'.selectors = s.selectors
  declaration : Verif.Inlined (fun _ => none) s.declaration s'.declaration

end Verif
