import Verif.Spec.Whole
import Verif.Spec.Rules
/-!
# Specification vocabulary for C102: rules that cannot match
-/
namespace Verif

/-- `l'` is `l` with more put in anywhere, and `U` holds of everything put in. -/
inductive WithMore {α : Type} (U : α → Prop) : List α → List α → Prop
  | nil : WithMore U [] []
  | same {x l l'} : WithMore U l l' → WithMore U (x :: l) (x :: l')
  | more {x l l'} : U x → WithMore U l l' → WithMore U l (x :: l')

/-- Nothing in the view will ever meet this part of a selector: no element has the type; no element has the id, a class with the
name in it, or the attribute, and none has it bound; the pseudo class is not one of the four that exist; pseudo elements
and combinators other than `>` and `+` are not supported. -/
def Simple.Hopeless (v : View) : Simple → Prop
  | .all => False
  | .type name => ∀ n e, v.stage.tree.ctx n = some e → e.tag ≠ name
  | .root => ∀ n e, v.stage.tree.ctx n = some e → e.tag ≠ ":root"
  | .id name => ∀ n e, v.stage.tree.ctx n = some e → ¬ BindsAttr v.vm.bindings n "id" ∧ e.attrs "id" ≠ some name
  | .class name => ∀ n e, v.stage.tree.ctx n = some e → ¬ BindsAttr v.vm.bindings n "class" ∧
      ∀ text, e.attrs "class" = some text → ¬ name.toList <:+: text.toList
  | .attribute name _ _ => ∀ n e, v.stage.tree.ctx n = some e → ¬ BindsAttr v.vm.bindings n name ∧ e.attrs name = none
  | .pseudoClass name => name ∉ ["hover", "active", "checked", "focus"]
  | .pseudoElement _ => True
  | .combinator c => c ≠ '>' ∧ c ≠ '+'

/-- A rule with something hopeless in each of its selectors. (`+` is excepted as it can panic, see C40.) -/
def Style.Useless (v : View) (s : Style) : Prop := s.NoPlus ∧ ∀ sel ∈ s.selectors, ∃ x ∈ sel, x.Hopeless v

/-- Opening a document with a stylesheet and playing frames: how it fails, or the outputs and all that is kept at the end:
the elements, the bindings, the state of input, the styles given to the layout engine. -/
def played (p : Platform) (fuel fuel' : Nat) (document : Html) (css : Css) (fs : List Frame) :
    Except Halt (Screen × (NodeId → LayoutStyle) × List Output) :=
  match openApp p fuel document css with
  | .error h => .error h
  | .ok a =>
    match a.run p fuel' fs with
    | .error h => .error h
    | .ok (a', outs) => .ok (a'.screen, a'.layouts, outs)

end Verif
