import Verif.View.View
import Verif.Spec.Shape
import Verif.Spec.Tree
/-!
# Specification vocabulary for views that follow their values (C16, C18-C20)
-/
namespace Verif
open Json

/-- A document is opened and then updated with values that fit its shape. -/
structure FittingView (translate : String → String) (inline : String → Option (List Declaration))
    (tr : Transformers) (fuel : Nat) (document : Html) (s : Shape) (vs : List Json) (v0 v : View) : Prop where
  opened : openView translate inline tr fuel document = .ok v0
  shapeOk : s.Ok
  noArrArr : s.NoArrArr
  blank : HasShape s v0.vm.model
  fits : ∀ w ∈ vs, Fits s w
  reached : v0.updates inline vs = .ok v

/-- The text of a span of a text node. -/
def View.spanText (v : View) (n : NodeId) (i : Nat) : Option String :=
  (v.stage.tree.ctx n).bind fun e => e.text.bind fun tx => tx.spans[i]?

/-- A template child that is currently attached to its parent. -/
def View.displays (v : View) (parent child : NodeId) : Prop := child ∈ v.stage.tree.kids parent

/-- What a scalar place of the template is bound to, given the values so far (newest first).  Before the
first update everything is null. -/
def current (s : Shape) (p : List Tok) : List Json → Option Json
  | [] => some .null
  | w :: _ => match s.read w p with
    | some (.leaf, x) => some x
    | _ => none

/-- The place has existed without interruption since a moment at which it was bound to something that is
not null, or (if `start`) since the beginning.  Values newest first. -/
def Settled (s : Shape) (p : List Tok) (start : Prop) : List Json → Prop
  | [] => start
  | w :: ws => ∃ x, s.read w p = some (.leaf, x) ∧ (x ≠ .null ∨ Settled s p start ws)

end Verif
