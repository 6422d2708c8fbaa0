import Verif.Spec.Whole
import Verif.Spec.Look
import Verif.Spec.Reproducible
/-!
# Specification vocabulary: the inline styles of a history
-/
namespace Verif

/-- Whatever the inline styles of the elements are, at first and after each of these updates of the bindings, they are as `P`
says. Inline styles may be bound (`@style="width: {w}px"`). -/
def View.InlineStyles (inline : String → Option (List Declaration)) (P : NodeId → List Declaration → Prop) (v : View) (values : List Json) : Prop :=
  ∀ (k : Nat) (v' : View), v.updates inline (values.take k) = .ok v' → ∀ n e, v'.stage.tree.ctx n = some e → P n e.style

/-- The inline styles are smooth: all that the document has, if none is bound, or else those that the elements get from these
values. -/
def SmoothStyles (p : Platform) (used : PropertyKey → Prop) (rank : String → Nat) (document : Html) (a : App) (values : List Json) : Prop :=
  SmoothDocument p used rank document ∨ a.screen.view.InlineStyles p.inline (fun _ => SmoothBlock used rank) values

/-- The inline styles start no animations and transitions and have no list of values for a property that takes one: all that
the document has, if none is bound, or else those that the elements get from these values. -/
def PlainStyles (p : Platform) (document : Html) (a : App) (values : List Json) : Prop :=
  PlainDocument p document ∨ a.screen.view.InlineStyles p.inline (fun _ b => ∀ x ∈ b, x.Still ∧ x.Singular) values

/-- The inline styles have no list of values for a property that takes one: in the same way. -/
def UnlistedStyles (p : Platform) (document : Html) (a : App) (values : List Json) : Prop :=
  UnlistedDocument p document ∨ a.screen.view.InlineStyles p.inline (fun _ b => ∀ x ∈ b, x.Singular) values

end Verif
