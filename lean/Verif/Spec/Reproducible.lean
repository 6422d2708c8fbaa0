import Verif.Spec.Whole
import Verif.Spec.Styling
/-!
# Specification vocabulary for C84: the same program again
-/
namespace Verif

/-- No list of values for a property that takes one value, in rules and keyframes. -/
def Css.Unlisted (css : Css) : Prop :=
  (∀ s ∈ css.styles, ∀ x ∈ s.declaration, x.Singular) ∧ ∀ name an, css.animations name = some an → ∀ k ∈ an.keyframes, ∀ x ∈ k.declaration, x.Singular

/-- The inline style of a template node is fixed and has no such list either. -/
def Html.UnlistedStyle (inline : String → Option (List Declaration)) (h : Html) : Prop :=
  ∀ b ∈ h.bindings, match b with
    | .none key value => key = "style" → ∀ ds, inline value = some ds → ∀ x ∈ ds, x.Singular
    | .attribute key _ => key ≠ "style"
    | _ => True

/-- All inline styles of a document, in its body and its templates. -/
def UnlistedDocument (p : Platform) (document : Html) : Prop :=
  (docBody document).UnlistedStyle p.inline ∧ EveryNode (docEnv p.translate p.inline document) (Html.UnlistedStyle p.inline) (docBody document)

/-- The same update, with hash maps that may be iterated in another order. -/
structure Frame.Again (f f' : Frame) : Prop where
  input : f'.input = f.input
  value : f'.value = f.value
  fair : f.order.Fair
  fair' : f'.order.Fair
  recall : f'.order.recall = f.order.recall

/-- The same update, whatever the order of its hash maps and whatever its layout engine recalls. -/
structure Frame.Repeats (f f' : Frame) : Prop where
  input : f'.input = f.input
  value : f'.value = f.value
  fair : f.order.Fair
  fair' : f'.order.Fair

end Verif
