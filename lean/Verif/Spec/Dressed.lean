import Verif.Spec.Inline
import Verif.Spec.Placement
/-!
# Specification vocabulary for C90: inline styles and the `style` attribute
-/
namespace Verif

/-- The inline style of the element is what its `style` attribute says, if that is not one of the texts `pending`; without the
attribute it has none. -/
def Element.Dressed (inline : String → Option (List Declaration)) (pending : String → Prop) (e : Element) : Prop :=
  (∀ text block, e.attrs "style" = some text → ¬ pending text → inline text = some block → e.style = block) ∧ (e.attrs "style" = none → e.style = [])

/-- The text of a bound attribute as long as nothing has been bound: the parts as they are, expressions in braces. -/
def unboundText (spans : List TextSpan) : String :=
  String.join (spans.map fun
    | .string s => s
    | .binder b => b.toText)

/-- As long as nothing has been bound, the texts of bound styles of the element (`@style="..."`) are among `pending`. -/
def Html.PendingStyle (pending : String → Prop) (h : Html) : Prop :=
  ∀ spans, .attribute "style" spans ∈ h.bindings → pending (unboundText spans)

/-- So for all elements of a document. -/
def PendingStyles (p : Platform) (pending : String → Prop) (document : Html) : Prop :=
  (docBody document).PendingStyle pending ∧ EveryNode (docEnv p.translate p.inline document) (Html.PendingStyle pending) (docBody document)

end Verif
