import Verif.Spec.Fonts
/-!
# Specification vocabulary for C22: ids of documents
-/
namespace Verif

/-- The binding gives an id: `id="x"`, `@id="..."` or `#id="{...}"`. -/
def ElementBinding.givesId : ElementBinding → Bool
  | .none key _ => key = "id"
  | .attribute key _ => key = "id"
  | .tag key _ => key = "id"
  | _ => false

/-- At most one id, which is not a text without binding written as a bound one (`@id="x"`); a link has none besides that of
its template. -/
structure Html.OneId (h : Html) : Prop where
  once : (h.bindings.filter (·.givesId)).length ≤ 1
  proper : ∀ text, .attribute "id" [.string text] ∉ h.bindings
  links : ∀ id bs, h.asLink = some (id, bs) → ∀ b ∈ bs, b.givesId = false

/-- All elements of a document have at most one id. -/
def OneIdDocument (p : Platform) (document : Html) : Prop :=
  (docBody document).OneId ∧ EveryNode (docEnv p.translate p.inline document) Html.OneId (docBody document)

/-- The id of the element is bound to values. -/
def Element.BindsId (e : Element) : Prop := "id" ∈ e.hints.dynamicAttrs

end Verif
