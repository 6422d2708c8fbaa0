import Verif.Spec.Scope
import Mathlib.Logic.Relation
/-!
# Specification of templates and links (C26, C61)
-/
namespace Verif

/-- A binding that is the `href` of a link, with its value. -/
def hrefValue : ElementBinding → Option String
  | .none name value => if name = "href" then some value else none
  | _ => none

/-- The template a node is a link to: the last `href` of a `link` element. -/
def Html.target (c : Html) : Option String :=
  if c.tag = "link" then (c.bindings.filterMap hrefValue).getLast? else none

/-- What stands in the place of a child: for a link to a template, the template with the bindings of the
link, except its `href`, in front of its own. -/
def linkMeaning (templates : SMap Html) (c : Html) : Except RenderFail Html :=
  match c.target with
  | none => .ok c
  | some id =>
    match templates id with
    | none => .error (.templateNotFound id)
    | some t => .ok (.mk t.tag (c.bindings.filter (fun b => (hrefValue b).isNone) ++ t.bindings) t.text t.children)

/-- The `id` of a node: the last one given. -/
def Html.idOf (h : Html) : Option String :=
  (h.bindings.filterMap fun b => match b with
    | .none key value => if key = "id" then some value else none
    | _ => none).getLast?

/-- A node that defines a template: a `template` element with an id and exactly one child. -/
def Html.definition (h : Html) : Option (String × Html) :=
  if h.tag = "template" then
    match h.idOf, h.children with
    | some id, [c] => some ("#" ++ id, c)
    | _, _ => none
  else none

/-- The nodes of a document before its body. -/
def beforeBody (document : List Html) : List Html := document.takeWhile fun h => h.tag ≠ "body"

/-- The template an id stands for: the last definition before the body. -/
def templateFor (document : List Html) (id : String) : Option Html :=
  ((beforeBody document).filterMap Html.definition).reverse.lookup id

/-- Template `a` contains a link to template `b`. -/
def Refers (templates : SMap Html) (a b : String) : Prop :=
  ∃ t, templates a = some t ∧ ∃ c, t.Below c ∧ c.target = some b

/-- No template refers to itself, directly or through other templates. -/
def NoSelfReference (templates : SMap Html) : Prop :=
  ∀ a, ¬ Relation.TransGen (Refers templates) a a

end Verif
