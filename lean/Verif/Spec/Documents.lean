import Verif.Spec.Templates
import Verif.Spec.Useless
/-!
# Specification vocabulary for C106 and C107: documents that mean the same
-/
namespace Verif

/-- The templates a node needs: those its inner nodes link to, and those the inner nodes of these link to, and so on. -/
inductive Html.Needs (templates : SMap Html) (h : Html) : String → Prop
  | link {c id} : h.Below c → c.target = some id → Needs templates h id
  | through {a b} : Needs templates h a → Refers templates a b → Needs templates h b

/-- Something in a document besides its body that nothing in the body needs. -/
def Html.Unneeded (document x : Html) : Prop :=
  x.tag ≠ "body" ∧ ∀ id t, x.definition = some (id, t) → ¬ (docBody document).Needs (templateFor document.children) id

/-- The elements that cannot have children. -/
def childless : List String :=
  ["img", "input", "area", "base", "br", "col", "command", "embed", "hr", "keygen", "link", "meta", "param", "source", "track", "wbr"]

mutual
/-- The second node is the first after links inside it are replaced by what they stand for, also inside of that, and
children of elements that cannot have any are left out or changed. -/
inductive Html.Inlined (templates : SMap Html) : Html → Html → Prop
  | mk {tag bindings text children children'} : Html.InlinedAll templates children children' →
      Inlined templates (.mk tag bindings text children) (.mk tag bindings text children')
  | childless {tag bindings text children children'} : tag ∈ childless →
      Inlined templates (.mk tag bindings text children) (.mk tag bindings text children')
/-- The same for the children of a node. -/
inductive Html.InlinedAll (templates : SMap Html) : List Html → List Html → Prop
  | nil : InlinedAll templates [] []
  | same {c c' l l'} : Html.Inlined templates c c' → InlinedAll templates l l' → InlinedAll templates (c :: l) (c' :: l')
  | link {c d c' l l'} : linkMeaning templates c = .ok d → d.target = none → Html.Inlined templates d c' → InlinedAll templates l l' →
      InlinedAll templates (c :: l) (c' :: l')
end

end Verif
