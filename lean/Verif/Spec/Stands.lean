import Verif.Spec.Mirror
import Verif.Spec.Templates
/-!
# Specification of the rendered tree without scopes (C27)

`Stands` is the part of `Mirrors` that does not talk about names: which node stands for which template
node, whatever the names in the document are.
-/
namespace Verif

/-- The number of nodes of a template child: the count of a repeat, unless the child is conditional;
otherwise one. -/
def copies (c : Html) : Nat :=
  match c.asVisibility, c.asRepeat with
  | none, some (_, count, _) => count
  | _, _ => 1

/-- `nodes` stand for the template children, each for its number of copies, in order. -/
def StandsChildren (templates : SMap Html) (below : Html → NodeId → Prop) : List Html → List NodeId → Prop
  | [], nodes => nodes = []
  | c :: cs, nodes => ∃ c' group rest, linkMeaning templates c = .ok c' ∧ nodes = group ++ rest ∧
      group.length = copies c' ∧ (∀ m ∈ group, below c' m) ∧ StandsChildren templates below cs rest

/-- The node `n` stands for the template node `h`; `ctx` gives the elements. -/
def Stands (translate : String → String) (templates : SMap Html) (ctx : NodeId → Option Element) :
    Nat → Html → NodeId → Prop
  | 0, _, _ => False
  | depth + 1, h, n => ∃ e, ctx n = some e ∧ e.node = n ∧
    match h.text with
    | some spans => e.text = some ⟨spans.map (spanSource translate)⟩ ∧ e.tag = "" ∧ e.children = []
    | none => e.text = none ∧ e.tag = h.tag ∧
        (∀ key, e.attrs key = (h.bindings.filterMap (attrValue key)).getLast?) ∧
        if h.tag = "img" then ∃ c bg, e.children = [c] ∧ ctx c = some bg ∧
            bg.backgrounds.map (·.image) = [some ((e.attrs "src").getD "")] ∧ bg.children = []
        else if h.tag ∈ voidTags then e.children = []
        else StandsChildren templates (Stands translate templates ctx depth) h.children e.children

end Verif
