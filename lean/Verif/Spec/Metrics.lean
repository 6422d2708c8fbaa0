import Verif.View.Metrics
import Verif.Spec.Display
import Verif.Spec.Styling
/-!
# What the metrics should say (C86)
-/
namespace Verif

mutual
/-- How many elements and texts are shown. -/
def Shown.size : Shown → Nat
  | .text _ => 1
  | .element _ _ cs => 1 + Shown.sizes cs
def Shown.sizes : List Shown → Nat
  | [] => 0
  | s :: ss => s.size + Shown.sizes ss
end

/-- The elements whose content is not made of elements. -/
def voidElements : List String :=
  ["area", "base", "br", "col", "command", "embed", "hr", "img", "input", "keygen", "link", "meta", "param", "source", "track", "wbr"]

mutual
/-- How many of the elements shown have a style of their own: not the texts, and nothing inside of images and the like. -/
def Shown.styled : Shown → Nat
  | .text _ => 0
  | .element tag _ cs => 1 + if tag ∈ voidElements then 0 else Shown.styleds cs
def Shown.styleds : List Shown → Nat
  | [] => 0
  | s :: ss => s.styled + Shown.styleds ss
end

end Verif
