import Verif.View.Whole
import Verif.Spec.Layout
import Verif.Spec.Whole
/-!
# Specification vocabulary for C78-C80: where the elements of a program are, and its pictures
-/
namespace Verif

/-- The same but for what laying out and input decide: where the element is, how much of it is seen, and whether it is
hovered, pressed or focused. -/
def SameStyled (e e' : Element) : Prop :=
  e' = { e with opacity := e'.opacity, position := e'.position, size := e'.size, contentSize := e'.contentSize, scrolling := e'.scrolling,
                clipping := e'.clipping, state := e'.state }

/-- The program has its elements and layout styles from `styled`, which is what the layout engine was given. -/
structure LaidOutFrom (styled : Styled) (a : App) : Prop where
  layouts : a.layouts = styled.layouts
  tree : Tree.Related SameStyled styled.tree a.screen.view.stage.tree

/-- Where an element is if every element is where `boxes` puts it in its parent and nothing is scrolled: the left top
corner. -/
def cornerOf (boxes : NodeId → Layout) (above : List NodeId) (n : NodeId) : Rat × Rat :=
  (((above ++ [n]).map fun m => (boxes m).x).sum, ((above ++ [n]).map fun m => (boxes m).y).sum)

/-- A point is in the rectangle of a box with the given corner. -/
def InBox (corner : Rat × Rat) (box : Layout) (q : Rat × Rat) : Prop :=
  corner.1 ≤ q.1 ∧ q.1 < corner.1 + box.width ∧ corner.2 ≤ q.2 ∧ q.2 < corner.2 + box.height

/-- The picture in an image: an element with nothing but a background. -/
def picture (c : NodeId) (src : String) : Element := { node := c, backgrounds := [{ image := some src, isSrc := true }] }

/-- The source of an image. -/
def Element.source (e : Element) : String := (e.attrs "src").getD ""

/-- The layout style of a picture: it fills the image. -/
def fillingLayout : LayoutStyle := { width := .percent 1, height := .percent 1, minWidth := .percent 1, minHeight := .percent 1 }

/-- No `#key` on this node of the template. -/
def TagFree (key : String) (h : Html) : Prop := ∀ b, ElementBinding.tag key b ∉ h.bindings

/-- There is no `#key` in the document, neither in its body nor in its templates. -/
def NoTag (p : Platform) (key : String) (document : Html) : Prop :=
  TagFree key (docBody document) ∧ EveryNode (docEnv p.translate p.inline document) (TagFree key) (docBody document)

end Verif
