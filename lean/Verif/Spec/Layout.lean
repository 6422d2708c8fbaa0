import Verif.View.Layout
import Verif.Spec.Tree
/-!
# Where elements are (C57-C59)
-/
namespace Verif

/-- The way from the body down to a displayed node: `above` are the nodes before it, from the body on. -/
inductive Way (t : Tree) (body : NodeId) : List NodeId → NodeId → Prop
  | body : Way t body [] body
  | down {above p c} : Way t body above p → c ∈ t.kids p → Way t body (above ++ [p]) c

/-- How far an element is scrolled. -/
def Element.scrolled (e : Element) : Rat × Rat := match e.scrolling with | some s => (s.x, s.y) | none => (0, 0)

/-- The same for a node. -/
def Tree.scrolled (t : Tree) (n : NodeId) : Rat × Rat := match t.ctx n with | some e => e.scrolled | none => (0, 0)

/-- The element is a scrolling one. -/
def Tree.scrolls (t : Tree) (n : NodeId) : Bool := match t.ctx n with | some e => e.scrolling.isSome | none => false

/-- The own opacity of an element. -/
def Tree.ownOpacity (t : Tree) (n : NodeId) : Rat := match t.ctx n with | some e => e.selfOpacity | none => 1

/-- The rectangle an element takes on the screen, with the size of its content. -/
def Element.frame (e : Element) : Layout :=
  { x := e.position.1, y := e.position.2, width := e.size.1, height := e.size.2, contentWidth := e.contentSize.1, contentHeight := e.contentSize.2 }

/-- The content is larger than the element on some axis. -/
def Layout.Overflows (l : Layout) : Prop := l.width < l.contentWidth ∨ l.height < l.contentHeight

/-- The content is at least as large as the element on both axes. -/
def Layout.Filled (l : Layout) : Prop := l.width ≤ l.contentWidth ∧ l.height ≤ l.contentHeight

/-- What may happen to the scrolling of an element: it is laid out anew in a frame, or the wheel is turned. -/
inductive ScrollEvent where
  | frame (layout : Layout)
  | wheel (by_ : Rat × Rat)

/-- One such event. -/
def scrollStep (s : Option Scrolling) : ScrollEvent → Option Scrolling
  | .frame layout => Scrolling.ensure layout s
  | .wheel w => s.map fun s => s.offset w

/-- The offset is in range: not negative and not more than the content sticks out. -/
structure Scrolling.InRange (s : Scrolling) : Prop where
  x : 0 ≤ s.x ∧ s.x ≤ s.scrollX
  y : 0 ≤ s.y ∧ s.y ≤ s.scrollY

end Verif
