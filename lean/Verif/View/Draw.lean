import Verif.Spec.Display
import Verif.View.View
/-!
# Walking over a view (`src/view.rs` 445-482)
-/
namespace Verif

/-- A walk with `Fragment::children` (`view.rs` 463-482) from a fragment down, to a depth.  A fragment is
an element of the tree (`view.rs` 457-461); its children are the nodes `tree.children(element.node)` with
their elements (`unwrap`, `none` = panic or depth exceeded).  A text is a leaf. -/
def Tree.draw (t : Tree) : Nat → NodeId → Option Shown
  | 0, _ => none
  | depth + 1, n =>
    (t.ctx n).bind fun e =>
      (allOf ((t.kids e.node).map (t.draw depth))).bind fun cs =>
        match e.text, cs with
        | some tx, [] => some (.text tx.toString)
        | some _, _ :: _ => none
        | none, cs => some (.element e.tag e.attrs cs)

/-- `view.rs` 446-455 `View::body`, and the walk from there. -/
def View.draw (v : View) (depth : Nat) : Option Shown := v.stage.tree.draw depth v.body

end Verif
