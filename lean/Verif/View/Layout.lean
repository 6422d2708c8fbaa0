import Verif.View.Styling
/-!
# Positions, clipping and scrolling (`src/view.rs` 145-173, `src/styles/scrolling.rs`)

The layout solver is a parameter: `boxes n` is what it computed for node `n` (`get_final_layout`), with the
location relative to the parent.
-/
namespace Verif

/-- `scrolling.rs` 12-32 `Scrolling::ensure`. -/
def Scrolling.ensure (layout : Layout) (current : Option Scrolling) : Option Scrolling :=
  let (x, y) := match current with | some c => (c.x, c.y) | none => (0, 0)
  if layout.contentWidth > layout.width ∨ layout.contentHeight > layout.height then
    let scrollX := layout.contentWidth - layout.width
    let scrollY := layout.contentHeight - layout.height
    some { x := min x scrollX, y := min y scrollY, scrollX := scrollX, scrollY := scrollY }
  else none

/-- `f32::signum` of a number that is not zero. -/
def signum (x : Rat) : Rat := if x < 0 then -1 else 1

/-- `scrolling.rs` 34-44 `Scrolling::offset`. -/
def Scrolling.offset (s : Scrolling) (wheel : Rat × Rat) : Scrolling :=
  let s := if wheel.1 ≠ 0 then { s with x := max (min (s.x + signum wheel.1 * 50) s.scrollX) 0 } else s
  if wheel.2 ≠ 0 then { s with y := max (min (s.y - signum wheel.2 * 50) s.scrollY) 0 } else s

/-- `view.rs` 153-161: what is written to an element; `layout` is already absolute. -/
def Element.placed (e : Element) (layout : Layout) (opacity : Rat) (clipping : Option Layout) : Element :=
  { e with opacity := opacity * e.selfOpacity, position := (layout.x, layout.y), size := (layout.width, layout.height),
           contentSize := (layout.contentWidth, layout.contentHeight), scrolling := Scrolling.ensure layout e.scrolling, clipping := clipping }

/-- `view.rs` 162-167: location and clipping for the children of a placed element. -/
def Element.inner (e : Element) (layout : Layout) (clipping : Option Layout) : (Rat × Rat) × Option Layout :=
  match e.scrolling with
  | some s => ((layout.x - s.x, layout.y - s.y), some layout)
  | none => ((layout.x, layout.y), clipping)

/-- `view.rs` 145-173 `compute_final_positions_and_clipping`; `depth` bounds the depth of the tree. -/
def placeTree (boxes : NodeId → Layout) : Nat → NodeId → Rat × Rat → Rat → Option Layout → Tree → Except Trouble Tree
  | 0, _, _, _, _, _ => .error .endless
  | depth + 1, n, location, opacity, clipping, t =>
    let layout := { boxes n with x := (boxes n).x + location.1, y := (boxes n).y + location.2 }
    match t.ctx n with
    | none => .error .error
    | some e =>
      let e := e.placed layout opacity clipping
      let (location, clipping) := e.inner layout clipping
      forEach (fun t c => placeTree boxes depth c location e.opacity clipping t) (t.kids n) (t.setCtx n e)

/-- `view.rs` 141. -/
def placeView (boxes : NodeId → Layout) (depth : Nat) (body : NodeId) (t : Tree) : Except Trouble Tree :=
  placeTree boxes depth body (0, 0) 1 none t

end Verif
