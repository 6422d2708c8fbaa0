import Verif.Input.Model
import Verif.Css.Compute
/-!
# Pointing and colours in rounded arithmetic

`hovers`, `calculate_mouse_hovers` and the colour functions once more, with the result of every operation on `f32` rounded by `r`.
With `r = id` they are the functions of `Input/Model.lean` and `Css/Compute.lean`.
-/
namespace Verif

variable (r : Rat → Rat)

/-- `view_model.rs` 702-706 `hovers`, rounded. -/
def hoversIn (point : Rat × Rat) (e : Element) : Bool :=
  let x := r (point.1 - e.position.1)
  let y := r (point.2 - e.position.2)
  decide (x ≥ 0) && decide (x < e.size.1) && decide (y ≥ 0) && decide (y < e.size.2)

/-- `view_model.rs` 429-446 `calculate_mouse_hovers`, rounded. -/
def underMouseIn (t : Tree) (position : Rat × Rat) : Nat → NodeId → Except Fail (List NodeId)
  | 0, _ => .error .panic
  | depth + 1, node =>
    match t.elem node with
    | .error x => .error x
    | .ok e =>
      match concatNodes (underMouseIn t position depth) (t.kids node) with
      | .error x => .error x
      | .ok below =>
        if e.pointerEvents = .auto && e.visible && hoversIn r position e then .ok (node :: below) else .ok below

/-- `compute_function.rs` 29-36 `map_c`, rounded. -/
def mapCIn : ComputedValue → Nat
  | .zero => 0
  | .percentage v => asU8 (r (v * 255))
  | .number v => asU8 v
  | _ => 0

/-- `compute_function.rs` 39-46 `map_a`, rounded. -/
def mapAIn : ComputedValue → Nat
  | .zero => 0
  | .percentage v => asU8 (r (v * 255))
  | .number v => asU8 (r (v * 255))
  | _ => 0

/-- `compute_function.rs` 11-24: the value of a function with computed arguments, rounded. -/
def computeFunctionIn (name : String) (arguments : List ComputedValue) : ComputedValue :=
  if name = "rgb" then
    match arguments with
    | [x, g, b] => .color ⟨mapCIn r x, mapCIn r g, mapCIn r b, 255⟩
    | _ => .error
  else if name = "rgba" then
    match arguments with
    | [x, g, b, a] => .color ⟨mapCIn r x, mapCIn r g, mapCIn r b, mapAIn r a⟩
    | _ => .error
  else if name = "url" then
    match arguments with
    | [.str path] => .str path
    | _ => .error
  else .error

theorem hoversIn_id (p : Rat × Rat) (e : Element) : hoversIn id p e = hovers p e := rfl

theorem underMouseIn_id (t : Tree) (p : Rat × Rat) (depth : Nat) (n : NodeId) : underMouseIn id t p depth n = underMouse t p depth n := by
  induction depth generalizing n with
  | zero => rfl
  | succ depth ih =>
    have : underMouseIn id t p depth = underMouse t p depth := funext ih
    simp only [underMouseIn, underMouse, this, hoversIn_id]
    cases t.elem n with
    | error x => rfl
    | ok e => cases concatNodes (underMouse t p depth) (t.kids n) <;> rfl

theorem mapCIn_id (v : ComputedValue) : mapCIn id v = mapC v := by cases v <;> rfl

theorem mapAIn_id (v : ComputedValue) : mapAIn id v = mapA v := by cases v <;> rfl

theorem computeFunctionIn_id (name : String) (arguments : List ComputedValue) : computeFunctionIn id name arguments = computeFunction name arguments := by
  unfold computeFunctionIn computeFunction
  simp only [mapCIn_id, mapAIn_id]
  split
  · rcases arguments with _ | ⟨a, _ | ⟨b, _ | ⟨c, _ | ⟨d, l⟩⟩⟩⟩ <;> rfl
  · split
    · rcases arguments with _ | ⟨a, _ | ⟨b, _ | ⟨c, _ | ⟨d, _ | ⟨e, l⟩⟩⟩⟩⟩ <;> rfl
    · split
      · rcases arguments with _ | ⟨a, _ | ⟨b, l⟩⟩ <;> (try rfl) <;> cases a <;> rfl
      · rfl

end Verif
