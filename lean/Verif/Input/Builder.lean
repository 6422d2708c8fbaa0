import Verif.View.Whole
/-!
# Building an input (`src/input.rs` 4-41)
-/
namespace Verif

/-- The calls of the builder (`input.rs` 19-40). -/
inductive InputCall where
  | time (t : Rat)
  | viewport (v : Rat × Rat)
  | events (es : List InputEvent)
  | event (e : InputEvent)

/-- `input.rs` 19-40: what each call does. -/
def Input.call (i : Input) : InputCall → Input
  | .time t => { i with time := t }
  | .viewport v => { i with viewport := v }
  | .events es => { i with events := es }
  | .event e => { i with events := i.events ++ [e] }

/-- `input.rs` 11-17 `new`, then the calls one after the other. -/
def Input.built (calls : List InputCall) : Input := calls.foldl Input.call { time := 0, viewport := (800, 600), events := [] }

end Verif
