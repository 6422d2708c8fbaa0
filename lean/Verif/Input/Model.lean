import Verif.View.View
import Verif.View.Pointer
/-!
# Input and messages (`src/view_model.rs` 238-567, 702-706; `src/input.rs`; `src/output.rs`)
-/
namespace Verif

/-- `input.rs` 53-57. -/
inductive MouseButtons where
  | left | right
deriving DecidableEq, Repr

/-- `input.rs` 41-51; a key (64-92) is its name, as serde writes it. -/
inductive InputEvent where
  | unknown
  | mouseMove (position : Rat × Rat)
  | mouseButtonDown (button : MouseButtons)
  | mouseButtonUp (button : MouseButtons)
  | mouseWheel (delta : Rat × Rat)
  | keyDown (key : String)
  | keyUp (key : String)
  | char (c : Char)
deriving DecidableEq, Repr

/-- `[f32; 2]` as serde writes it. -/
def jsonPair (p : Rat × Rat) : Json := .arr [.num (.float p.1), .num (.float p.2)]

/-- `element.rs` 312-318 `ElementState` as serde writes it into a map with sorted keys. -/
def ElementState.toJson (s : ElementState) : Json :=
  .obj [("active", .bool s.active), ("checked", .bool s.checked), ("focus", .bool s.focus), ("hover", .bool s.hover)]

/-- `view_model.rs` 552-556 `EventTarget`, as serde writes it. -/
def eventTarget (e : Element) : Json :=
  .obj [("position", jsonPair e.position), ("size", jsonPair e.size), ("state", e.state.toJson)]

/-- `view_model.rs` 522-525 `MouseEvent`. -/
def mouseEvent (position : Rat × Rat) (e : Element) : Json :=
  .obj [("position", jsonPair position), ("target", eventTarget e)]

/-- `view_model.rs` 507-510 `KeyboardEvent`. -/
def keyboardEvent (key : String) (e : Element) : Json := .obj [("key", .str key), ("target", eventTarget e)]

/-- `view_model.rs` 537-540 `TextEvent`. -/
def textEvent (c : Char) (e : Element) : Json := .obj [("char", .str (String.singleton c)), ("target", eventTarget e)]

/-- What `emit` reads of the view model: the model and the transformers. -/
structure Emitter where
  model : Json
  transformers : Transformers

/-- `view_model.rs` 469-477: missing transformers are skipped. -/
def emitPipe (tr : Transformers) : List String → Json → Json
  | [], value => value
  | name :: pipe, value =>
    match tr name with
    | some transform => emitPipe tr pipe (transform value)
    | none => emitPipe tr pipe value

/-- `view_model.rs` 452-479: the value of an argument, `none` for `continue`.  Serialising an event never
fails (trusted: serde on plain structures). -/
def emitArgument (env : Emitter) (event : Json) : HandlerArgument → Option Json
  | .keyword keyword => some (.str keyword)
  | .event => some event
  | .binder path pipe => (env.model.pointer path).map (emitPipe env.transformers pipe)

/-- `view_model.rs` 451-485: the loop over the arguments; `index` is the loop counter. -/
def emitArguments (env : Emitter) (event : Json) : List HandlerArgument → Nat → String × List Json → String × List Json
  | [], _, acc => acc
  | a :: as, index, (key, arguments) =>
    match emitArgument env event a with
    | none => emitArguments env event as (index + 1) (key, arguments)
    | some value =>
      if index = 0 then emitArguments env event as (index + 1) (value.evalString, arguments)
      else emitArguments env event as (index + 1) (key, arguments ++ [value])

/-- `view_model.rs` 449-499: the message of a listener. -/
def emitMessage (env : Emitter) (handler : Handler) (event : Json) : Json :=
  match emitArguments env event handler.arguments 0 ("Undefined", []) with
  | (key, []) => .str key
  | (key, [a]) => .obj [(key, a)]
  | (key, as) => .obj [(key, .arr as)]

/-- Ghost record: an input event that begins to be handled, with the elements under the pointer at that
time, or an `emit` (to a node, for a handler, whatever listeners the node has). -/
inductive Note where
  | input (event : InputEvent) (under : List NodeId)
  | sent (node : NodeId) (handler : String) (listener : Option Handler) (event : Json)

/-- `view_model.rs` 25-31: the state of input, and the messages of `output` (`output.rs` 6-10).  `log` is a
ghost: nothing reads it. -/
structure Ui where
  mouse : Rat × Rat := (0, 0)
  under : List NodeId := []
  inAction : List NodeId := []
  drag : Option NodeId := none
  focus : Option NodeId := none
  messages : List Json := []
  log : List Note := []

/-- `view_model.rs` 448-502 `emit`. -/
def Ui.emit (env : Emitter) (u : Ui) (node : NodeId) (e : Element) (handler : String) (event : Json) : Ui :=
  { u with
    messages := match e.listeners handler with
      | some h => u.messages ++ [emitMessage env h event]
      | none => u.messages
    log := u.log ++ [.sent node handler (e.listeners handler) event] }

/-- `emit` with `MouseEvent::new(self.mouse, element)`. -/
def Ui.emitMouse (env : Emitter) (u : Ui) (node : NodeId) (e : Element) (handler : String) : Ui :=
  u.emit env node e handler (mouseEvent u.mouse e)

/-- The tree and the state of input. -/
abbrev Desk := Tree × Ui

/-- A `for` loop over nodes with `?`. -/
def eachNode (f : Desk → NodeId → Except Fail Desk) : List NodeId → Desk → Except Fail Desk
  | [], s => .ok s
  | n :: ns, s =>
    match f s n with
    | .error x => .error x
    | .ok s => eachNode f ns s

/-- `view_model.rs` 702-706 `hovers`. -/
def hovers (point : Rat × Rat) (e : Element) : Bool :=
  let x := point.1 - e.position.1
  let y := point.2 - e.position.2
  decide (x ≥ 0) && decide (x < e.size.1) && decide (y ≥ 0) && decide (y < e.size.2)

/-- A `for` loop over nodes that pushes to a vector. -/
def concatNodes (f : NodeId → Except Fail (List NodeId)) : List NodeId → Except Fail (List NodeId)
  | [] => .ok []
  | n :: ns =>
    match f n with
    | .error x => .error x
    | .ok l =>
      match concatNodes f ns with
      | .error x => .error x
      | .ok l' => .ok (l ++ l')

/-- `view_model.rs` 429-446 `calculate_mouse_hovers`.  The first argument bounds the depth of the recursion;
running out of it is a stack overflow. -/
def underMouse (t : Tree) (position : Rat × Rat) : Nat → NodeId → Except Fail (List NodeId)
  | 0, _ => .error .panic
  | depth + 1, node =>
    match t.elem node with
    | .error x => .error x
    | .ok e =>
      match concatNodes (underMouse t position depth) (t.kids node) with
      | .error x => .error x
      | .ok below =>
        if e.pointerEvents = .auto && e.visible && hovers position e then .ok (node :: below) else .ok below

/-- `view_model.rs` 288-299: one round of the loop over the elements that were under the pointer. -/
def leaveStep (env : Emitter) (s : Desk) (node : NodeId) : Except Fail Desk :=
  if node ∈ s.2.under then .ok s
  else
    match s.1.elem node with
    | .error x => .error x
    | .ok e =>
      let e := { e with state := { e.state with hover := false } }
      let u := s.2.emitMouse env node e "onmouseleave"
      let u := if u.drag.isSome then u.emitMouse env node e "ondragleave" else u
      .ok (s.1.setCtx node e, u)

/-- `view_model.rs` 301-319: one round of the loop over the elements that are under the pointer. -/
def enterStep (env : Emitter) (previous : List NodeId) (s : Desk) (node : NodeId) : Except Fail Desk :=
  match s.1.elem node with
  | .error x => .error x
  | .ok e =>
    let e1 := if node ∈ previous then e else { e with state := { e.state with hover := true } }
    let u := if node ∈ previous then s.2 else
      let u := s.2.emitMouse env node e1 "onmouseenter"
      if u.drag.isSome then u.emitMouse env node e1 "ondragenter" else u
    let u := u.emitMouse env node e1 "onmousemove"
    let u := if u.drag.isSome then u.emitMouse env node e1 "ondragover" else u
    .ok (s.1.setCtx node e1, u)

/-- `view_model.rs` 285-320: `MouseMove`. -/
def moveMouse (env : Emitter) (body : NodeId) (position : Rat × Rat) (s : Desk) : Except Fail Desk :=
  let previous := s.2.under
  match underMouse s.1 position s.1.next body with
  | .error x => .error x
  | .ok current =>
    match eachNode (leaveStep env) previous.reverse (s.1, { s.2 with under := current }) with
    | .error x => .error x
    | .ok s => eachNode (enterStep env previous) s.2.under.reverse s

/-- `view_model.rs` 322-330: the focus is lost if it is not under the pointer. -/
def blurOutside (env : Emitter) (s : Desk) : Except Fail Desk :=
  match s.2.focus with
  | none => .ok s
  | some focus =>
    if focus ∈ s.2.under then .ok s
    else
      match s.1.elem focus with
      | .error x => .error x
      | .ok e =>
        let e := { e with state := { e.state with focus := false } }
        .ok (s.1.setCtx focus e, { s.2 with focus := none }.emitMouse env focus e "onblur")

/-- `view_model.rs` 340-347: another focus is lost. -/
def blurOther (env : Emitter) (s : Desk) (node : NodeId) : Except Fail Desk :=
  match s.2.focus with
  | none => .ok s
  | some focus =>
    if focus = node then .ok s
    else
      match s.1.elem focus with
      | .error x => .error x
      | .ok e =>
        let e := { e with state := { e.state with focus := false } }
        .ok (s.1.setCtx focus e, { s.2 with focus := none }.emitMouse env focus e "onblur")

/-- `view_model.rs` 339-354: a focus target is pressed. -/
def focusStep (env : Emitter) (s : Desk) (node : NodeId) : Except Fail Desk :=
  match blurOther env s node with
  | .error x => .error x
  | .ok s =>
    match s.1.elem node with
    | .error x => .error x
    | .ok e =>
      if s.2.focus = some node then .ok s
      else
        let e := { e with state := { e.state with focus := true } }
        .ok (s.1.setCtx node e, { s.2 with focus := some node }.emitMouse env node e "onfocus")

/-- `element.rs` 87-92 `draggable`. -/
def Element.draggable (e : Element) : Bool := e.attrs "draggable" == some "true"

/-- `view_model.rs` 333-364: one round of the loop over the pressed elements.  `element` is read again
after `focusStep`: the reference of the code points to the same entry of the tree. -/
def pressStep (env : Emitter) (button : MouseButtons) (s : Desk) (node : NodeId) : Except Fail Desk :=
  match s.1.elem node with
  | .error x => .error x
  | .ok e =>
    let e := { e with state := { e.state with active := true } }
    let s : Desk := (s.1.setCtx node e, { s.2 with inAction := s.2.inAction ++ [node] })
    match (if (e.listeners "oninput").isSome then focusStep env s node else .ok s) with
    | .error x => .error x
    | .ok s =>
      match s.1.elem node with
      | .error x => .error x
      | .ok e =>
        let u := s.2.emitMouse env node e "onmousedown"
        let u := if button = .left && e.draggable then
            { u.emitMouse env node e "ondragstart" with drag := some node }
          else u
        .ok (s.1, u)

/-- `view_model.rs` 321-365: `MouseButtonDown`. -/
def pressMouse (env : Emitter) (button : MouseButtons) (s : Desk) : Except Fail Desk :=
  match blurOutside env s with
  | .error x => .error x
  | .ok s => eachNode (pressStep env button) s.2.under.reverse s

/-- `view_model.rs` 368-394: one round of the loop over the released elements. -/
def releaseStep (env : Emitter) (button : MouseButtons) (s : Desk) (node : NodeId) : Except Fail Desk :=
  match s.1.elem node with
  | .error x => .error x
  | .ok e =>
    let u := s.2.emitMouse env node e "onmouseup"
    match u.drag with
    | some source =>
      if (e.listeners "ondrop").isSome then
        let u := { u.emitMouse env node e "ondrop" with drag := none }
        match s.1.elem source with
        | .error x => .error x
        | .ok e => .ok (s.1, u.emitMouse env source e "ondragend")
      else .ok (s.1, u)
    | none =>
      let u := if button = .left && e.state.active then u.emitMouse env node e "onclick" else u
      let u := if button = .right then u.emitMouse env node e "oncontextmenu" else u
      .ok (s.1, u)

/-- `view_model.rs` 395-398: one round of the loop that ends the active state. -/
def calmStep (s : Desk) (node : NodeId) : Except Fail Desk :=
  match s.1.elem node with
  | .error x => .error x
  | .ok e => .ok (s.1.setCtx node { e with state := { e.state with active := false } }, s.2)

/-- `view_model.rs` 366-399: `MouseButtonUp`. -/
def releaseMouse (env : Emitter) (button : MouseButtons) (s : Desk) : Except Fail Desk :=
  match eachNode (releaseStep env button) s.2.under.reverse s with
  | .error x => .error x
  | .ok s => eachNode calmStep s.2.inAction (s.1, { s.2 with inAction := [] })

/-- `view_model.rs` 401-421: keyboard input goes to the focus. -/
def keyboard (env : Emitter) (handler : String) (event : Element → Json) (s : Desk) : Except Fail Desk :=
  match s.2.focus with
  | none => .ok s
  | some node =>
    match s.1.elem node with
    | .error x => .error x
    | .ok e => .ok (s.1, s.2.emit env node e handler (event e))

/-- `view_model.rs` 282-424: one event of `handle_elements_input`. -/
def handleEvent (env : Emitter) (body : NodeId) (s : Desk) (event : InputEvent) : Except Fail Desk :=
  let s : Desk := (s.1, { s.2 with log := s.2.log ++ [.input event s.2.under] })
  match event with
  | .unknown => .ok s
  | .mouseMove position => moveMouse env body position s
  | .mouseButtonDown button => pressMouse env button s
  | .mouseButtonUp button => releaseMouse env button s
  | .mouseWheel _ => .ok s
  | .keyDown key => keyboard env "onkeydown" (keyboardEvent key) s
  | .keyUp key => keyboard env "onkeyup" (keyboardEvent key) s
  | .char c => keyboard env "oninput" (textEvent c) s

/-- `view_model.rs` 278-427 `handle_elements_input`. -/
def handleEvents (env : Emitter) (body : NodeId) : List InputEvent → Desk → Except Fail Desk
  | [], s => .ok s
  | event :: events, s =>
    match handleEvent env body s event with
    | .error x => .error x
    | .ok s => handleEvents env body events s

/-- `output.rs` 6-10 `Output`. -/
structure Output where
  captured : Bool
  pointer : Pointer
  messages : List Json

/-- `view_model.rs` 245-253: the last position of the batch. -/
def lastMove : List InputEvent → Option (Rat × Rat)
  | [] => none
  | .mouseMove p :: es => some ((lastMove es).getD p)
  | _ :: es => lastMove es

/-- `view_model.rs` 262-270: the pointer shape. -/
def pointerShape (t : Tree) : List NodeId → Pointer → Pointer
  | [], p => p
  | n :: ns, p =>
    match t.ctx n with
    | some e => pointerShape t ns (if e.pointer = .auto then p else e.pointer)
    | none => pointerShape t ns p

/-- `view_model.rs` 238-273 `handle_output`. -/
def handleOutput (env : Emitter) (body : NodeId) (events : List InputEvent) (s : Desk) :
    Except Fail (Desk × Output) :=
  let mouse := (lastMove events).getD s.2.mouse
  let events := if (lastMove events).isSome then events else .mouseMove mouse :: events
  match handleEvents env body events (s.1, { s.2 with mouse := mouse, messages := [] }) with
  | .error x => .error x
  | .ok (t, u) =>
    .ok ((t, { u with messages := [] }),
      ⟨!u.under.isEmpty || u.drag.isSome || u.focus.isSome || !u.inAction.isEmpty, pointerShape t u.under .auto, u.messages⟩)

end Verif
