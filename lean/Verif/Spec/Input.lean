import Verif.Spec.Session
import Verif.Spec.Rules
/-!
# Specification vocabulary for input (C28-C38, C62)

A history is read off the ghost log as a list of ticks: the input events in the order they were handled,
each with the elements that were under the pointer then, and the handler names sent to elements.
-/
namespace Verif

/-- The box of an element contains a point: left and top edge included, right and bottom edge not. -/
def Inside (p : Rat × Rat) (e : Element) : Prop :=
  e.position.1 ≤ p.1 ∧ p.1 < e.position.1 + e.size.1 ∧ e.position.2 ≤ p.2 ∧ p.2 < e.position.2 + e.size.2

/-- The element of a node takes part in pointing at `p`. -/
def Pointed (t : Tree) (p : Rat × Rat) (n : NodeId) : Prop :=
  ∃ e, t.ctx n = some e ∧ e.pointerEvents = .auto ∧ e.visible = true ∧ Inside p e

/-- The displayed nodes from `n` on, in document order; `depth` bounds the depth. -/
def preorder (t : Tree) : Nat → NodeId → List NodeId
  | 0, _ => []
  | depth + 1, n => n :: (t.kids n).flatMap (preorder t depth)

/-- The listener of a node for a handler name. -/
def Tree.listener (t : Tree) (n : NodeId) (h : String) : Option Handler := (t.ctx n).bind (·.listeners h)

/-- The node has a listener for a handler name. -/
def Tree.listens (t : Tree) (h : String) (n : NodeId) : Bool := (t.listener n h).isSome

/-- What happens in a history. -/
inductive Tick where
  | input (event : InputEvent) (under : List NodeId)
  | sent (node : NodeId) (handler : String)
deriving DecidableEq

def Note.tick : Note → Tick
  | .input e u => .input e u
  | .sent n h _ _ => .sent n h

/-- The history of a screen. -/
def Ui.history (u : Ui) : List Tick := u.log.map Note.tick

/-- Feeding ticks to an automaton; `none` is rejection. -/
def accept {σ : Type} (step : σ → Tick → Option σ) : σ → List Tick → Option σ
  | s, [] => some s
  | s, x :: xs => match step s x with
    | none => none
    | some s' => accept step s' xs

/-- C29: enter (true) and leave (false) events sent to a node. -/
def crossings (n : NodeId) (l : List Tick) : List Bool :=
  l.filterMap fun x => match x with
    | .sent m h => if m = n then (if h = "onmouseenter" then some true else if h = "onmouseleave" then some false else none) else none
    | _ => none

/-- The list alternates and starts with the given value. -/
def Alternates : Bool → List Bool → Prop
  | _, [] => True
  | b, x :: xs => x = b ∧ Alternates (!b) xs

/-- C30: the state is the node that has focus: `onfocus` only when nothing has it, `onblur` only for the
node that has it. -/
def focusRule (s : Option NodeId) : Tick → Option (Option NodeId)
  | .sent n h =>
    if h = "onfocus" then (if s = none then some (some n) else none)
    else if h = "onblur" then (if s = some n then some none else none)
    else some s
  | _ => some s

/-- C33: nothing dragged, a node dragged, or just dropped. -/
inductive DragPhase where
  | idle
  | dragging (source : NodeId)
  | dropped (source : NodeId)
deriving DecidableEq

/-- C33: `ondragenter`, `ondragover`, `ondragleave` and `ondrop` only while dragging; the next thing after
`ondrop` is `ondragend` for the dragged node, and it comes nowhere else; then nothing is dragged.
`ondragstart` begins a drag. -/
def dragRule (s : DragPhase) : Tick → Option DragPhase
  | .sent n h =>
    match s with
    | .dropped source => if h = "ondragend" ∧ n = source then some .idle else none
    | .idle =>
      if h = "ondragstart" then some (.dragging n)
      else if h ∈ ["ondragenter", "ondragover", "ondragleave", "ondrop", "ondragend"] then none
      else some .idle
    | .dragging source =>
      if h = "ondragstart" then some (.dragging n)
      else if h = "ondrop" then some (.dropped source)
      else if h = "ondragend" then none
      else some (.dragging source)
  | .input _ _ => match s with | .dropped _ => none | s => some s

/-- The phase of a state of input. -/
def Ui.phase (u : Ui) : DragPhase := match u.drag with | none => .idle | some n => .dragging n

/-- C31: a button was pressed over `n` and none was released since. -/
def PressedSince (l : List Tick) (n : NodeId) : Prop :=
  ∃ before button under after, l = before ++ .input (.mouseButtonDown button) under :: after ∧ n ∈ under ∧
    ∀ b u, Tick.input (.mouseButtonUp b) u ∉ after

/-- C31: each `onclick` belongs to a left release over its node, before which the node was pressed. -/
def ClicksFollowPresses (l : List Tick) : Prop :=
  ∀ before after n, l = before ++ .sent n "onclick" :: after →
    ∃ history under sends, before = history ++ .input (.mouseButtonUp .left) under :: sends ∧
      (∀ e u, Tick.input e u ∉ sends) ∧ n ∈ under ∧ PressedSince history n

/-- Every input event of a history, with what came before it and what was sent because of it, satisfies `Q`. -/
def Segmented (Q : List Tick → InputEvent → List NodeId → List Tick → Prop) (l : List Tick) : Prop :=
  ∀ before ev under after, l = before ++ .input ev under :: after →
    ∃ sends rest, after = sends ++ rest ∧ (∀ x ∈ sends, ∃ n h, x = .sent n h) ∧
      (rest = [] ∨ ∃ e u r, rest = .input e u :: r) ∧ Q before ev under sends

/-- C31: what a release with nothing dragged sends: to every element under the pointer, innermost first,
`onmouseup`, then `onclick` if it was pressed (left button) or `oncontextmenu` (right button). -/
def ReleaseRule (before : List Tick) (ev : InputEvent) (under : List NodeId) (sends : List Tick) : Prop :=
  ∀ button, ev = .mouseButtonUp button → accept dragRule .idle before = some .idle →
    ∃ pressed : List NodeId, (∀ n, n ∈ pressed ↔ PressedSince before n) ∧
      sends = under.reverse.flatMap fun n => .sent n "onmouseup" ::
        ((if button = .left ∧ n ∈ pressed then [.sent n "onclick"] else []) ++
         (if button = .right then [.sent n "oncontextmenu"] else []))

/-- C32: a release over an element with `ondrop` ends the drag; any other leaves it as it is. -/
def DropRule (t : Tree) (before : List Tick) (ev : InputEvent) (under : List NodeId) (sends : List Tick) : Prop :=
  ∀ button, ev = .mouseButtonUp button →
    accept dragRule .idle (before ++ .input ev under :: sends) =
      if ∃ n ∈ under, t.listens "ondrop" n = true then some .idle else accept dragRule .idle before

/-- C29: the elements recorded as under the pointer are those whose last crossing was an enter. -/
def UnderRule (before : List Tick) (_ev : InputEvent) (under : List NodeId) (_sends : List Tick) : Prop :=
  ∀ n, n ∈ under ↔ (crossings n before).getLast? = some true

/-- The nodes a handler was sent to, in order. -/
def sentTo (h : String) (l : List Tick) : List NodeId :=
  l.filterMap fun x => match x with
    | .sent n k => if k = h then some n else none
    | .input _ _ => none

/-- C66: `onmousedown` and `onmouseup` go once to each element under the pointer, innermost first, and
`onmousemove` to each element the pointer is over then; they are sent at no other time. -/
def OrderRule (before : List Tick) (ev : InputEvent) (under : List NodeId) (sends : List Tick) : Prop :=
  sentTo "onmousedown" sends = (match ev with | .mouseButtonDown _ => under.reverse | _ => []) ∧
  sentTo "onmouseup" sends = (match ev with | .mouseButtonUp _ => under.reverse | _ => []) ∧
  match ev with
  | .mouseMove _ => (sentTo "onmousemove" sends).Nodup ∧ ∀ n, n ∈ sentTo "onmousemove" sends ↔
      (crossings n (before ++ .input ev under :: sends)).getLast? = some true
  | _ => sentTo "onmousemove" sends = []

/-- C30: `u` are the elements that were under the pointer at the last press. -/
def LastPress (l : List Tick) (u : List NodeId) : Prop :=
  ∃ before button after, l = before ++ .input (.mouseButtonDown button) u :: after ∧
    ∀ b v, Tick.input (.mouseButtonDown b) v ∉ after

/-- The handlers of keyboard input. -/
def keyHandler : InputEvent → Option String
  | .keyDown _ => some "onkeydown"
  | .keyUp _ => some "onkeyup"
  | .char _ => some "oninput"
  | _ => none

/-- C34: the state is the node that has focus and what is due next.  Keyboard input is followed at once by
its handler for the focused node, if there is one; these handlers are sent at no other time. -/
def keyRule (s : Option NodeId × Option (NodeId × String)) : Tick → Option (Option NodeId × Option (NodeId × String))
  | .input ev _ =>
    match s.2 with
    | some _ => none
    | none => some (s.1, (keyHandler ev).bind fun h => s.1.map fun n => (n, h))
  | .sent n h =>
    if h ∈ ["onkeydown", "onkeyup", "oninput"] then (if s.2 = some (n, h) then some (s.1, none) else none)
    else
      match s.2 with
      | some _ => none
      | none =>
        if h = "onfocus" then some (some n, none)
        else if h = "onblur" then some (none, none)
        else some (s.1, none)

/-- C36: the input event of a note. -/
def Note.event : Note → Option InputEvent
  | .input e _ => some e
  | .sent _ _ _ _ => none

/-- C36: the message of a note. -/
def Note.message (env : Emitter) : Note → Option Json
  | .input _ _ => none
  | .sent _ _ listener event => listener.map fun h => emitMessage env h event


/-- C35: the value of a callback argument: a keyword is its text, `$event` the event, and a binder the value
at its path, sent through those of its transformers that exist, left to right; nothing if the path is not in
the model. -/
def argumentValue (env : Emitter) (event : Json) : HandlerArgument → Option Json
  | .keyword k => some (.str k)
  | .event => some event
  | .binder path pipe => (env.model.pointer path).map fun v => (pipe.filterMap env.transformers).foldl (fun x f => f x) v

/-- C35: the documented shape of a message. -/
def documentedMessage (name : String) : List Json → Json
  | [] => .str name
  | [a] => .obj [(name, a)]
  | as => .obj [(name, .arr as)]

/-- C62: the last of a list of cursors that is not `auto`, else `auto`. -/
def lastCursor (l : List Pointer) : Pointer := ((l.filter (· ≠ .auto)).getLast?).getD .auto

end Verif
