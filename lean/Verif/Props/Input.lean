import Verif.Input.Batches
import Verif.Input.Eval
/-!
# Input, messages and the reported cursor (C28-C38, C62, C66)

All theorems are about every session: any document that opens, any updates with any values, any styling and
layout in between, any events.
-/
namespace Verif

variable {translate : String → String} {inline : String → Option (List Declaration)} {tr : Transformers}
  {fuel : Nat} {document : Html}

/-! ## C28 -/

theorem lastMove_last {events a b : List InputEvent} {p} (h : events = a ++ .mouseMove p :: b) (hb : ∀ q, .mouseMove q ∉ b) :
    lastMove events = some p := by
  have hn : lastMove b = none := by
    clear h
    induction b with
    | nil => rfl
    | cons x b ih =>
      rw [lastMove_cons, ih (fun q hq => hb q (by simp [hq]))]
      cases x with
      | mouseMove q => exact absurd (by simp) (hb q)
      | _ => rfl
  rw [h, lastMove_append, lastMove_cons, hn]; simp

theorem lastMove_none {events : List InputEvent} (h : ∀ p, .mouseMove p ∉ events) : lastMove events = none := by
  induction events with
  | nil => rfl
  | cons x b ih =>
    rw [lastMove_cons, ih (fun q hq => h q (by simp [hq]))]
    cases x with
    | mouseMove q => exact absurd (by simp) (h q)
    | _ => rfl

theorem mem_pointedAt {t : Tree} {root body : NodeId} (hw : t.Wf root body) (p : Rat × Rat) (n : NodeId) :
    n ∈ t.pointedAt body p ↔ Displayed t body n ∧ Pointed t p n := by
  unfold Tree.pointedAt
  rw [List.mem_filter, pointedB_iff, preorder_mem hw t.next body (body_isSome hw) (by unfold NodeId; omega)]

/-- C28: after every update the elements in hover state are exactly the displayed ones that are visible,
accept pointer events and whose box contains the pointer; the pointer is where the last mouse move of the
batch put it, or where it was. -/
theorem C28_hover_exact {s s' : Screen} (h : Session translate inline tr fuel document s) {value : Json}
    {events : List InputEvent} {out : Output} (hu : s.Updates inline value events s' out) :
    (∀ n e, s'.view.stage.tree.ctx n = some e →
      (e.state.hover = true ↔
        Displayed s'.view.stage.tree s'.view.body n ∧ Pointed s'.view.stage.tree s'.ui.mouse n)) ∧
    (∀ a p b, events = a ++ .mouseMove p :: b → (∀ q, .mouseMove q ∉ b) → s'.ui.mouse = p) ∧
    ((∀ p, .mouseMove p ∉ events) → s'.ui.mouse = s.ui.mouse) := by
  obtain ⟨h1, h2⟩ := updates_ok h hu
  refine ⟨fun n e he => ?_, fun a p b he hb => ?_, fun hn => ?_⟩
  · rw [h1.standing.hov.hover n e he, h2.under]
    exact mem_pointedAt h1.standing.wf _ _
  · rw [h2.mouse, lastMove_last he hb]; rfl
  · rw [h2.mouse, lastMove_none hn]; rfl

/-- C28, inside a batch: what an event of an update finds under the pointer is what is displayed, visible and
accepts pointer events at the position of the last move handled before it in this update (there is one
before every event but the first, unless the host sent some before its first move). -/
theorem C28_under_pointer_in_batch {s s' : Screen} (h : Session translate inline tr fuel document s) {value : Json}
    {events : List InputEvent} {out : Output} (hu : s.Updates inline value events s' out) :
    ∃ L : List Note, s'.ui.log = s.ui.log ++ L ∧
      ∀ a p mid ev u b w, L = a ++ .input (.mouseMove p) w :: mid ++ .input ev u :: b →
        (∀ q v, .input (.mouseMove q) v ∉ mid) →
        ∀ n, n ∈ u ↔ Displayed s'.view.stage.tree s'.view.body n ∧ Pointed s'.view.stage.tree p n := by
  obtain ⟨h1, h2⟩ := updates_ok h hu
  obtain ⟨L, l1, -, -, l4⟩ := h2.emits
  refine ⟨L, l1, fun a p mid ev u b w heq hmid n => ?_⟩
  have hl : lastMove ((a ++ .input (.mouseMove p) w :: mid).filterMap Note.event) = some p := by
    rw [List.filterMap_append, List.filterMap_cons_some (show Note.event (.input (.mouseMove p) w) = some (.mouseMove p) from rfl)]
    refine lastMove_last rfl fun q hq => ?_
    obtain ⟨x, hx, hx'⟩ := List.mem_filterMap.1 hq
    cases x with
    | input e v => simp only [Note.event, Option.some.injEq] at hx'; subst hx'; exact hmid q v hx
    | sent _ _ _ _ => simp [Note.event] at hx'
  have := l4 (a ++ .input (.mouseMove p) w :: mid) ev u b heq
  rw [hl] at this
  rw [this]
  exact mem_pointedAt h1.standing.wf _ _

/-! ## C29 -/

theorem last_crossing {s : Desk} {root body} (h : Standing root body s) (n : NodeId) :
    n ∈ s.2.under ↔ (crossings n s.2.history).getLast? = some true := by
  obtain ⟨b, c1, c2⟩ := h.hov.cross n
  have c3 := (crossings_alternate n _ _ _ c1).2
  rw [← c2, c3]
  cases (crossings n s.2.history).getLast? <;> simp

/-- C29: the enter and leave events sent to an element alternate, starting with enter, and the element is in
hover state exactly if the last of them was an enter. -/
theorem C29_enter_leave_alternate {s : Screen} (h : Session translate inline tr fuel document s) (n : NodeId) :
    Alternates true (crossings n s.ui.history) ∧
    ∀ e, s.view.stage.tree.ctx n = some e →
      (e.state.hover = true ↔ (crossings n s.ui.history).getLast? = some true) := by
  have hs := session_ok h
  obtain ⟨b, c1, -⟩ := hs.standing.hov.cross n
  refine ⟨(crossings_alternate n _ _ _ c1).1, fun e he => ?_⟩
  rw [hs.standing.hov.hover n e he]
  exact last_crossing hs.standing n

/-- C29: also at each single event, the elements under the pointer are those entered and not left since. -/
theorem C29_under_is_entered {s : Screen} (h : Session translate inline tr fuel document s) :
    Segmented UnderRule s.ui.history := (session_ok h).recorded.unders

/-! ## C30 -/

/-- C30: at most one element has focus; `onfocus` and `onblur` are properly paired over the whole history
(`focusRule`), and the focused element is the one the pairing says. -/
theorem C30_one_focus {s : Screen} (h : Session translate inline tr fuel document s) :
    (∀ n m e e', s.view.stage.tree.ctx n = some e → s.view.stage.tree.ctx m = some e' →
      e.state.focus = true → e'.state.focus = true → n = m) ∧
    ∃ f, accept focusRule none s.ui.history = some f ∧
      ∀ n e, s.view.stage.tree.ctx n = some e → (e.state.focus = true ↔ f = some n) := by
  have hs := (session_ok h).standing.calm
  refine ⟨fun n m e e' h1 h2 h3 h4 => ?_, s.ui.focus, hs.focusRun, hs.focus⟩
  have a := (hs.focus n e h1).1 h3
  have b := (hs.focus m e' h2).1 h4
  rw [a] at b
  exact Option.some.inj b

/-- C30: which element has focus: the first in document order (so the outermost) of those under the pointer
at the last press that listen to input; none before the first press. -/
theorem C30_focus_target {s : Screen} (h : Session translate inline tr fuel document s) :
    (∀ under, LastPress s.ui.history under → ∀ n e, s.view.stage.tree.ctx n = some e →
      (e.state.focus = true ↔ under.find? (s.view.stage.tree.listens "oninput") = some n)) ∧
    ((∀ b u, Tick.input (.mouseButtonDown b) u ∉ s.ui.history) → ∀ n e, s.view.stage.tree.ctx n = some e →
      e.state.focus = false) := by
  have hs := session_ok h
  refine ⟨fun u hu n e he => ?_, fun hn n e he => ?_⟩
  · rw [hs.standing.calm.focus n e he, ← hs.recorded.lastPress u hu]
  · have := hs.standing.calm.focus n e he
    rw [hs.recorded.noPress hn] at this
    simpa using this

/-! ## C31 -/

/-- C31: an `onclick` is sent to an element only on a left release over it and only if a button was pressed
over it since the previous release; an element is active exactly from a press over it to the next release. -/
theorem C31_click_needs_press {s : Screen} (h : Session translate inline tr fuel document s) :
    ClicksFollowPresses s.ui.history ∧
    ∀ n e, s.view.stage.tree.ctx n = some e → (e.state.active = true ↔ PressedSince s.ui.history n) := by
  have hs := session_ok h
  exact ⟨hs.standing.clicks, fun n e he => by
    rw [hs.standing.calm.active n e he]; exact hs.standing.pressed n⟩

/-- C31, the other direction: with nothing dragged a left release clicks every pressed element under the
pointer, and a right release opens the context menu of every element under the pointer, innermost first. -/
theorem C31_release_sends {s : Screen} (h : Session translate inline tr fuel document s) :
    Segmented ReleaseRule s.ui.history := (session_ok h).recorded.releases

/-! ## C32, C33 -/

/-- C32 (part): a release over an element with `ondrop` ends the drag; any other release leaves the drag as
it was.  Missing: releases elsewhere, which do not end it: `C32_drag_survives_release`. -/
theorem C32_drop_ends_drag_partial {s : Screen} (h : Session translate inline tr fuel document s) :
    Segmented (DropRule s.view.stage.tree) s.ui.history := (session_ok h).recorded.drops

/-- C33: the drag events of the whole history follow `dragRule`, and the state it ends in tells whether a
drag is in progress. -/
theorem C33_drag_lifecycle {s : Screen} (h : Session translate inline tr fuel document s) :
    ∃ phase, accept dragRule .idle s.ui.history = some phase ∧
      (phase = .idle ∧ s.ui.drag = none ∨ ∃ n, phase = .dragging n ∧ s.ui.drag = some n) := by
  refine ⟨s.ui.phase, (session_ok h).standing.calm.dragRun, ?_⟩
  unfold Ui.phase
  cases s.ui.drag with
  | none => exact .inl ⟨rfl, rfl⟩
  | some n => exact .inr ⟨n, rfl, rfl⟩

/-! ## C34 -/

/-- C34: keyboard input is handed, at once and only, to the element that has focus (`keyRule` over the whole
history), and a message is produced exactly for what the element listens to. -/
theorem C34_keys_to_focus {s : Screen} (h : Session translate inline tr fuel document s) :
    (∃ f, accept keyRule (none, none) s.ui.history = some (f, none) ∧
      ∀ n e, s.view.stage.tree.ctx n = some e → (e.state.focus = true ↔ f = some n)) ∧
    ∀ n k l event, Note.sent n k l event ∈ s.ui.log → l = s.view.stage.tree.listener n k := by
  have hs := session_ok h
  exact ⟨⟨s.ui.focus, hs.recorded.keyRun, hs.standing.calm.focus⟩, hs.recorded.honest⟩

/-! ## C35 -/

theorem emitPipe_fold (tr : Transformers) (pipe : List String) (v : Json) :
    emitPipe tr pipe v = (pipe.filterMap tr).foldl (fun x f => f x) v := by
  induction pipe generalizing v with
  | nil => rfl
  | cons name pipe ih =>
    simp only [emitPipe]
    cases hn : tr name with
    | none => rw [List.filterMap_cons_none hn]; exact ih v
    | some f => rw [List.filterMap_cons_some hn]; exact ih (f v)

theorem emitArgument_value (env : Emitter) (event : Json) (a : HandlerArgument) :
    emitArgument env event a = argumentValue env event a := by
  cases a with
  | keyword k => rfl
  | event => rfl
  | binder p q =>
    simp only [emitArgument, argumentValue]
    congr 1
    funext v
    exact emitPipe_fold ..

theorem emitArguments_rest (env : Emitter) (event : Json) (as : List HandlerArgument) (i : Nat) (key : String) (l : List Json) :
    emitArguments env event as (i + 1) (key, l) = (key, l ++ as.filterMap (argumentValue env event)) := by
  induction as generalizing i l with
  | nil => simp [emitArguments]
  | cons a as ih =>
    simp only [emitArguments, emitArgument_value]
    cases ha : argumentValue env event a with
    | none => rw [List.filterMap_cons_none ha]; exact ih (i + 1) l
    | some v =>
      rw [List.filterMap_cons_some ha]
      simp only [Nat.add_one_ne_zero, if_false]
      rw [ih (i + 1)]; simp

theorem documented_match (key : String) (l : List Json) :
    (match (key, l) with
      | (key, []) => Json.str key
      | (key, [a]) => .obj [(key, a)]
      | (key, as) => .obj [(key, .arr as)]) = documentedMessage key l := by
  match l with
  | [] => rfl
  | [a] => rfl
  | a :: b :: c => rfl

/-- C35: the message of a listener: its keyword with the values of the arguments that resolve, in order. -/
theorem C35_message_shape (env : Emitter) (name : String) (rest : List HandlerArgument) (event : Json) :
    emitMessage env ⟨.keyword name :: rest⟩ event =
      documentedMessage name (rest.filterMap (argumentValue env event)) := by
  unfold emitMessage
  simp only [emitArguments, emitArgument, if_true]
  rw [emitArguments_rest]
  simp only [List.nil_append]
  exact documented_match ..

/-- C35, other first arguments: the text of the value is the name; if it does not resolve the name is
`Undefined` and nothing else changes. -/
theorem C35_dynamic_name (env : Emitter) (first : HandlerArgument) (rest : List HandlerArgument) (event : Json) :
    emitMessage env ⟨first :: rest⟩ event =
      documentedMessage (((argumentValue env event first).map Json.evalString).getD "Undefined")
        (rest.filterMap (argumentValue env event)) := by
  unfold emitMessage
  simp only [emitArguments, emitArgument_value]
  cases argumentValue env event first with
  | none => simp only [Option.map_none, Option.getD_none]; rw [emitArguments_rest]; simp only [List.nil_append]; exact documented_match ..
  | some v => simp only [if_true, Option.map_some, Option.getD_some]; rw [emitArguments_rest]; simp only [List.nil_append]; exact documented_match ..

/-! ## C36 -/

/-- C36: the messages of an update are those of the handlers sent during this update, in order; the events
handled are those of the batch, in order, after a move to the old position if the batch has no move.
Handlers are sent to what listens, and nothing waits for the next update. -/
theorem C36_messages_of_update {s s' : Screen} (h : Session translate inline tr fuel document s) {value : Json}
    {events : List InputEvent} {out : Output} (hu : s.Updates inline value events s' out) :
    ∃ L : List Note, s'.ui.log = s.ui.log ++ L ∧
      out.messages = L.filterMap (Note.message s'.view.emitter) ∧
      (∀ n k l event, Note.sent n k l event ∈ L → l = s'.view.stage.tree.listener n k) ∧
      ((∃ p, .mouseMove p ∈ events) → L.filterMap Note.event = events) ∧
      ((∀ p, .mouseMove p ∉ events) → L.filterMap Note.event = .mouseMove s.ui.mouse :: events) ∧
      s'.ui.messages = [] := by
  obtain ⟨h1, h2⟩ := updates_ok h hu
  obtain ⟨L, l1, l2, l3, -⟩ := h2.emits
  refine ⟨L, l1, l2, fun n k l j hm => h1.recorded.honest n k l j (by simp only [l1]; simp [hm]), fun ⟨p, hp⟩ => ?_, fun hn => ?_, h2.waiting⟩
  · rw [l3, lastMove_isSome hp]; rfl
  · rw [l3, lastMove_none hn]; rfl

/-- C36 (part): handling two batches, both with a mouse move, at once is handling one after the other (in
two updates with the same value and styling): same tree and states, same cursor and capture, the same
handlers sent to the same elements in the same order, as many messages, and the same messages if no listener
passes on the event.  Missing: events carry the last position of their batch, and a batch without a move is
given one (`C36_batch_matters`). -/
theorem C36_split_batch_partial {s s' : Screen} (h : Session translate inline tr fuel document s) {value : Json}
    (hv : WfJson value) {a b : List InputEvent} {out : Output} (ha : ∃ p, .mouseMove p ∈ a) (hb : ∃ p, .mouseMove p ∈ b)
    (hu : s.Updates inline value (a ++ b) s' out) :
    ∃ s1 o1 s2 o2, s.Updates inline value a s1 o1 ∧ s1.Updates inline value b s2 o2 ∧
      s'.view = s2.view ∧ s'.ui.mouse = s2.ui.mouse ∧ s'.ui.under = s2.ui.under ∧ s'.ui.inAction = s2.ui.inAction ∧
      s'.ui.drag = s2.ui.drag ∧ s'.ui.focus = s2.ui.focus ∧ s'.ui.history = s2.ui.history ∧
      out.captured = o2.captured ∧ out.pointer = o2.pointer ∧
      out.messages.length = o1.messages.length + o2.messages.length ∧
      ((∀ n k l, s'.view.stage.tree.listener n k = some l → .event ∉ l.arguments) → out.messages = o1.messages ++ o2.messages) := by
  obtain ⟨s1, o1, s2, o2, h1, h2, h3, h4, h5, h6, h7, h8, h9⟩ := updates_split h hv
    (lastMove_isSome ha.choose_spec) (lastMove_isSome hb.choose_spec) hu
  refine ⟨s1, o1, s2, o2, h1, h2, h3, h4, h5.under, h5.inAction, h5.drag, h5.focus, ?_, h6, h7, h8, h9⟩
  have := congrArg (List.map (fun x : Tick × Option Handler => x.1)) h5.log
  have key : ∀ u : Ui, (u.log.map Note.key).map (fun x => x.1) = u.history := by
    intro u
    unfold Ui.history
    rw [List.map_map]
    congr 1
    funext x
    cases x <;> rfl
  rw [key, key] at this
  exact this

/-! ## C37 -/

/-- C37: input is not captured exactly when no element is hovered, focused or active and nothing is dragged. -/
theorem C37_captured {s s' : Screen} (h : Session translate inline tr fuel document s) {value : Json}
    {events : List InputEvent} {out : Output} (hu : s.Updates inline value events s' out) :
    out.captured = false ↔
      (∀ n e, s'.view.stage.tree.ctx n = some e →
        e.state.hover = false ∧ e.state.focus = false ∧ e.state.active = false) ∧
      accept dragRule .idle s'.ui.history = some .idle := by
  obtain ⟨h1, h2⟩ := updates_ok h hu
  have hs := h1.standing
  rw [h2.captured, hs.calm.dragRun]
  simp only [Bool.or_eq_false_iff, Bool.not_eq_false', List.isEmpty_iff, Option.some.injEq, Option.isSome_eq_false_iff,
    Option.isNone_iff_eq_none]
  constructor
  · rintro ⟨⟨⟨a1, a2⟩, a3⟩, a4⟩
    refine ⟨fun n e he => ⟨?_, ?_, ?_⟩, by simp [Ui.phase, a2]⟩
    · have := hs.hov.hover n e he; simpa [a1] using this
    · have := hs.calm.focus n e he; simpa [a3] using this
    · have := hs.calm.active n e he; simpa [a4] using this
  · rintro ⟨a, b⟩
    have get : ∀ n, (s'.view.stage.tree.ctx n).isSome = true → ∃ e, s'.view.stage.tree.ctx n = some e :=
      fun n hn => Option.isSome_iff_exists.1 hn
    refine ⟨⟨⟨?_, ?_⟩, ?_⟩, ?_⟩
    · rw [List.eq_nil_iff_forall_not_mem]
      intro n hn
      obtain ⟨e, he⟩ := get n (hs.ex n hn)
      have := (hs.hov.hover n e he).2 hn
      rw [(a n e he).1] at this; simp at this
    · cases hd : s'.ui.drag with
      | none => rfl
      | some n => simp [Ui.phase, hd] at b
    · cases hf : s'.ui.focus with
      | none => rfl
      | some n =>
        obtain ⟨e, he⟩ := get n (hs.calm.focusEx n hf)
        have := (hs.calm.focus n e he).2 hf
        rw [(a n e he).2.1] at this; simp at this
    · rw [List.eq_nil_iff_forall_not_mem]
      intro n hn
      obtain ⟨e, he⟩ := get n (hs.calm.actEx n hn)
      have := (hs.calm.active n e he).2 hn
      rw [(a n e he).2.2] at this; simp at this

/-! ## C38 -/

/-- C38: whenever the bindings of a session are updated and the tree is styled in any way, input handling
succeeds for any events. -/
theorem C38_input_total {s : Screen} (h : Session translate inline tr fuel document s) {value : Json} {v : View}
    (hv : s.view.update inline value = .ok v) {t : Tree} (ht : Restyled v.stage.tree t) (events : List InputEvent) :
    ∃ s' out, handleOutput v.emitter v.body events (t, s.ui) = .ok ((s'.view.stage.tree, s'.ui), out) ∧
      s.Updates inline value events s' out := by
  obtain ⟨t', u, out, h1, -, -⟩ := session_update (session_ok h) hv ht events
  exact ⟨⟨{ v with stage := { v.stage with tree := t' } }, u⟩, out, h1, v, t, t', u, hv, ht, h1, rfl⟩

/-! ## C62 -/

theorem pointerShape_last (t : Tree) (l : List NodeId) (p : Pointer) (h : ∀ n ∈ l, (t.ctx n).isSome) :
    pointerShape t l p = (((l.filterMap fun n => (t.ctx n).map (·.pointer)).filter (· ≠ .auto)).getLast?).getD p := by
  induction l generalizing p with
  | nil => rfl
  | cons n l ih =>
    obtain ⟨e, he⟩ := Option.isSome_iff_exists.1 (h n (by simp))
    simp only [pointerShape, he]
    rw [ih _ (fun m hm => h m (by simp [hm]))]
    rw [List.filterMap_cons_some (b := e.pointer) (by simp [he])]
    by_cases hp : e.pointer = .auto
    · simp [hp]
    · rw [if_neg hp, List.filter_cons_of_pos (by simp [hp]), List.getLast?_cons]
      simp

/-- C62: the reported cursor is the last one, in document order, that a displayed element under the pointer
declares, else `auto`. -/
theorem C62_pointer_shape {s s' : Screen} (h : Session translate inline tr fuel document s) {value : Json}
    {events : List InputEvent} {out : Output} (hu : s.Updates inline value events s' out) :
    ∃ under : List NodeId, under.Sublist (preorder s'.view.stage.tree s'.view.stage.tree.next s'.view.body) ∧
      (∀ n, n ∈ under ↔ Displayed s'.view.stage.tree s'.view.body n ∧ Pointed s'.view.stage.tree s'.ui.mouse n) ∧
      out.pointer = lastCursor (under.filterMap fun n => (s'.view.stage.tree.ctx n).map (·.pointer)) := by
  obtain ⟨h1, h2⟩ := updates_ok h hu
  refine ⟨s'.view.stage.tree.pointedAt s'.view.body s'.ui.mouse, List.filter_sublist,
    mem_pointedAt h1.standing.wf s'.ui.mouse, ?_⟩
  rw [h2.pointer, h2.under]
  exact pointerShape_last _ _ _ (h2.under ▸ h1.standing.ex)

/-! ## C66 -/

/-- C66: `onmousedown`, `onmouseup` and `onmousemove` go once to each element under the pointer, innermost
first for presses and releases, and are sent at no other time. -/
theorem C66_pointer_order {s : Screen} (h : Session translate inline tr fuel document s) :
    Segmented OrderRule s.ui.history := (session_ok h).recorded.order

/-! ## Witnesses -/

/-- A draggable element and an element with text input inside the body; the second has a nested one. -/
def deskDoc : Html := .mk "" [] none [.mk "body" [] none [
  .mk "div" [.none "draggable" "true", .callback "onclick" [.keyword "Go"]] none [],
  .mk "div" [.callback "oninput" [.keyword "Type", .event], .callback "onmousemove" [.keyword "Move"]] none
    [.mk "p" [.callback "ondrop" [.keyword "Drop"], .callback "onclick" [.keyword "In"]] none []]]]

/-- Body (node 1) 100x100 at the origin, node 2 left, node 3 right with node 4 inside. -/
def deskBoxes : Boxes := fun n =>
  if n = 1 then ((0, 0), (100, 100)) else if n = 2 then ((0, 0), (50, 100))
  else if n = 3 then ((50, 0), (50, 100)) else if n = 4 then ((60, 10), (20, 20)) else ((0, 0), (0, 0))

def deskPlay (events : List InputEvent) : Play := ⟨.obj [], deskBoxes, events⟩

/-- Clicking the left element, then the inner one: hover, focus, active states and messages. -/
example : ∃ s s' out, Session id (fun _ => none) (fun _ => none) 20 deskDoc s ∧
    s.Updates (fun _ => none) (.obj []) [.mouseMove (65, 15), .mouseButtonDown .left] s' out ∧
    s'.ui.under = [1, 3, 4] ∧ s'.ui.focus = some 3 ∧ s'.ui.inAction = [4, 3, 1] ∧ out.captured = true ∧
    out.messages = [.str "Move"] ∧ crossings 4 s'.ui.history = [true] := by
  obtain ⟨s, s', out, h1, h2, -, h4⟩ := checkSession_sound (doc := deskDoc)
    (xs := [deskPlay [.mouseMove (10, 10), .mouseButtonDown .right, .mouseButtonUp .right]])
    (x := deskPlay [.mouseMove (65, 15), .mouseButtonDown .left])
    (P := fun _ s' out => decide (s'.ui.under = [1, 3, 4] ∧ s'.ui.focus = some 3 ∧ s'.ui.inAction = [4, 3, 1] ∧
      out.captured = true ∧ out.messages = [.str "Move"] ∧ crossings 4 s'.ui.history = [true])) (by decide +kernel)
  exact ⟨s, s', out, h1, h2, by simpa using h4⟩

/-- A drag of the left element, dropped on the inner one: what is sent, in order; then the pointer leaves and
nothing is captured any more once the focus is gone. -/
example : ∃ s s' out, Session id (fun _ => none) (fun _ => none) 20 deskDoc s ∧
    s.Updates (fun _ => none) (.obj []) [.mouseMove (200, 200)] s' out ∧
    s.ui.history.filterMap (fun x => match x with | .sent n h => some (n, h) | _ => none) =
      [(2, "onmouseenter"), (2, "onmousemove"), (1, "onmouseenter"), (1, "onmousemove"),
       (2, "onmousedown"), (2, "ondragstart"), (1, "onmousedown"),
       (2, "onmouseleave"), (2, "ondragleave"),
       (4, "onmouseenter"), (4, "ondragenter"), (4, "onmousemove"), (4, "ondragover"),
       (3, "onmouseenter"), (3, "ondragenter"), (3, "onmousemove"), (3, "ondragover"),
       (1, "onmousemove"), (1, "ondragover"),
       (4, "onmouseup"), (4, "ondrop"), (2, "ondragend"), (3, "onmouseup"), (1, "onmouseup"), (1, "onclick")] ∧
    out.captured = false ∧ out.messages = [] ∧ out.pointer = .auto := by
  obtain ⟨s, s', out, h1, h2, -, h4⟩ := checkSession_sound (doc := deskDoc)
    (xs := [deskPlay [.mouseMove (10, 10), .mouseButtonDown .left, .mouseMove (65, 15), .mouseButtonUp .left]])
    (x := deskPlay [.mouseMove (200, 200)])
    (P := fun s _ out => decide (s.ui.history.filterMap (fun x => match x with | .sent n h => some (n, h) | _ => none) =
      [(2, "onmouseenter"), (2, "onmousemove"), (1, "onmouseenter"), (1, "onmousemove"),
       (2, "onmousedown"), (2, "ondragstart"), (1, "onmousedown"),
       (2, "onmouseleave"), (2, "ondragleave"),
       (4, "onmouseenter"), (4, "ondragenter"), (4, "onmousemove"), (4, "ondragover"),
       (3, "onmouseenter"), (3, "ondragenter"), (3, "onmousemove"), (3, "ondragover"),
       (1, "onmousemove"), (1, "ondragover"),
       (4, "onmouseup"), (4, "ondrop"), (2, "ondragend"), (3, "onmouseup"), (1, "onmouseup"), (1, "onclick")] ∧
      out.captured = false ∧ out.messages = [] ∧ out.pointer = .auto)) (by decide +kernel)
  exact ⟨s, s', out, h1, h2, by simpa using h4⟩

/-- Finding for C32: a drag that is released where nothing listens to `ondrop` goes on, and a later click on
the left element (pressed and released over it) is not reported. -/
theorem C32_drag_survives_release : ∃ s s' out, Session id (fun _ => none) (fun _ => none) 20 deskDoc s ∧
    s.Updates (fun _ => none) (.obj []) [.mouseButtonUp .left] s' out ∧
    PressedSince s.ui.history 2 ∧ s'.ui.under = [1, 2] ∧ out.messages = [] ∧ s'.ui.drag = some 2 ∧
    s'.view.stage.tree.listens "onclick" 2 = true := by
  obtain ⟨s, s', out, h1, h2, -, h4⟩ := checkSession_sound (doc := deskDoc)
    (xs := [deskPlay [.mouseMove (10, 10), .mouseButtonDown .left, .mouseButtonUp .left, .mouseButtonDown .left]])
    (x := deskPlay [.mouseButtonUp .left])
    (P := fun s s' out => decide (2 ∈ s.ui.inAction ∧ s'.ui.under = [1, 2] ∧ out.messages = [] ∧
      s'.ui.drag = some 2 ∧ s'.view.stage.tree.listens "onclick" 2 = true)) (by decide +kernel)
  simp only [decide_eq_true_eq] at h4
  exact ⟨s, s', out, h1, h2, ((session_ok h1).standing.pressed 2).1 h4.1, h4.2⟩

/-- Finding for C36: the batches `[move]` and `[press]` in two updates give two `Move` messages, in one
update they give one. -/
theorem C36_batch_matters :
    (∃ s0 s1 o1 s2 o2, s0.ui.history = [] ∧ Session id (fun _ => none) (fun _ => none) 20 deskDoc s0 ∧
      s0.Updates (fun _ => none) (.obj []) [.mouseMove (55, 50)] s1 o1 ∧
      s1.Updates (fun _ => none) (.obj []) [.mouseButtonDown .left] s2 o2 ∧
      o1.messages = [.str "Move"] ∧ o2.messages = [.str "Move"]) ∧
    ∃ s0 s1 o1, s0.ui.history = [] ∧ Session id (fun _ => none) (fun _ => none) 20 deskDoc s0 ∧
      s0.Updates (fun _ => none) (.obj []) [.mouseMove (55, 50), .mouseButtonDown .left] s1 o1 ∧
      o1.messages = [.str "Move"] := by
  have ho : (match openView id (fun _ => none) (fun _ => none) 20 deskDoc with
    | .error _ => false
    | .ok v0 =>
      (match Screen.play ⟨v0, {}⟩ (deskPlay [.mouseMove (55, 50)]) with
        | none => false
        | some (s1, o1) => match s1.play (deskPlay [.mouseButtonDown .left]) with
          | none => false
          | some (_, o2) => decide (o1.messages = [.str "Move"] ∧ o2.messages = [.str "Move"])) &&
      match Screen.play ⟨v0, {}⟩ (deskPlay [.mouseMove (55, 50), .mouseButtonDown .left]) with
        | none => false
        | some (_, o1) => decide (o1.messages = [.str "Move"])) = true := by decide +kernel
  split at ho
  · simp at ho
  · rename_i v0 h0
    rw [Bool.and_eq_true] at ho
    obtain ⟨a, b⟩ := ho
    constructor
    · split at a
      · simp at a
      · rename_i s1 o1 h1
        split at a
        · simp at a
        · rename_i s2 o2 h2
          simp only [decide_eq_true_eq] at a
          exact ⟨⟨v0, {}⟩, s1, o1, s2, o2, rfl, .opened h0, Screen.play_sound h1, Screen.play_sound h2, a.1, a.2⟩
    · split at b
      · simp at b
      · rename_i s1 o1 h1
        simp only [decide_eq_true_eq] at b
        exact ⟨⟨v0, {}⟩, s1, o1, rfl, .opened h0, Screen.play_sound h1, b⟩

end Verif
