import Verif.Input.Session
/-!
# Batches of events (lemmas for C36)
-/
namespace Verif

/-- A note without the contents of its event. -/
def Note.key : Note → Tick × Option Handler
  | .input e u => (.input e u, none)
  | .sent n h l _ => (.sent n h, l)

/-- The same but for the position of the mouse, the messages and the contents of events. -/
structure Alike (s s' : Desk) : Prop where
  tree : s'.1 = s.1
  under : s'.2.under = s.2.under
  inAction : s'.2.inAction = s.2.inAction
  drag : s'.2.drag = s.2.drag
  focus : s'.2.focus = s.2.focus
  log : s'.2.log.map Note.key = s.2.log.map Note.key

theorem Alike.refl (s : Desk) : Alike s s := ⟨rfl, rfl, rfl, rfl, rfl, rfl⟩

def AlikeResult : Except Fail Desk → Except Fail Desk → Prop
  | .ok a, .ok b => Alike a b
  | .error x, .error y => y = x
  | _, _ => False

theorem alike_emit {env env'} {t t' : Tree} {u u' : Ui} (h : Alike (t, u) (t, u')) (n : NodeId) (e : Element) (k : String) (ev ev' : Json) :
    Alike (t', u.emit env n e k ev) (t', u'.emit env' n e k ev') :=
  ⟨rfl, h.under, h.inAction, h.drag, h.focus, by have := h.log; simp [Ui.emit, Note.key] at this ⊢; exact this⟩

theorem alike_emitMouse {env env'} {t t' : Tree} {u u' : Ui} (h : Alike (t, u) (t, u')) (n : NodeId) (e : Element) (k : String) :
    Alike (t', u.emitMouse env n e k) (t', u'.emitMouse env' n e k) := alike_emit h ..

theorem alike_set {t t' : Tree} {u u' : Ui} (h : Alike (t, u) (t, u')) : Alike (t', u) (t', u') :=
  ⟨rfl, h.under, h.inAction, h.drag, h.focus, h.log⟩

theorem eachNode_alike {f g : Desk → NodeId → Except Fail Desk} (hfg : ∀ s s' n, Alike s s' → AlikeResult (f s n) (g s' n))
    (l : List NodeId) {s s' : Desk} (h : Alike s s') : AlikeResult (eachNode f l s) (eachNode g l s') := by
  induction l generalizing s s' with
  | nil => exact h
  | cons n l ih =>
    have := hfg s s' n h
    simp only [eachNode]
    cases hf : f s n with
    | error x =>
      cases hg : g s' n with
      | error y => rw [hf, hg] at this; exact this
      | ok b => rw [hf, hg] at this; exact this.elim
    | ok a =>
      cases hg : g s' n with
      | error y => rw [hf, hg] at this; exact this.elim
      | ok b => rw [hf, hg] at this; exact ih this

theorem leaveStep_alike {env env'} (s s' : Desk) (n : NodeId) (h : Alike s s') :
    AlikeResult (leaveStep env s n) (leaveStep env' s' n) := by
  obtain ⟨t, u⟩ := s
  obtain ⟨t', u'⟩ := s'
  obtain rfl : t' = t := h.tree
  unfold leaveStep
  have hu : u'.under = u.under := h.under
  simp only [hu]
  split
  · exact h
  · cases t'.elem n with
    | error x => exact rfl
    | ok e =>
      have hd : u'.drag = u.drag := h.drag
      simp only
      generalize ({ e with state := { e.state with hover := false } } : Element) = E
      have a1 := alike_emitMouse (env := env) (env' := env') (t' := t'.setCtx n E) h n E "onmouseleave"
      by_cases hx : u.drag.isSome = true
      · simp only [emitMouse_drag, hd, hx, if_true]
        exact alike_emitMouse (t' := t'.setCtx n E) a1 ..
      · simp only [emitMouse_drag, hd, hx, Bool.false_eq_true, if_false]
        exact a1

theorem enterStep_alike {env env' previous} (s s' : Desk) (n : NodeId) (h : Alike s s') :
    AlikeResult (enterStep env previous s n) (enterStep env' previous s' n) := by
  obtain ⟨t, u⟩ := s
  obtain ⟨t', u'⟩ := s'
  obtain rfl : t' = t := h.tree
  unfold enterStep
  simp only
  cases t'.elem n with
  | error x => exact rfl
  | ok e =>
    have hd : u'.drag = u.drag := h.drag
    simp only
    by_cases hp : n ∈ previous
    · simp only [hp, if_true, emitMouse_drag, hd]
      have a1 := alike_emitMouse (env := env) (env' := env') (t' := t'.setCtx n e) h n e "onmousemove"
      split
      · exact alike_emitMouse a1 ..
      · exact a1
    · simp only [hp, if_false, emitMouse_drag, hd]
      generalize ({ e with state := { e.state with hover := true } } : Element) = E
      have a1 := alike_emitMouse (env := env) (env' := env') (t' := t'.setCtx n E) h n E "onmouseenter"
      by_cases hx : u.drag.isSome = true
      · simp only [hx, if_true, emitMouse_drag, hd]
        have a2 := alike_emitMouse (env := env) (env' := env') (t' := t'.setCtx n E) a1 n E "ondragenter"
        have a3 := alike_emitMouse (env := env) (env' := env') (t' := t'.setCtx n E) a2 n E "onmousemove"
        exact alike_emitMouse (env := env) (env' := env') (t' := t'.setCtx n E) a3 n E "ondragover"
      · simp only [hx, emitMouse_drag, hd, Bool.false_eq_true, if_false]
        exact alike_emitMouse (env := env) (env' := env') (t' := t'.setCtx n E) a1 n E "onmousemove"

theorem moveMouse_alike {env env' body p} {s s' : Desk} (h : Alike s s') :
    AlikeResult (moveMouse env body p s) (moveMouse env' body p s') := by
  obtain ⟨t, u⟩ := s
  obtain ⟨t', u'⟩ := s'
  obtain rfl : t' = t := h.tree
  unfold moveMouse
  simp only
  cases underMouse t' p t'.next body with
  | error x => exact rfl
  | ok current =>
    simp only
    have hu : u'.under = u.under := h.under
    have a1 := eachNode_alike (leaveStep_alike (env := env) (env' := env')) u.under.reverse
      (s := (t', { u with under := current })) (s' := (t', { u' with under := current })) ⟨rfl, rfl, h.inAction, h.drag, h.focus, h.log⟩
    rw [hu]
    revert a1
    cases eachNode (leaveStep env) u.under.reverse (t', { u with under := current }) with
    | error x =>
      cases eachNode (leaveStep env') u.under.reverse (t', { u' with under := current }) with
      | error y => exact id
      | ok b => exact False.elim
    | ok a =>
      cases eachNode (leaveStep env') u.under.reverse (t', { u' with under := current }) with
      | error y => exact False.elim
      | ok b =>
        intro a1
        simp only
        have a1 : Alike a b := a1
        rw [a1.under]
        exact eachNode_alike enterStep_alike _ a1

theorem blurOutside_alike {env env'} {s s' : Desk} (h : Alike s s') :
    AlikeResult (blurOutside env s) (blurOutside env' s') := by
  obtain ⟨t, u⟩ := s
  obtain ⟨t', u'⟩ := s'
  obtain rfl : t' = t := h.tree
  unfold blurOutside
  have hu : u'.under = u.under := h.under
  have hf : u'.focus = u.focus := h.focus
  simp only [hu, hf]
  cases u.focus with
  | none => exact h
  | some f =>
    simp only
    split
    · exact h
    · cases t'.elem f with
      | error x => exact rfl
      | ok e =>
        simp only
        exact alike_emitMouse (t := t') (u := { u with focus := none }) (u' := { u' with under := u.under, focus := none })
          ⟨rfl, rfl, h.inAction, h.drag, rfl, h.log⟩ ..

theorem blurOther_alike {env env' n} {s s' : Desk} (h : Alike s s') :
    AlikeResult (blurOther env s n) (blurOther env' s' n) := by
  obtain ⟨t, u⟩ := s
  obtain ⟨t', u'⟩ := s'
  obtain rfl : t' = t := h.tree
  unfold blurOther
  have hf : u'.focus = u.focus := h.focus
  simp only [hf]
  cases u.focus with
  | none => exact h
  | some f =>
    simp only
    split
    · exact h
    · cases t'.elem f with
      | error x => exact rfl
      | ok e =>
        simp only
        exact alike_emitMouse (t := t') (u := { u with focus := none }) (u' := { u' with focus := none })
          ⟨rfl, h.under, h.inAction, h.drag, rfl, h.log⟩ ..

theorem AlikeResult.cases {a b : Except Fail Desk} (h : AlikeResult a b) :
    (∃ x, a = .error x ∧ b = .error x) ∨ ∃ s s', a = .ok s ∧ b = .ok s' ∧ Alike s s' := by
  cases a with
  | error x =>
    cases b with
    | error y => exact .inl ⟨x, rfl, by rw [show y = x from h]⟩
    | ok b => exact h.elim
  | ok s =>
    cases b with
    | error y => exact h.elim
    | ok s' => exact .inr ⟨s, s', rfl, rfl, h⟩

theorem focusStep_alike {env env' n} {s s' : Desk} (h : Alike s s') :
    AlikeResult (focusStep env s n) (focusStep env' s' n) := by
  unfold focusStep
  rcases (blurOther_alike (env := env) (env' := env') (n := n) h).cases with ⟨x, e1, e2⟩ | ⟨⟨t, u⟩, ⟨t', u'⟩, e1, e2, h1⟩
  · rw [e1, e2]; exact rfl
  · rw [e1, e2]
    obtain rfl : t' = t := h1.tree
    simp only
    cases t'.elem n with
    | error x => exact rfl
    | ok e =>
      have hf : u'.focus = u.focus := h1.focus
      simp only [hf]
      split
      · exact h1
      · exact alike_emitMouse (t := t') (u := { u with focus := some n }) (u' := { u' with focus := some n })
          ⟨rfl, h1.under, h1.inAction, h1.drag, rfl, h1.log⟩ ..

theorem pressStep_alike {env env' b} (s s' : Desk) (n : NodeId) (h : Alike s s') :
    AlikeResult (pressStep env b s n) (pressStep env' b s' n) := by
  obtain ⟨t, u⟩ := s
  obtain ⟨t', u'⟩ := s'
  obtain rfl : t' = t := h.tree
  unfold pressStep
  simp only
  cases t'.elem n with
  | error x => exact rfl
  | ok e =>
    simp only
    generalize t'.setCtx n { e with state := { e.state with active := true } } = t1
    have hi : u'.inAction = u.inAction := h.inAction
    have a1 : Alike (t1, { u with inAction := u.inAction ++ [n] }) (t1, { u' with inAction := u'.inAction ++ [n] }) :=
      ⟨rfl, h.under, by simp [hi], h.drag, h.focus, h.log⟩
    have a2 : AlikeResult
        (if (e.listeners "oninput").isSome then focusStep env (t1, { u with inAction := u.inAction ++ [n] }) n else .ok (t1, { u with inAction := u.inAction ++ [n] }))
        (if (e.listeners "oninput").isSome then focusStep env' (t1, { u' with inAction := u'.inAction ++ [n] }) n else .ok (t1, { u' with inAction := u'.inAction ++ [n] })) := by
      by_cases hl : (e.listeners "oninput").isSome = true
      · simp only [hl, if_true]; exact focusStep_alike a1
      · simp only [hl]; exact a1
    rcases a2.cases with ⟨x, e1, e2⟩ | ⟨⟨t2, u2⟩, ⟨t3, u3⟩, e1, e2, h1⟩
    · rw [e1, e2]; exact rfl
    · rw [e1, e2]
      obtain rfl : t3 = t2 := h1.tree
      simp only
      cases t3.elem n with
      | error x => exact rfl
      | ok e =>
        simp only
        have a3 := alike_emitMouse (env := env) (env' := env') (t' := t3) h1 n e "onmousedown"
        split
        · have a4 := alike_emitMouse (env := env) (env' := env') (t' := t3) a3 n e "ondragstart"
          exact ⟨rfl, a4.under, a4.inAction, rfl, a4.focus, a4.log⟩
        · exact a3

theorem releaseStep_alike {env env' b} (s s' : Desk) (n : NodeId) (h : Alike s s') :
    AlikeResult (releaseStep env b s n) (releaseStep env' b s' n) := by
  obtain ⟨t, u⟩ := s
  obtain ⟨t', u'⟩ := s'
  obtain rfl : t' = t := h.tree
  unfold releaseStep
  simp only
  cases t'.elem n with
  | error x => exact rfl
  | ok e =>
    have hd : u'.drag = u.drag := h.drag
    simp only [emitMouse_drag, hd]
    have a1 := alike_emitMouse (env := env) (env' := env') (t' := t') h n e "onmouseup"
    cases hdr : u.drag with
    | some source =>
      simp only
      split
      · cases t'.elem source with
        | error x => exact rfl
        | ok e' =>
          have a2 := alike_emitMouse (env := env) (env' := env') (t' := t') a1 n e "ondrop"
          exact alike_emitMouse (t := t') (u := { (u.emitMouse env n e "onmouseup").emitMouse env n e "ondrop" with drag := none })
            (u' := { (u'.emitMouse env' n e "onmouseup").emitMouse env' n e "ondrop" with drag := none })
            ⟨rfl, a2.under, a2.inAction, rfl, a2.focus, a2.log⟩ ..
      · exact a1
    | none =>
      simp only
      by_cases hc : (decide (b = .left) && e.state.active) = true
      · simp only [hc, if_true]
        have a2 := alike_emitMouse (env := env) (env' := env') (t' := t') a1 n e "onclick"
        split
        · exact alike_emitMouse a2 ..
        · exact a2
      · simp only [hc]
        by_cases hr : b = .right
        · simp only [hr, if_true]; exact alike_emitMouse a1 ..
        · simp only [hr, if_false]; exact a1

theorem calmStep_alike (s s' : Desk) (n : NodeId) (h : Alike s s') : AlikeResult (calmStep s n) (calmStep s' n) := by
  obtain ⟨t, u⟩ := s
  obtain ⟨t', u'⟩ := s'
  obtain rfl : t' = t := h.tree
  unfold calmStep
  simp only
  cases t'.elem n with
  | error x => exact rfl
  | ok e => exact alike_set h

theorem keyboard_alike {env env'} (k : String) (f : Element → Json) {s s' : Desk} (h : Alike s s') :
    AlikeResult (keyboard env k f s) (keyboard env' k f s') := by
  obtain ⟨t, u⟩ := s
  obtain ⟨t', u'⟩ := s'
  obtain rfl : t' = t := h.tree
  unfold keyboard
  have hf : u'.focus = u.focus := h.focus
  simp only [hf]
  cases u.focus with
  | none => exact h
  | some n =>
    simp only
    cases t'.elem n with
    | error x => exact rfl
    | ok e => exact alike_emit (env := env) (env' := env') (t' := t') h n e k (f e) (f e)

theorem handleEvent_alike {env env' body} {s s' : Desk} (h : Alike s s') (ev : InputEvent) :
    AlikeResult (handleEvent env body s ev) (handleEvent env' body s' ev) := by
  obtain ⟨t, u⟩ := s
  obtain ⟨t', u'⟩ := s'
  obtain rfl : t' = t := h.tree
  have hu : u'.under = u.under := h.under
  have h0 : Alike (t', { u with log := u.log ++ [.input ev u.under] }) (t', { u' with log := u'.log ++ [.input ev u'.under] }) :=
    ⟨rfl, h.under, h.inAction, h.drag, h.focus, by have := h.log; simp [Note.key, hu] at this ⊢; exact this⟩
  have keys : ∀ k f, AlikeResult (keyboard env k f (t', { u with log := u.log ++ [.input ev u.under] }))
      (keyboard env' k f (t', { u' with log := u'.log ++ [.input ev u'.under] })) := fun k f => keyboard_alike k f h0
  unfold handleEvent
  cases ev with
  | unknown => exact h0
  | mouseWheel d => exact h0
  | mouseMove p => exact moveMouse_alike h0
  | mouseButtonDown b =>
    simp only [pressMouse]
    rcases (blurOutside_alike (env := env) (env' := env') h0).cases with ⟨x, e1, e2⟩ | ⟨s, s', e1, e2, h1⟩
    · rw [e1, e2]; exact rfl
    · rw [e1, e2]; simp only; rw [h1.under]; exact eachNode_alike pressStep_alike _ h1
  | mouseButtonUp b =>
    simp only [releaseMouse]
    have a1 := eachNode_alike (releaseStep_alike (env := env) (env' := env') (b := b)) u.under.reverse h0
    rw [hu] at *
    rcases a1.cases with ⟨x, e1, e2⟩ | ⟨⟨t1, u1⟩, ⟨t2, u2⟩, e1, e2, h1⟩
    · rw [e1, e2]; exact rfl
    · rw [e1, e2]
      obtain rfl : t2 = t1 := h1.tree
      have hi : u2.inAction = u1.inAction := h1.inAction
      simp only [hi]
      exact eachNode_alike calmStep_alike _ ⟨rfl, h1.under, rfl, h1.drag, h1.focus, h1.log⟩
  | keyDown k => exact keys _ _
  | keyUp k => exact keys _ _
  | char c => exact keys _ _

theorem handleEvents_alike {env env' body} (events : List InputEvent) {s s' : Desk} (h : Alike s s') :
    AlikeResult (handleEvents env body events s) (handleEvents env' body events s') := by
  induction events generalizing s s' with
  | nil => exact h
  | cons ev evs ih =>
    simp only [handleEvents]
    rcases (handleEvent_alike (env := env) (env' := env') (body := body) h ev).cases with ⟨x, e1, e2⟩ | ⟨s, s', e1, e2, h1⟩
    · rw [e1, e2]; exact rfl
    · rw [e1, e2]; exact ih h1

theorem handleEvents_append {env body} (a b : List InputEvent) (s : Desk) :
    handleEvents env body (a ++ b) s = match handleEvents env body a s with
      | .error x => .error x
      | .ok s' => handleEvents env body b s' := by
  induction a generalizing s with
  | nil => rfl
  | cons ev evs ih =>
    simp only [List.cons_append, handleEvents]
    cases handleEvent env body s ev with
    | error x => rfl
    | ok s1 => exact ih s1

theorem lastMove_append (a b : List InputEvent) : lastMove (a ++ b) = (lastMove b).or (lastMove a) := by
  induction a with
  | nil => simp [lastMove]
  | cons x a ih => rw [List.cons_append, lastMove_cons, lastMove_cons, ih, Option.or_assoc]

theorem lastMove_isSome {l : List InputEvent} {p} (h : .mouseMove p ∈ l) : (lastMove l).isSome = true := by
  induction l with
  | nil => simp at h
  | cons x l ih =>
    rw [lastMove_cons]
    rcases List.mem_cons.1 h with h | h
    · subst h; simp
    · simp [ih h]


/-- A note and what its message looks like when the event is left out. -/
theorem emitArguments_event {env} {ev ev' : Json} (as : List HandlerArgument) (h : .event ∉ as) (i : Nat) (acc : String × List Json) :
    emitArguments env ev as i acc = emitArguments env ev' as i acc := by
  induction as generalizing i acc with
  | nil => rfl
  | cons a as ih =>
    obtain ⟨key, arguments⟩ := acc
    have ha : emitArgument env ev a = emitArgument env ev' a := by
      cases a with
      | event => simp at h
      | keyword k => rfl
      | binder p q => rfl
    have ih := ih (fun hm => h (by simp [hm]))
    simp only [emitArguments, ha]
    split
    · exact ih ..
    · split
      · exact ih ..
      · exact ih ..

theorem messages_length {env} {L M : List Note} (h : L.map Note.key = M.map Note.key) :
    (L.filterMap (Note.message env)).length = (M.filterMap (Note.message env)).length := by
  induction L generalizing M with
  | nil => cases M with
    | nil => rfl
    | cons y M => simp at h
  | cons x L ih =>
    cases M with
    | nil => simp at h
    | cons y M =>
      simp only [List.map_cons, List.cons.injEq] at h
      have := ih h.2
      cases x with
      | input e u =>
        cases y with
        | input e u => simpa [List.filterMap_cons, Note.message] using this
        | sent n k l j => simp [Note.key] at h
      | sent n k l j =>
        cases y with
        | input e u => simp [Note.key] at h
        | sent n' k' l' j' =>
          simp only [Note.key, Prod.mk.injEq, Tick.sent.injEq] at h
          obtain ⟨⟨⟨rfl, rfl⟩, rfl⟩, h2⟩ := h
          cases l with
          | none => simpa [List.filterMap_cons, Note.message] using this
          | some l => simpa [List.filterMap_cons, Note.message] using this

theorem messages_plain {env} {L M : List Note} (h : L.map Note.key = M.map Note.key)
    (hl : ∀ n k l j, Note.sent n k (some l) j ∈ L → .event ∉ l.arguments) :
    L.filterMap (Note.message env) = M.filterMap (Note.message env) := by
  induction L generalizing M with
  | nil => cases M with
    | nil => rfl
    | cons y M => simp at h
  | cons x L ih =>
    cases M with
    | nil => simp at h
    | cons y M =>
      simp only [List.map_cons, List.cons.injEq] at h
      have := ih h.2 (fun n k l j hm => hl n k l j (by simp [hm]))
      cases x with
      | input e u =>
        cases y with
        | input e u => simpa [List.filterMap_cons, Note.message] using this
        | sent n k l j => simp [Note.key] at h
      | sent n k l j =>
        cases y with
        | input e u => simp [Note.key] at h
        | sent n' k' l' j' =>
          simp only [Note.key, Prod.mk.injEq, Tick.sent.injEq] at h
          obtain ⟨⟨⟨rfl, rfl⟩, rfl⟩, h2⟩ := h
          cases l with
          | none => simpa [List.filterMap_cons, Note.message] using this
          | some l =>
            have he : emitMessage env l j = emitMessage env l j' := by
              unfold emitMessage
              rw [emitArguments_event l.arguments (hl n k l j (by simp))]
            simp [Note.message, he, this]

/-- Two batches, both with a mouse move, handled as one. -/
theorem handleOutput_split {env body} {a b : List InputEvent} (ha : (lastMove a).isSome = true) (hb : (lastMove b).isSome = true)
    {s s1 s2 : Desk} {o1 o2 : Output} (h1 : handleOutput env body a s = .ok (s1, o1))
    (h2 : handleOutput env body b s1 = .ok (s2, o2)) :
    ∃ s' o, handleOutput env body (a ++ b) s = .ok (s', o) ∧ Alike s2 s' ∧
      o.captured = o2.captured ∧ o.pointer = o2.pointer := by
  have hab : (lastMove (a ++ b)).isSome = true := by rw [lastMove_append]; simp [hb]
  unfold handleOutput at h1 h2 ⊢
  simp only [ha, hb, hab, if_true] at h1 h2 ⊢
  rw [lastMove_append]
  have hm : ((lastMove b).or (lastMove a)).getD s.2.mouse = (lastMove b).getD s.2.mouse := by
    cases hl : lastMove b with
    | none => rw [hl] at hb; simp at hb
    | some p => simp
  rw [hm]
  have a0 : Alike (s.1, { s.2 with mouse := (lastMove a).getD s.2.mouse, messages := [] })
      (s.1, { s.2 with mouse := (lastMove b).getD s.2.mouse, messages := [] }) := ⟨rfl, rfl, rfl, rfl, rfl, rfl⟩
  have r1 := handleEvents_alike (env := env) (env' := env) (body := body) a a0
  rcases r1.cases with ⟨x, e1, e2⟩ | ⟨⟨t1, u1⟩, ⟨t1', u1'⟩, e1, e2, g1⟩
  · rw [e1] at h1; simp at h1
  · rw [e1] at h1
    simp only [Except.ok.injEq, Prod.mk.injEq] at h1
    obtain ⟨rfl, rfl⟩ := h1
    rw [handleEvents_append, e2]
    simp only at h2 ⊢
    have a1 : Alike (t1, { ({ u1 with messages := [] } : Ui) with mouse := (lastMove b).getD u1.mouse, messages := [] }) (t1', u1') :=
      ⟨g1.tree, g1.under, g1.inAction, g1.drag, g1.focus, g1.log⟩
    have r2 := handleEvents_alike (env := env) (env' := env) (body := body) b a1
    rcases r2.cases with ⟨x, e3, e4⟩ | ⟨⟨t2, u2⟩, ⟨t2', u2'⟩, e3, e4, g2⟩
    · rw [e3] at h2; simp at h2
    · rw [e3] at h2
      simp only [Except.ok.injEq, Prod.mk.injEq] at h2
      obtain ⟨rfl, rfl⟩ := h2
      rw [e4]
      obtain ⟨k1, k2, k3, k4, k5, k6⟩ := g2
      simp only at k1 k2 k3 k4 k5 k6
      refine ⟨_, _, rfl, ⟨k1, k2, k3, k4, k5, k6⟩, ?_, ?_⟩
      · simp only [k2, k3, k4, k5]
      · simp only [k1, k2]


/-- One update with two batches against two updates with the same value and no change of style in between. -/
theorem updates_split {inline translate tr fuel document} {s s' : Screen} (h : Session translate inline tr fuel document s)
    {value : Json} (hv : WfJson value) {a b : List InputEvent} {out : Output}
    (ha : (lastMove a).isSome = true) (hb : (lastMove b).isSome = true) (hu : s.Updates inline value (a ++ b) s' out) :
    ∃ s1 o1 s2 o2, s.Updates inline value a s1 o1 ∧ s1.Updates inline value b s2 o2 ∧
      s'.view = s2.view ∧ s'.ui.mouse = s2.ui.mouse ∧
      Alike (s2.view.stage.tree, s2.ui) (s'.view.stage.tree, s'.ui) ∧ out.captured = o2.captured ∧ out.pointer = o2.pointer ∧
      out.messages.length = o1.messages.length + o2.messages.length ∧
      ((∀ n k l, s'.view.stage.tree.listener n k = some l → .event ∉ l.arguments) → out.messages = o1.messages ++ o2.messages) := by
  obtain ⟨-, w⟩ := updates_ok h hu
  obtain ⟨v, t, t', u, h1, h2, h3, rfl⟩ := hu
  obtain ⟨t1, u1, o1, g1, g2, g3⟩ := session_update (session_ok h) h1 h2 a
  have hup1 : s.Updates inline value a ⟨{ v with stage := { v.stage with tree := t1 } }, u1⟩ o1 := ⟨v, t, t1, u1, h1, h2, g1, rfl⟩
  have hv2 : ({ v with stage := { v.stage with tree := t1 } } : View).update inline value =
      .ok { v with stage := { v.stage with tree := t1 } } := by
    unfold View.update at h1 ⊢
    cases hb : s.view.vm.bind value with
    | none => rw [hb] at h1; simp at h1
    | some p =>
      obtain ⟨vm, rs⟩ := p
      rw [hb] at h1
      simp only at h1
      cases hs : updateTrees inline s.view.stage rs with
      | error f => rw [hs] at h1; simp at h1
      | ok st =>
        rw [hs] at h1
        simp only [Except.ok.injEq] at h1
        subst h1
        simp only [C04_rebind_same_is_noop _ _ _ _ hv hb, updateTrees]
  obtain ⟨t2, u2, o2, k1, k2, k3⟩ := session_update g2 hv2 (Tree.Related.refl (fun _ => ⟨.refl _, rfl⟩) _) b
  have hup2 := (⟨_, _, t2, u2, hv2, Tree.Related.refl (fun _ => ⟨.refl _, rfl⟩) _, k1, rfl⟩ :
    Screen.Updates inline ⟨{ v with stage := { v.stage with tree := t1 } }, u1⟩ value b
      ⟨{ v with stage := { v.stage with tree := t2 } }, u2⟩ o2)
  obtain ⟨⟨x1, x2⟩, o, e1, e2, e3, e4⟩ := handleOutput_split ha hb g1 k1
  rw [h3] at e1
  simp only [Except.ok.injEq, Prod.mk.injEq] at e1
  obtain ⟨⟨rfl, rfl⟩, rfl⟩ := e1
  have et : t' = t2 := e2.tree
  subst et
  obtain ⟨L, l1, l2, -, -⟩ := w.emits
  obtain ⟨L1, m1, m2, -, -⟩ := g3.emits
  obtain ⟨L2, n1, n2, -, -⟩ := k3.emits
  simp only at l1 l2 m1 m2 n1 n2
  have hkey : L.map Note.key = (L1 ++ L2).map Note.key := by
    have := e2.log
    simp only [l1, n1, m1, List.append_assoc, List.map_append] at this
    simpa using this
  refine ⟨_, _, _, _, hup1, hup2, rfl, ?_, e2, e3, e4, ?_, ?_⟩
  · rw [w.mouse, k3.mouse, lastMove_append]
    cases hl : lastMove b with
    | none => rw [hl] at hb; simp at hb
    | some p => simp
  · rw [l2, m2, n2]
    have := messages_length (env := v.emitter) hkey
    rw [List.filterMap_append, List.length_append] at this
    exact this
  · intro hq
    rw [l2, m2, n2]
    have hs' := (session_ok (Session.updated h ⟨v, t, t', u, h1, h2, h3, rfl⟩)).recorded.honest
    have := messages_plain (env := v.emitter) hkey (by
      intro n k l j hm
      have := hs' n k (some l) j (by simp only [l1]; simp [hm])
      exact hq n k l this.symm)
    rw [List.filterMap_append] at this
    exact this

end Verif
