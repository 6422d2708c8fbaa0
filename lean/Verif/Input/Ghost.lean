import Verif.Input.Model
/-!
# The record of input is a ghost: nothing depends on it (lemmas for C79)
-/
namespace Verif

/-- The same but for the record. -/
def SameUi (u u' : Ui) : Prop := u' = { u with log := u'.log }

theorem SameUi.refl (u : Ui) : SameUi u u := rfl

theorem SameUi.trans {a b c : Ui} (h : SameUi a b) (g : SameUi b c) : SameUi a c := by
  unfold SameUi at *
  rw [g, h]

def SameDesk (s s' : Desk) : Prop := s'.1 = s.1 ∧ SameUi s.2 s'.2

/-- Two results that are the same but for the record. -/
inductive SameResult : Except Fail Desk → Except Fail Desk → Prop
  | error (x) : SameResult (.error x) (.error x)
  | ok {s s'} : SameDesk s s' → SameResult (.ok s) (.ok s')

/-- What does not read the record. -/
def Unread (f : Desk → Except Fail Desk) : Prop := ∀ s s', SameDesk s s' → SameResult (f s) (f s')

theorem unread_of {f : Desk → Except Fail Desk} (h : ∀ t u l, SameResult (f (t, u)) (f (t, { u with log := l }))) : Unread f := by
  rintro ⟨t, u⟩ ⟨t', u'⟩ ⟨h1, h2⟩
  simp only at h1 h2
  subst h1
  have := h t' u u'.log
  unfold SameUi at h2
  rw [← h2] at this
  exact this

theorem unread_eachNode {f : Desk → NodeId → Except Fail Desk} (hf : ∀ n, Unread (f · n)) (ns : List NodeId) : Unread (eachNode f ns) := by
  induction ns with
  | nil => intro s s' h; exact .ok h
  | cons n ns ih =>
    intro s s' h
    simp only [eachNode]
    have := hf n s s' h
    simp only at this
    generalize f s n = r at this ⊢
    generalize f s' n = r' at this ⊢
    cases this with
    | error x => exact .error x
    | ok h => exact ih _ _ h

theorem sameResult_bind {r r' : Except Fail Desk} {f f' : Desk → Except Fail Desk} : SameResult r r' → (∀ s s', SameDesk s s' → SameResult (f s) (f' s')) →
    SameResult (match r with | .error x => .error x | .ok s => f s) (match r' with | .error x => .error x | .ok s => f' s) := by
  intro h hf
  cases h with
  | error x => exact .error x
  | ok h => exact hf _ _ h

theorem sameUi_emit (env : Emitter) {u u' : Ui} (h : SameUi u u') (node : NodeId) (e : Element) (handler : String) (event : Json) :
    SameUi (u.emit env node e handler event) (u'.emit env node e handler event) := by
  unfold SameUi at *
  rw [h]
  rfl

theorem sameUi_emitMouse (env : Emitter) {u u' : Ui} (h : SameUi u u') (node : NodeId) (e : Element) (handler : String) :
    SameUi (u.emitMouse env node e handler) (u'.emitMouse env node e handler) := by
  unfold SameUi at *
  rw [h]
  rfl

theorem leaveStep_unread (env : Emitter) (n : NodeId) : Unread (leaveStep env · n) := by
  refine unread_of fun t u l => ?_
  unfold leaveStep
  simp only
  split
  · exact .ok ⟨rfl, rfl⟩
  · cases t.elem n with
    | error x => exact .error x
    | ok e =>
      simp only
      refine .ok ⟨rfl, ?_⟩
      cases hd : u.drag <;> (simp only [Ui.emitMouse, Ui.emit, hd]; rfl)

theorem enterStep_unread (env : Emitter) (previous : List NodeId) (n : NodeId) : Unread (enterStep env previous · n) := by
  refine unread_of fun t u l => ?_
  unfold enterStep
  simp only
  cases t.elem n with
  | error x => exact .error x
  | ok e =>
    simp only
    refine .ok ⟨rfl, ?_⟩
    by_cases hp : n ∈ previous <;> cases hd : u.drag <;> (simp only [Ui.emitMouse, Ui.emit, hd, hp, if_true, if_false]; rfl)

theorem moveMouse_unread (env : Emitter) (body : NodeId) (q : Rat × Rat) : Unread (moveMouse env body q) := by
  refine unread_of fun t u l => ?_
  unfold moveMouse
  simp only
  cases underMouse t q t.next body with
  | error x => exact .error x
  | ok current =>
    simp only
    refine sameResult_bind (unread_eachNode (leaveStep_unread env) _ _ _ ⟨rfl, rfl⟩) fun s s' hs => ?_
    have hu : s'.2.under = s.2.under := by rw [hs.2]
    rw [hu]
    exact unread_eachNode (enterStep_unread env _) _ _ _ hs

theorem blurOutside_unread (env : Emitter) : Unread (blurOutside env) := by
  refine unread_of fun t u l => ?_
  unfold blurOutside
  simp only
  cases hf : u.focus with
  | none => exact .ok ⟨rfl, by simp [SameUi, hf]⟩
  | some f =>
    simp only
    split
    · exact .ok ⟨rfl, by simp [SameUi, hf]⟩
    · cases t.elem f with
      | error x => exact .error x
      | ok e => exact .ok ⟨rfl, rfl⟩

theorem blurOther_unread (env : Emitter) (n : NodeId) : Unread (blurOther env · n) := by
  refine unread_of fun t u l => ?_
  unfold blurOther
  simp only
  cases hf : u.focus with
  | none => exact .ok ⟨rfl, by simp [SameUi, hf]⟩
  | some f =>
    simp only
    split
    · exact .ok ⟨rfl, by simp [SameUi, hf]⟩
    · cases t.elem f with
      | error x => exact .error x
      | ok e => exact .ok ⟨rfl, rfl⟩

theorem focusStep_unread (env : Emitter) (n : NodeId) : Unread (focusStep env · n) := by
  intro s s' h
  unfold focusStep
  simp only
  refine sameResult_bind (blurOther_unread env n s s' h) ?_
  refine unread_of fun t u l => ?_
  simp only
  cases t.elem n with
  | error x => exact .error x
  | ok e =>
    simp only
    split
    · exact .ok ⟨rfl, rfl⟩
    · exact .ok ⟨rfl, rfl⟩

theorem pressStep_unread (env : Emitter) (button : MouseButtons) (n : NodeId) : Unread (pressStep env button · n) := by
  refine unread_of fun t u l => ?_
  unfold pressStep
  simp only
  cases t.elem n with
  | error x => exact .error x
  | ok e =>
    simp only
    refine sameResult_bind (f' := _) ?_ ?_
    · split
      · exact focusStep_unread env n _ _ ⟨rfl, rfl⟩
      · exact .ok ⟨rfl, rfl⟩
    · refine unread_of fun t u l => ?_
      simp only
      cases t.elem n with
      | error x => exact .error x
      | ok e =>
        refine .ok ⟨rfl, ?_⟩
        simp only
        split <;> rfl

theorem pressMouse_unread (env : Emitter) (button : MouseButtons) : Unread (pressMouse env button) := by
  intro s s' h
  unfold pressMouse
  refine sameResult_bind (blurOutside_unread env s s' h) fun s s' hs => ?_
  have hu : s'.2.under = s.2.under := by rw [hs.2]
  rw [hu]
  exact unread_eachNode (pressStep_unread env button) _ _ _ hs

theorem releaseStep_unread (env : Emitter) (button : MouseButtons) (n : NodeId) : Unread (releaseStep env button · n) := by
  refine unread_of fun t u l => ?_
  unfold releaseStep
  simp only
  cases t.elem n with
  | error x => exact .error x
  | ok e =>
    cases hd : u.drag with
    | none =>
      simp only [Ui.emitMouse, Ui.emit, hd]
      refine .ok ⟨rfl, ?_⟩
      split <;> split <;> rfl
    | some d =>
      simp only [Ui.emitMouse, Ui.emit, hd]
      split
      · cases t.elem d with
        | error x => exact .error x
        | ok e => exact .ok ⟨rfl, rfl⟩
      · exact .ok ⟨rfl, rfl⟩

theorem calmStep_unread (n : NodeId) : Unread (calmStep · n) := by
  refine unread_of fun t u l => ?_
  unfold calmStep
  simp only
  cases t.elem n with
  | error x => exact .error x
  | ok e => exact .ok ⟨rfl, rfl⟩

theorem releaseMouse_unread (env : Emitter) (button : MouseButtons) : Unread (releaseMouse env button) := by
  intro s s' h
  unfold releaseMouse
  have hu : s'.2.under = s.2.under := by rw [h.2]
  rw [hu]
  refine sameResult_bind (unread_eachNode (releaseStep_unread env button) _ s s' h) fun s s' hs => ?_
  have hi : s'.2.inAction = s.2.inAction := by rw [hs.2]
  rw [hi]
  refine unread_eachNode calmStep_unread _ _ _ ⟨hs.1, ?_⟩
  have := hs.2
  unfold SameUi at *
  simp only
  rw [this]

theorem keyboard_unread (env : Emitter) (handler : String) (event : Element → Json) : Unread (keyboard env handler event) := by
  refine unread_of fun t u l => ?_
  unfold keyboard
  simp only
  cases hf : u.focus with
  | none => exact .ok ⟨rfl, by simp [SameUi, hf]⟩
  | some f =>
    simp only
    cases t.elem f with
    | error x => exact .error x
    | ok e => exact .ok ⟨rfl, by simp [SameUi, Ui.emit, hf]⟩

theorem handleEvent_unread (env : Emitter) (body : NodeId) (event : InputEvent) : Unread (handleEvent env body · event) := by
  intro s s' h
  have h' : SameDesk (s.1, { s.2 with log := s.2.log ++ [.input event s.2.under] }) (s'.1, { s'.2 with log := s'.2.log ++ [.input event s'.2.under] }) := by
    refine ⟨h.1, ?_⟩
    have := h.2
    unfold SameUi at *
    simp only
    rw [this]
  unfold handleEvent
  cases event with
  | unknown => exact .ok h'
  | mouseMove q => exact moveMouse_unread env body q _ _ h'
  | mouseButtonDown b => exact pressMouse_unread env b _ _ h'
  | mouseButtonUp b => exact releaseMouse_unread env b _ _ h'
  | mouseWheel d => exact .ok h'
  | keyDown k => exact keyboard_unread env _ _ _ _ h'
  | keyUp k => exact keyboard_unread env _ _ _ _ h'
  | char c => exact keyboard_unread env _ _ _ _ h'

/-- Not a turn of the wheel. -/
def InputEvent.notWheel : InputEvent → Bool
  | .mouseWheel _ => false
  | _ => true

theorem handleEvents_wheel (env : Emitter) (body : NodeId) (events : List InputEvent) : ∀ s s', SameDesk s s' →
    SameResult (handleEvents env body events s) (handleEvents env body (events.filter InputEvent.notWheel) s') := by
  induction events with
  | nil => intro s s' h; exact .ok h
  | cons ev events ih =>
    intro s s' h
    by_cases hw : ev.notWheel = true
    · rw [List.filter_cons_of_pos hw]
      simp only [handleEvents]
      exact sameResult_bind (handleEvent_unread env body ev s s' h) ih
    · rw [List.filter_cons_of_neg hw]
      cases ev with
      | mouseWheel d =>
        simp only [handleEvents, handleEvent]
        refine ih _ _ ⟨h.1, ?_⟩
        exact SameUi.trans (b := s.2) rfl h.2
      | _ => exact absurd rfl hw

theorem lastMove_wheel (events : List InputEvent) : lastMove (events.filter InputEvent.notWheel) = lastMove events := by
  induction events with
  | nil => rfl
  | cons ev events ih => cases ev <;> simp [InputEvent.notWheel, lastMove, ih, List.filter_cons]

/-- Two results of `handleOutput` that are the same but for the record. -/
inductive SameOutput : Except Fail (Desk × Output) → Except Fail (Desk × Output) → Prop
  | error (x) : SameOutput (.error x) (.error x)
  | ok {s s' out} : SameDesk s s' → SameOutput (.ok (s, out)) (.ok (s', out))

theorem handleOutput_wheel (env : Emitter) (body : NodeId) (events : List InputEvent) {s s' : Desk} (h : SameDesk s s') :
    SameOutput (handleOutput env body events s) (handleOutput env body (events.filter InputEvent.notWheel) s') := by
  obtain ⟨t, u⟩ := s
  obtain ⟨t', u'⟩ := s'
  obtain ⟨h1, h2⟩ := h
  simp only at h1 h2
  subst h1
  unfold handleOutput
  have hm : u'.mouse = u.mouse := by rw [h2]
  simp only [lastMove_wheel, hm]
  have hd : SameDesk (t', { u with mouse := (lastMove events).getD u.mouse, messages := [] }) (t', { u' with mouse := (lastMove events).getD u.mouse, messages := [] }) := by
    refine ⟨rfl, ?_⟩
    unfold SameUi at *
    simp only
    rw [h2]
  have hf : (if (lastMove events).isSome then events.filter InputEvent.notWheel else .mouseMove ((lastMove events).getD u.mouse) :: events.filter InputEvent.notWheel) =
      (if (lastMove events).isSome then events else .mouseMove ((lastMove events).getD u.mouse) :: events).filter InputEvent.notWheel := by
    split
    · rfl
    · rw [List.filter_cons_of_pos rfl]
  rw [hf]
  have := handleEvents_wheel env body (if (lastMove events).isSome then events else .mouseMove ((lastMove events).getD u.mouse) :: events) _ _ hd
  generalize handleEvents env body (if (lastMove events).isSome then events else .mouseMove ((lastMove events).getD u.mouse) :: events) _ = r at this ⊢
  generalize handleEvents env body (List.filter InputEvent.notWheel _) _ = r' at this ⊢
  cases this with
  | error x => exact .error x
  | @ok s s' h =>
    obtain ⟨t, u⟩ := s
    obtain ⟨t', u'⟩ := s'
    obtain ⟨h1, h2⟩ := h
    simp only at h1 h2
    subst h1
    simp only
    unfold SameUi at h2
    rw [h2]
    exact .ok ⟨rfl, rfl⟩

end Verif
