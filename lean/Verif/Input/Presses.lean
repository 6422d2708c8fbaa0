import Verif.Input.Moves
/-!
# Pressing and releasing (lemmas for C30-C33, C38)
-/
namespace Verif

theorem setCtx_cases {t : Tree} {n m : NodeId} {E x : Element} (h : (t.setCtx n E).ctx m = some x) :
    (m = n ∧ x = E) ∨ (m ≠ n ∧ t.ctx m = some x) := by
  by_cases hm : m = n
  · subst hm; simp only [Tree.setCtx, upd_same, Option.some.injEq] at h; exact .inl ⟨rfl, h.symm⟩
  · simp only [Tree.setCtx, upd_other _ _ hm] at h; exact .inr ⟨hm, h⟩

theorem setCtx_isSome {t : Tree} {n : NodeId} {E : Element} (m : NodeId) (h : (t.ctx m).isSome) :
    ((t.setCtx n E).ctx m).isSome := by
  by_cases hm : m = n
  · subst hm; simp [Tree.setCtx, upd_same]
  · simp only [Tree.setCtx, upd_other _ _ hm]; exact h

/-- The states of elements and the history fit the state of input, hovering aside. -/
structure Calm (s : Desk) : Prop where
  active : ∀ n e, s.1.ctx n = some e → (e.state.active = true ↔ n ∈ s.2.inAction)
  focus : ∀ n e, s.1.ctx n = some e → (e.state.focus = true ↔ s.2.focus = some n)
  focusRun : accept focusRule none s.2.history = some s.2.focus
  dragRun : accept dragRule .idle s.2.history = some s.2.phase
  actEx : ∀ n ∈ s.2.inAction, (s.1.ctx n).isSome
  focusEx : ∀ n, s.2.focus = some n → (s.1.ctx n).isSome
  dragEx : ∀ n, s.2.drag = some n → (s.1.ctx n).isSome

/-- Handlers that concern neither focus nor dragging. -/
def Plain (h : String) : Prop :=
  h ∉ ["onfocus", "onblur", "ondragstart", "ondragenter", "ondragover", "ondragleave", "ondrop", "ondragend"]

theorem Calm.moved {env} {s s' : Desk} (h : Calm s) {under} (hq : Quiet env (MoveSends s.2.drag) (s.1, { s.2 with under := under }) s')
    (hr : SameRest s s') : Calm s' := by
  obtain ⟨L, l1, l2⟩ := hq.history
  have l1 : s'.2.history = s.2.history ++ L := l1
  have back : ∀ n e', s'.1.ctx n = some e' → ∃ e, s.1.ctx n = some e ∧ e'.state.active = e.state.active ∧ e'.state.focus = e.state.focus := by
    intro n e' he'
    obtain ⟨e, he, -⟩ := hq.tree.back he'
    obtain ⟨x1, x2, -⟩ := hr.states n e e' he he'
    exact ⟨e, he, x1, x2⟩
  refine ⟨fun n e' he' => ?_, fun n e' he' => ?_, ?_, ?_, fun n hn => ?_, fun n hn => ?_, fun n hn => ?_⟩
  · obtain ⟨e, he, x1, x2⟩ := back n e' he'
    rw [x1, hr.inAction]; exact h.active n e he
  · obtain ⟨e, he, x1, x2⟩ := back n e' he'
    rw [x2, hr.focus]; exact h.focus n e he
  · rw [l1, accept_append, h.focusRun, Option.bind_some, hr.focus]
    refine accept_ignored L fun x hx => ?_
    obtain ⟨n, k, rfl, hk⟩ := l2 x hx
    rcases hk with hk | ⟨-, hk⟩ <;> simp only [List.mem_cons, List.not_mem_nil, or_false] at hk <;>
      rcases hk with rfl | rfl | rfl <;> simp [focusRule]
  · have : s'.2.phase = s.2.phase := by simp [Ui.phase, hr.drag]
    rw [l1, accept_append, h.dragRun, Option.bind_some, this]
    refine accept_ignored L fun x hx => ?_
    obtain ⟨n, k, rfl, hk⟩ := l2 x hx
    unfold Ui.phase
    rcases hk with hk | ⟨hd, hk⟩
    · simp only [List.mem_cons, List.not_mem_nil, or_false] at hk
      cases s.2.drag <;> rcases hk with rfl | rfl | rfl <;> simp [dragRule]
    · obtain ⟨d, hd⟩ := Option.isSome_iff_exists.1 hd
      rw [hd]
      simp only [List.mem_cons, List.not_mem_nil, or_false] at hk
      rcases hk with rfl | rfl | rfl <;> simp [dragRule]
  · rw [hq.tree.isSome]; exact h.actEx n (hr.inAction ▸ hn)
  · rw [hq.tree.isSome]; exact h.focusEx n (hr.focus ▸ hn)
  · rw [hq.tree.isSome]; exact h.dragEx n (hr.drag ▸ hn)

/-- Adding a tick that no rule minds. -/
theorem Calm.tick {t : Tree} {u u' : Ui} (h : Calm (t, u)) {x : Tick} (hh : u'.history = u.history ++ [x])
    (hr : u'.drag = u.drag ∧ u'.focus = u.focus ∧ u'.inAction = u.inAction)
    (hf : ∀ s, focusRule s x = some s) (hd : dragRule u.phase x = some u.phase) : Calm (t, u') := by
  obtain ⟨r1, r2, r3⟩ := hr
  have : u'.phase = u.phase := by simp [Ui.phase, r1]
  refine ⟨?_, ?_, ?_, ?_, ?_, ?_, ?_⟩
  · simp only [r3]; exact h.active
  · simp only [r2]; exact h.focus
  · simp only [hh, accept_append]; rw [h.focusRun]; simp [accept, hf, r2]
  · simp only [hh, accept_append]; rw [h.dragRun]; simp [accept, hd, this]
  · simp only [r3]; exact h.actEx
  · simp only [r2]; exact h.focusEx
  · simp only [r1]; exact h.dragEx

theorem Calm.send {env} {t : Tree} {u : Ui} (h : Calm (t, u)) (n : NodeId) (e : Element) {k : String} (hk : Plain k) (ev : Json) :
    Calm (t, u.emit env n e k ev) := by
  simp only [Plain, List.mem_cons, List.not_mem_nil, or_false, not_or] at hk
  obtain ⟨k1, k2, k3, k4, k5, k6, k7, k8⟩ := hk
  refine h.tick (emit_history ..) ⟨rfl, rfl, rfl⟩ (fun s => by simp [focusRule, k1, k2]) ?_
  unfold Ui.phase
  cases u.drag <;> simp [dragRule, k3, k4, k5, k6, k7, k8]

theorem Calm.blur {env} {t : Tree} {u : Ui} (h : Calm (t, u)) {f : NodeId} (hf : u.focus = some f) {e : Element}
    (he : t.ctx f = some e) :
    Calm (t.setCtx f { e with state := { e.state with focus := false } },
      { u with focus := none }.emitMouse env f { e with state := { e.state with focus := false } } "onblur") := by
  refine ⟨fun n x hx => ?_, fun n x hx => ?_, ?_, ?_, fun n hn => ?_, fun n hn => ?_, fun n hn => ?_⟩
  · rcases setCtx_cases hx with ⟨rfl, rfl⟩ | ⟨hne, hx⟩
    · exact h.active n e he
    · exact h.active n x hx
  · rcases setCtx_cases hx with ⟨rfl, rfl⟩ | ⟨hne, hx⟩
    · simp
    · have := h.focus n x hx
      simp only [hf, Option.some.injEq] at this
      simp only [emitMouse_focus, reduceCtorEq, iff_false]
      intro hc; exact hne (this.1 hc).symm
  · have h1 : accept focusRule none u.history = some u.focus := h.focusRun
    have : ({ u with focus := none } : Ui).history = u.history := rfl
    simp only [emitMouse_history, accept_append, this, h1, hf, Option.bind_some]
    simp [accept, focusRule]
  · have h1 : accept dragRule .idle u.history = some u.phase := h.dragRun
    have : ({ u with focus := none } : Ui).history = u.history := rfl
    simp only [emitMouse_history, accept_append, this, h1, Option.bind_some, Ui.phase, emitMouse_drag]
    cases u.drag <;> simp [accept, dragRule]
  · exact setCtx_isSome n (h.actEx n hn)
  · simp at hn
  · exact setCtx_isSome n (h.dragEx n hn)

theorem Calm.focusing {env} {t : Tree} {u : Ui} (h : Calm (t, u)) {f : NodeId} (hf : u.focus = none) {e : Element}
    (he : t.ctx f = some e) :
    Calm (t.setCtx f { e with state := { e.state with focus := true } },
      { u with focus := some f }.emitMouse env f { e with state := { e.state with focus := true } } "onfocus") := by
  refine ⟨fun n x hx => ?_, fun n x hx => ?_, ?_, ?_, fun n hn => ?_, fun n hn => ?_, fun n hn => ?_⟩
  · rcases setCtx_cases hx with ⟨rfl, rfl⟩ | ⟨hne, hx⟩
    · exact h.active n e he
    · exact h.active n x hx
  · rcases setCtx_cases hx with ⟨rfl, rfl⟩ | ⟨hne, hx⟩
    · simp
    · have := h.focus n x hx
      simp only [hf, reduceCtorEq, iff_false] at this
      simp only [emitMouse_focus, Option.some.injEq]
      exact ⟨fun hc => absurd hc this, fun hc => absurd hc.symm hne⟩
  · have h1 : accept focusRule none u.history = some u.focus := h.focusRun
    have : ({ u with focus := some f } : Ui).history = u.history := rfl
    simp only [emitMouse_history, accept_append, this, h1, hf, Option.bind_some]
    simp [accept, focusRule]
  · have h1 : accept dragRule .idle u.history = some u.phase := h.dragRun
    have : ({ u with focus := some f } : Ui).history = u.history := rfl
    simp only [emitMouse_history, accept_append, this, h1, Option.bind_some, Ui.phase, emitMouse_drag]
    cases u.drag <;> simp [accept, dragRule]
  · exact setCtx_isSome n (h.actEx n hn)
  · simp only [emitMouse_focus, Option.some.injEq] at hn
    subst hn; exact setCtx_isSome f (by rw [he]; rfl)
  · exact setCtx_isSome n (h.dragEx n hn)

theorem Calm.activate {t : Tree} {u : Ui} (h : Calm (t, u)) {f : NodeId} {e : Element} (he : t.ctx f = some e) :
    Calm (t.setCtx f { e with state := { e.state with active := true } }, { u with inAction := u.inAction ++ [f] }) := by
  refine ⟨fun n x hx => ?_, fun n x hx => ?_, h.focusRun, h.dragRun, fun n hn => ?_, fun n hn => ?_, fun n hn => ?_⟩
  · rcases setCtx_cases hx with ⟨rfl, rfl⟩ | ⟨hne, hx⟩
    · simp
    · simp only [List.mem_append, List.mem_singleton, hne, or_false]; exact h.active n x hx
  · rcases setCtx_cases hx with ⟨rfl, rfl⟩ | ⟨hne, hx⟩
    · exact h.focus n e he
    · exact h.focus n x hx
  · rcases List.mem_append.1 hn with hn | hn
    · exact setCtx_isSome n (h.actEx n hn)
    · simp only [List.mem_singleton] at hn; subst hn; exact setCtx_isSome n (by rw [he]; rfl)
  · exact setCtx_isSome n (h.focusEx n hn)
  · exact setCtx_isSome n (h.dragEx n hn)

theorem Calm.dragStart {env} {t : Tree} {u : Ui} (h : Calm (t, u)) {f : NodeId} {e : Element} (he : t.ctx f = some e) :
    Calm (t, { u.emitMouse env f e "ondragstart" with drag := some f }) := by
  have hh : ({ u.emitMouse env f e "ondragstart" with drag := some f } : Ui).history = u.history ++ [.sent f "ondragstart"] :=
    emitMouse_history (env := env) ..
  have h1 : accept focusRule none u.history = some u.focus := h.focusRun
  have h2 : accept dragRule .idle u.history = some u.phase := h.dragRun
  refine ⟨h.active, h.focus, ?_, ?_, h.actEx, h.focusEx, fun n hn => ?_⟩
  · simp only [hh, accept_append, h1, Option.bind_some]; simp [accept, focusRule]
  · simp only [hh, accept_append, h2, Option.bind_some, Ui.phase]; cases u.drag <;> simp [accept, dragRule]
  · simp only [Option.some.injEq] at hn; subst hn; simp only [he]; rfl

theorem Calm.drop {env} {t : Tree} {u : Ui} (h : Calm (t, u)) {source f : NodeId} {e e' : Element} (hd : u.drag = some source) :
    Calm (t, ({ u.emitMouse env f e "ondrop" with drag := none } : Ui).emitMouse env source e' "ondragend") := by
  have hh : (({ u.emitMouse env f e "ondrop" with drag := none } : Ui).emitMouse env source e' "ondragend").history
      = u.history ++ [.sent f "ondrop", .sent source "ondragend"] := by
    rw [emitMouse_history]
    have : ({ u.emitMouse env f e "ondrop" with drag := none } : Ui).history = u.history ++ [.sent f "ondrop"] :=
      emitMouse_history (env := env) ..
    rw [this]; simp
  have h1 : accept focusRule none u.history = some u.focus := h.focusRun
  have h2 : accept dragRule .idle u.history = some u.phase := h.dragRun
  refine ⟨h.active, h.focus, ?_, ?_, h.actEx, h.focusEx, fun n hn => ?_⟩
  · simp only [hh, accept_append, h1, Option.bind_some]; simp [accept, focusRule]
  · simp only [hh, accept_append, h2, Option.bind_some, Ui.phase, hd, emitMouse_drag]; simp [accept, dragRule]
  · simp at hn

/-- Hovering is left alone. -/
def SameHover (t t' : Tree) : Prop := ∀ n e e', t.ctx n = some e → t'.ctx n = some e' → e'.state.hover = e.state.hover

theorem SameHover.refl (t : Tree) : SameHover t t := fun n e e' h h' => by rw [h] at h'; injection h' with h'; rw [h']

theorem SameHover.trans {a b c : Tree} (hab : StateOnly a b) (h : SameHover a b) (g : SameHover b c) : SameHover a c :=
  fun n e e' he he' => by
    obtain ⟨e1, h1, -⟩ := hab.there n e he
    rw [g n e1 e' h1 he', h n e e1 he h1]

theorem sameHover_setCtx {t : Tree} {n : NodeId} {e E : Element} (he : t.ctx n = some e) (hE : E.state.hover = e.state.hover) :
    SameHover t (t.setCtx n E) := by
  intro m a b ha hb
  rcases setCtx_cases hb with ⟨rfl, rfl⟩ | ⟨hne, hb⟩
  · rw [he] at ha; injection ha with ha; rw [hE, ha]
  · rw [ha] at hb; injection hb with hb; rw [hb]

theorem HoverIs.same {s s' : Desk} {S : NodeId → Prop} (h : HoverIs s S) (ht : StateOnly s.1 s'.1) (hs : SameHover s.1 s'.1)
    {L : List Tick} (hl : s'.2.history = s.2.history ++ L)
    (hL : ∀ x ∈ L, ∀ n, x ≠ .sent n "onmouseenter" ∧ x ≠ .sent n "onmouseleave") : HoverIs s' S := by
  refine ⟨fun n e' he' => ?_, fun n => ?_⟩
  · obtain ⟨e, he, -⟩ := ht.back he'
    rw [hs n e e' he he']; exact h.hover n e he
  · obtain ⟨b, h1, h2⟩ := h.cross n
    refine ⟨b, ?_, h2⟩
    rw [hl, accept_append, h1, Option.bind_some]
    refine accept_ignored L fun x hx => ?_
    cases x with
    | input _ _ => rfl
    | sent m k =>
      obtain ⟨g1, g2⟩ := hL _ hx m
      have g1 : k ≠ "onmouseenter" := fun hc => g1 (by rw [hc])
      have g2 : k ≠ "onmouseleave" := fun hc => g2 (by rw [hc])
      simp [crossRule, g1, g2]

/-- The handlers of a press. -/
def PressSends (_ : NodeId) (h : String) : Prop := h ∈ ["onblur", "onfocus", "onmousedown", "ondragstart"]

/-- What a press step keeps. -/
structure PressFrame (env : Emitter) (s s' : Desk) : Prop where
  quiet : Quiet env PressSends s s'
  hover : SameHover s.1 s'.1
  calm : Calm s'

theorem PressFrame.trans {env} {a b c : Desk} (h : PressFrame env a b) (g : PressFrame env b c) : PressFrame env a c :=
  ⟨h.quiet.trans g.quiet, SameHover.trans h.quiet.tree h.hover g.hover, g.calm⟩

theorem blur_ok {env} {t : Tree} {u : Ui} (h : Calm (t, u)) {f : NodeId} (hf : u.focus = some f) {e : Element}
    (he : t.ctx f = some e) :
    PressFrame env (t, u) (t.setCtx f { e with state := { e.state with focus := false } },
      { u with focus := none }.emitMouse env f { e with state := { e.state with focus := false } } "onblur") := by
  refine ⟨?_, sameHover_setCtx he rfl, h.blur hf he⟩
  refine (quiet_setCtx he { e.state with focus := false } u).trans ?_
  have q := quiet_emit (env := env) (setCtx_self t f { e with state := { e.state with focus := false } }) { u with focus := none }
    "onblur" (mouseEvent u.mouse { e with state := { e.state with focus := false } })
  have q := q.mono (H' := PressSends) fun m x hx => by simp [PressSends, hx.2]
  exact ⟨q.tree, q.mouse, q.under, q.emits⟩

theorem blurOutside_ok {env} {s : Desk} (h : Calm s) :
    ∃ s', blurOutside env s = .ok s' ∧ PressFrame env s s' ∧ s'.2.inAction = s.2.inAction ∧ s'.2.drag = s.2.drag ∧
      s'.2.focus = s.2.focus.filter (· ∈ s.2.under) := by
  obtain ⟨t, u⟩ := s
  unfold blurOutside
  cases hf : u.focus with
  | none => exact ⟨(t, u), rfl, ⟨.refl _, .refl _, h⟩, rfl, rfl, by simp [hf]⟩
  | some f =>
    by_cases hu : f ∈ u.under
    · simp only [hu, if_true]
      exact ⟨(t, u), rfl, ⟨.refl _, .refl _, h⟩, rfl, rfl, by simp [hf, hu, Option.filter]⟩
    · obtain ⟨e, he⟩ := Option.isSome_iff_exists.1 (h.focusEx f hf)
      simp only at he
      simp only [hu, if_false, Tree.elem, he]
      exact ⟨_, rfl, blur_ok h hf he, rfl, rfl, by simp [hu, Option.filter]⟩

theorem blurOther_ok {env} {s : Desk} (h : Calm s) (n : NodeId) :
    ∃ s', blurOther env s n = .ok s' ∧ PressFrame env s s' ∧ s'.2.inAction = s.2.inAction ∧ s'.2.drag = s.2.drag ∧
      s'.2.focus = s.2.focus.filter (· = n) := by
  obtain ⟨t, u⟩ := s
  unfold blurOther
  cases hf : u.focus with
  | none => exact ⟨(t, u), rfl, ⟨.refl _, .refl _, h⟩, rfl, rfl, by simp [hf]⟩
  | some f =>
    by_cases hu : f = n
    · simp only [hu, if_true]
      exact ⟨(t, u), rfl, ⟨.refl _, .refl _, h⟩, rfl, rfl, by simp [hf, hu, Option.filter]⟩
    · obtain ⟨e, he⟩ := Option.isSome_iff_exists.1 (h.focusEx f hf)
      simp only at he
      simp only [hu, if_false, Tree.elem, he]
      exact ⟨_, rfl, blur_ok h hf he, rfl, rfl, by simp [hu, Option.filter]⟩

theorem focusStep_ok {env} {s : Desk} (h : Calm s) {n : NodeId} (hn : (s.1.ctx n).isSome) :
    ∃ s', focusStep env s n = .ok s' ∧ PressFrame env s s' ∧ s'.2.inAction = s.2.inAction ∧ s'.2.drag = s.2.drag ∧
      s'.2.focus = some n := by
  obtain ⟨s1, h1, h2, h3, h4, h5⟩ := blurOther_ok (env := env) h n
  obtain ⟨t, u⟩ := s1
  obtain ⟨e, he⟩ := Option.isSome_iff_exists.1 hn
  obtain ⟨e1, he1, -⟩ := h2.quiet.tree.there n e he
  simp only at he1
  unfold focusStep
  simp only [h1, Tree.elem, he1]
  by_cases hf : u.focus = some n
  · simp only [hf, if_true]
    exact ⟨(t, u), rfl, h2, h3, h4, hf⟩
  · simp only [hf, if_false]
    have hnone : u.focus = none := by
      simp only at h5
      rw [h5]
      cases hs : s.2.focus with
      | none => rfl
      | some f =>
        by_cases hfn : f = n
        · subst hfn; exact absurd (by rw [h5, hs]; simp [Option.filter]) hf
        · simp [hfn, Option.filter]
    refine ⟨_, rfl, h2.trans ⟨?_, sameHover_setCtx he1 rfl, h2.calm.focusing hnone he1⟩, h3, h4, rfl⟩
    refine (quiet_setCtx he1 { e1.state with focus := true } u).trans ?_
    have q := quiet_emit (env := env) (setCtx_self t n { e1 with state := { e1.state with focus := true } }) { u with focus := some n }
      "onfocus" (mouseEvent u.mouse { e1 with state := { e1.state with focus := true } })
    have q := q.mono (H' := PressSends) fun m x hx => by simp [PressSends, hx.2]
    exact ⟨q.tree, q.mouse, q.under, q.emits⟩

/-- Is a node a focus target? -/
abbrev Tree.takesInput (t : Tree) (n : NodeId) : Bool := t.listens "oninput" n

/-- Is a node draggable? -/
def Tree.drags (t : Tree) (n : NodeId) : Bool :=
  match t.ctx n with
  | some e => e.draggable
  | none => false

theorem StateOnly.takesInput {t t' : Tree} (h : StateOnly t t') (n : NodeId) : t'.takesInput n = t.takesInput n := by
  unfold Tree.takesInput Tree.listens; rw [h.listener]

theorem StateOnly.drags {t t' : Tree} (h : StateOnly t t') (n : NodeId) : t'.drags n = t.drags n := by
  unfold Tree.drags
  cases he : t.ctx n with
  | none => rw [h.gone n he]
  | some e => obtain ⟨e', h1, h2⟩ := h.there n e he; rw [h1, h2]; rfl

theorem pressStep_ok {env} {s : Desk} (h : Calm s) {n : NodeId} (hn : (s.1.ctx n).isSome) (button : MouseButtons) :
    ∃ s', pressStep env button s n = .ok s' ∧ PressFrame env s s' ∧ s'.2.inAction = s.2.inAction ++ [n] ∧
      s'.2.drag = (if button = .left ∧ s.1.drags n = true then some n else s.2.drag) ∧
      s'.2.focus = (if s.1.takesInput n then some n else s.2.focus) := by
  obtain ⟨t, u⟩ := s
  obtain ⟨e, he⟩ := Option.isSome_iff_exists.1 hn
  simp only at he
  unfold pressStep
  simp only [Tree.elem, he]
  have f1 : PressFrame env (t, u)
      (t.setCtx n { e with state := { e.state with active := true } }, { u with inAction := u.inAction ++ [n] }) := by
    refine ⟨?_, sameHover_setCtx he rfl, h.activate he⟩
    have q := quiet_setCtx (env := env) (H := PressSends) he { e.state with active := true } u
    exact ⟨q.tree, q.mouse, q.under, q.emits⟩
  have : ∃ s2, (if (e.listeners "oninput").isSome then focusStep env
        (t.setCtx n { e with state := { e.state with active := true } }, { u with inAction := u.inAction ++ [n] }) n
      else .ok (t.setCtx n { e with state := { e.state with active := true } }, { u with inAction := u.inAction ++ [n] })) = .ok s2 ∧
      PressFrame env (t, u) s2 ∧ s2.2.inAction = u.inAction ++ [n] ∧ s2.2.drag = u.drag ∧
      s2.2.focus = (if t.takesInput n then some n else u.focus) := by
    have ht : t.takesInput n = (e.listeners "oninput").isSome := by simp [Tree.takesInput, Tree.listens, Tree.listener, he]
    by_cases hl : (e.listeners "oninput").isSome = true
    · rw [if_pos hl, ht, hl]
      obtain ⟨s2, g1, g2, g3, g4, g5⟩ := focusStep_ok (env := env) f1.calm (n := n) (setCtx_isSome n hn)
      exact ⟨s2, g1, f1.trans g2, g3, g4, g5⟩
    · rw [if_neg hl, ht]
      exact ⟨_, rfl, f1, rfl, rfl, by simp [hl]⟩
  obtain ⟨⟨t2, u2⟩, g1, g2, g3, g4, g5⟩ := this
  obtain ⟨e2, he2, -⟩ := g2.quiet.tree.there n e he
  simp only at he2
  simp only [g1, he2]
  have hd : t.drags n = e2.draggable := by
    rw [← g2.quiet.tree.drags n]; unfold Tree.drags; rw [he2]
  have f3 : PressFrame env (t2, u2) (t2, u2.emitMouse env n e2 "onmousedown") :=
    ⟨(quiet_emit he2 ..).mono fun m x hx => by simp [PressSends, hx.2], .refl _, g2.calm.send n e2 (by simp [Plain]) _⟩
  by_cases hb : button = .left ∧ e2.draggable = true
  · have hb' : (decide (button = .left) && e2.draggable) = true := by simp [hb.1, hb.2]
    simp only [hb', hd, hb, and_self, if_true]
    refine ⟨_, rfl, (g2.trans f3).trans ⟨?_, .refl _, f3.calm.dragStart he2⟩, g3, rfl, g5⟩
    have q := quiet_emit (env := env) he2 (u2.emitMouse env n e2 "onmousedown") "ondragstart" (mouseEvent u2.mouse e2)
    have q := q.mono (H' := PressSends) fun m x hx => by simp [PressSends, hx.2]
    exact ⟨q.tree, q.mouse, q.under, q.emits⟩
  · have hb' : (decide (button = .left) && e2.draggable) = false := by
      by_cases h1 : button = .left
      · have : e2.draggable ≠ true := fun h2 => hb ⟨h1, h2⟩
        simp [this]
      · simp [h1]
    simp only [hb', hd, hb, if_false]
    exact ⟨_, rfl, g2.trans f3, g3, g4, g5⟩

end Verif
