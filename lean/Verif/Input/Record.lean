import Verif.Input.Order
/-!
# Histories of input (lemmas for C30, C31, C34, C36)
-/
namespace Verif

theorem lastPress_snoc (l : List Tick) (x : Tick) (v : List NodeId) :
    LastPress (l ++ [x]) v ↔
      match x with
      | .input (.mouseButtonDown _) u => v = u
      | _ => LastPress l v := by
  have key : LastPress (l ++ [x]) v ↔ (∃ b, x = .input (.mouseButtonDown b) v) ∨
      (LastPress l v ∧ ∀ b u, x ≠ .input (.mouseButtonDown b) u) := by
    constructor
    · rintro ⟨before, button, after, h1, h3⟩
      rcases List.eq_nil_or_concat after with rfl | ⟨a, y, rfl⟩
      · obtain ⟨-, h⟩ := List.append_inj' h1 rfl
        injection h with h
        exact .inl ⟨button, h⟩
      · rw [List.concat_eq_append] at h1 h3
        have h1 : l ++ [x] = (before ++ .input (.mouseButtonDown button) v :: a) ++ [y] := by rw [h1]; simp
        obtain ⟨h, h'⟩ := List.append_inj' h1 rfl
        injection h' with h'
        subst h'
        exact .inr ⟨⟨before, button, a, h, fun b u hm => h3 b u (by simp [hm])⟩,
          fun b u hx => h3 b u (by simp [hx])⟩
    · rintro (⟨b, rfl⟩ | ⟨⟨before, button, after, rfl, h3⟩, hx⟩)
      · exact ⟨l, b, [], by simp, by simp⟩
      · refine ⟨before, button, after ++ [x], by simp, fun b u hm => ?_⟩
        rcases List.mem_append.1 hm with hm | hm
        · exact h3 b u hm
        · simp only [List.mem_singleton] at hm; exact hx b u hm.symm
  rw [key]
  cases x with
  | sent m h => simp
  | input ev u => cases ev <;> simp [eq_comm]

theorem lastPress_sends (l sends : List Tick) (v : List NodeId) (hs : ∀ x ∈ sends, ∃ m k, x = .sent m k) :
    LastPress (l ++ sends) v ↔ LastPress l v := by
  induction sends generalizing l with
  | nil => simp
  | cons x sends ih =>
    have : l ++ x :: sends = (l ++ [x]) ++ sends := by simp
    rw [this, ih _ (fun y hy => hs y (by simp [hy])), lastPress_snoc]
    obtain ⟨m, k, rfl⟩ := hs x (by simp)
    rfl

theorem lastPress_event (l sends : List Tick) (ev : InputEvent) (u v : List NodeId)
    (hs : ∀ x ∈ sends, ∃ m k, x = .sent m k) :
    LastPress (l ++ .input ev u :: sends) v ↔
      match ev with
      | .mouseButtonDown _ => v = u
      | _ => LastPress l v := by
  have : l ++ .input ev u :: sends = (l ++ [.input ev u]) ++ sends := by simp
  rw [this, lastPress_sends _ _ _ hs, lastPress_snoc]
  cases ev <;> rfl

theorem segmented_event {Q : List Tick → InputEvent → List NodeId → List Tick → Prop} {l sends : List Tick} {ev : InputEvent}
    {u : List NodeId} (h : Segmented Q l) (hs : ∀ x ∈ sends, ∃ m k, x = .sent m k) (hr : Q l ev u sends) :
    Segmented Q (l ++ .input ev u :: sends) := by
  intro before ev' under after heq
  rcases List.append_eq_append_iff.1 heq with ⟨a, h1, h2⟩ | ⟨c, h1, h2⟩
  · cases a with
    | nil =>
      simp only [List.nil_append, List.cons.injEq, Tick.input.injEq] at h2
      obtain ⟨⟨rfl, rfl⟩, rfl⟩ := h2
      simp only [List.append_nil] at h1
      subst h1
      exact ⟨sends, [], by simp, hs, .inl rfl, hr⟩
    | cons x a =>
      simp only [List.cons_append, List.cons.injEq] at h2
      obtain ⟨rfl, h2⟩ := h2
      obtain ⟨m, k, hk⟩ := hs (.input ev' under) (by rw [h2]; simp)
      simp at hk
  · cases c with
    | nil =>
      simp only [List.nil_append, List.cons.injEq, Tick.input.injEq] at h2
      obtain ⟨⟨rfl, rfl⟩, rfl⟩ := h2
      simp only [List.append_nil] at h1
      subst h1
      exact ⟨after, [], by simp, hs, .inl rfl, hr⟩
    | cons x c =>
      simp only [List.cons_append, List.cons.injEq] at h2
      obtain ⟨rfl, h2⟩ := h2
      obtain ⟨sends', rest, g1, g2, g3, g4⟩ := h before ev' under c h1
      refine ⟨sends', rest ++ .input ev u :: sends, by rw [h2, g1]; simp, g2, .inr ?_, g4⟩
      rcases g3 with rfl | ⟨e, v, r, rfl⟩
      · exact ⟨_, _, _, rfl⟩
      · exact ⟨_, _, _, rfl⟩

/-- Whom an event sends one of the ordered handlers. -/
def orderPiece (h : String) (under : List NodeId) (found : Rat × Rat → List NodeId) : InputEvent → List NodeId
  | .mouseMove p => if h = "onmousemove" then (found p).reverse else []
  | .mouseButtonDown _ => if h = "onmousedown" then under.reverse else []
  | .mouseButtonUp _ => if h = "onmouseup" then under.reverse else []
  | _ => []

theorem sentTo_event {env root body ev h} (hh : Ordered h) {s s' : Desk} (hs : Standing root body s)
    (hev : handleEvent env body s ev = .ok s') : sentTo h s'.2.history = sentTo h s.2.history ++
      orderPiece h s.2.under (s.1.pointedAt body) ev := by
  unfold orderPiece
  have e0 : sentTo h ({ s.2 with log := s.2.log ++ [.input ev s.2.under] } : Ui).history = sentTo h s.2.history := by
    simp [Ui.history, Note.tick, sentTo]
  unfold handleEvent at hev
  cases ev with
  | unknown => simp only [Except.ok.injEq] at hev; subst hev; rw [e0]; simp
  | mouseWheel d => simp only [Except.ok.injEq] at hev; subst hev; rw [e0]; simp
  | mouseMove p =>
    obtain ⟨c, h1, h2⟩ := moveMouse_sentTo hh hev
    have hu := underMouse_ok hs.wf p s.1.next body (body_isSome hs.wf) (by unfold NodeId; omega)
    simp only at h1 h2
    rw [hu] at h1
    injection h1 with h1
    rw [h2, e0, ← h1]; rfl
  | mouseButtonDown b => rw [pressMouse_sentTo hh hev, e0]
  | mouseButtonUp b => rw [releaseMouse_sentTo hh hev, e0]
  | keyDown k => rw [keyboard_sentTo hh (by simp) hev, e0]; simp
  | keyUp k => rw [keyboard_sentTo hh (by simp) hev, e0]; simp
  | char k => rw [keyboard_sentTo hh (by simp) hev, e0]; simp

theorem keyRule_focus (L : List Tick) (f f' : Option NodeId)
    (hL : ∀ x ∈ L, ∃ n h, x = .sent n h ∧ h ∉ ["onkeydown", "onkeyup", "oninput"])
    (ha : accept focusRule f L = some f') : accept keyRule (f, none) L = some (f', none) := by
  induction L generalizing f with
  | nil => simp only [accept, Option.some.injEq] at ha ⊢; rw [ha]
  | cons x L ih =>
    obtain ⟨n, h, rfl, hh⟩ := hL x (by simp)
    have ih := fun g => ih g (fun y hy => hL y (by simp [hy]))
    simp only [accept] at ha ⊢
    simp only [keyRule, hh, if_false]
    simp only [focusRule] at ha
    by_cases h1 : h = "onfocus"
    · subst h1
      simp only [if_true] at ha ⊢
      by_cases h3 : f = none
      · simp only [h3, if_true] at ha; exact ih _ ha
      · simp [h3] at ha
    · by_cases h2 : h = "onblur"
      · subst h2
        simp only [if_true, h1, if_false] at ha ⊢
        by_cases h3 : f = some n
        · simp only [h3, if_true] at ha; exact ih _ ha
        · simp [h3] at ha
      · simp only [h1, h2, if_false] at ha ⊢; exact ih _ ha

/-- What the history says, over and above `Standing`. -/
structure Recorded (s : Desk) : Prop where
  keyRun : accept keyRule (none, none) s.2.history = some (s.2.focus, none)
  releases : Segmented ReleaseRule s.2.history
  drops : Segmented (DropRule s.1) s.2.history
  order : Segmented OrderRule s.2.history
  unders : Segmented UnderRule s.2.history
  lastPress : ∀ u, LastPress s.2.history u → s.2.focus = u.find? (s.1.listens "oninput")
  noPress : (∀ b u, Tick.input (.mouseButtonDown b) u ∉ s.2.history) → s.2.focus = none
  honest : ∀ n h l ev, Note.sent n h l ev ∈ s.2.log → l = s.1.listener n h

theorem handled_recorded {env root body ev} {s s' : Desk} (hs : Standing root body s) (hs' : Standing root body s')
    (h : Recorded s) (hev : handleEvent env body s ev = .ok s') (hh : Handled env body ev s s') : Recorded s' := by
  obtain ⟨L, l1, l2, l3⟩ := hh.emits
  have hhist : s'.2.history = s.2.history ++ .input ev s.2.under :: L.map Note.tick := by
    simp [Ui.history, l1, Note.tick]
  have hsent : ∀ x ∈ L.map Note.tick, ∃ m k, x = .sent m k := by
    simp only [List.mem_map]
    rintro x ⟨y, hy, rfl⟩
    obtain ⟨n, k, j, rfl⟩ := l3 y hy
    exact ⟨n, k, rfl⟩
  have htake : s'.1.listens "oninput" = s.1.listens "oninput" := by funext n; exact hh.tree.takesInput n
  have hlisten : ∀ k, s'.1.listens k = s.1.listens k := fun k => by
    funext n; simp only [Tree.listens, hh.tree.listener]
  refine ⟨?_, ?_, ?_, ?_, ?_, ?_, ?_, ?_⟩
  · cases hk : keyHandler ev with
    | none =>
      obtain ⟨M, m1, m2⟩ := hh.noKeys hk
      have hM : M = L.map Note.tick := by
        rw [hhist] at m1; simpa using m1.symm
      have f1 := hs'.calm.focusRun
      rw [m1, accept_append, hs.calm.focusRun] at f1
      simp only [Option.bind_some, accept, focusRule] at f1
      rw [m1, accept_append, h.keyRun]
      simp only [Option.bind_some, accept, keyRule, hk, Option.bind_none]
      exact keyRule_focus M _ _ m2 f1
    | some k =>
      have hkey : ∃ event, (∃ key, ev = .keyDown key ∧ k = "onkeydown" ∧ event = keyboardEvent key) ∨
          (∃ key, ev = .keyUp key ∧ k = "onkeyup" ∧ event = keyboardEvent key) ∨
          (∃ c, ev = .char c ∧ k = "oninput" ∧ event = textEvent c) := by
        cases ev <;> simp [keyHandler] at hk <;> subst hk
        · exact ⟨_, .inl ⟨_, rfl, rfl, rfl⟩⟩
        · exact ⟨_, .inr (.inl ⟨_, rfl, rfl, rfl⟩)⟩
        · exact ⟨_, .inr (.inr ⟨_, rfl, rfl, rfl⟩)⟩
      obtain ⟨event, hkey⟩ := hkey
      have hfoc : s'.2.focus = s.2.focus := by
        rw [hh.focus]; cases ev <;> first | rfl | simp [keyHandler] at hk
      have hmem : k ∈ ["onkeydown", "onkeyup", "oninput"] := by
        rcases hkey with ⟨_, -, rfl, -⟩ | ⟨_, -, rfl, -⟩ | ⟨_, -, rfl, -⟩ <;> simp
      obtain ⟨k1, k2⟩ := hh.keys k event hkey
      cases hf : s.2.focus with
      | none =>
        have : s'.2.history = s.2.history ++ [.input ev s.2.under] := by simp [Ui.history, k1 hf, Note.tick]
        rw [this, accept_append, h.keyRun, hfoc, hf]
        simp [accept, keyRule, hk]
      | some n =>
        obtain ⟨e, he⟩ := Option.isSome_iff_exists.1 (hs.calm.focusEx n hf)
        have : s'.2.history = s.2.history ++ [.input ev s.2.under, .sent n k] := by
          simp [Ui.history, k2 n e hf he, Note.tick]
        rw [this, accept_append, h.keyRun, hfoc, hf]
        simp only [Option.bind_some, accept, keyRule, hk, Option.map_some, if_pos hmem, if_true]
  · rw [hhist]
    refine segmented_event h.releases hsent fun button hb hd => ⟨s.2.inAction, hs.pressed, ?_⟩
    have hdrag : s.2.drag = none := by
      have := hs.calm.dragRun
      rw [hd] at this
      simp only [Option.some.injEq, Ui.phase] at this
      cases hx : s.2.drag with
      | none => rfl
      | some n => rw [hx] at this; simp at this
    have hr := hh.release button hb hdrag
    rw [hhist] at hr
    simpa using hr
  · have hd : DropRule s'.1 = DropRule s.1 := by
      funext a b c d; simp only [DropRule, hlisten]
    rw [hd, hhist]
    refine segmented_event h.drops hsent fun button hb => ?_
    rw [← hhist, hs'.calm.dragRun, hs.calm.dragRun]
    have hdr := hh.drag
    subst hb
    simp only at hdr
    have hany : (s.2.under.any s.1.takesDrop = true) ↔ ∃ n ∈ s.2.under, s.1.listens "ondrop" n = true := by
      simp [Tree.takesDrop]
    by_cases hx : ∃ n ∈ s.2.under, s.1.listens "ondrop" n = true
    · rw [if_pos hx]; rw [if_pos (hany.2 hx)] at hdr; simp [Ui.phase, hdr]
    · rw [if_neg hx]; rw [if_neg (fun hc => hx (hany.1 hc))] at hdr; simp [Ui.phase, hdr]
  · rw [hhist]
    refine segmented_event h.order hsent ?_
    have o : ∀ k, Ordered k → sentTo k (L.map Note.tick) = orderPiece k s.2.under (s.1.pointedAt body) ev := by
      intro k hk
      have := sentTo_event hk hs hev
      rw [hhist, sentTo_append] at this
      have e : ∀ l, sentTo k (.input ev s.2.under :: l) = sentTo k l := fun l => rfl
      rw [e] at this
      exact List.append_cancel_left this
    have o1 := o "onmousedown" (.inl rfl)
    have o2 := o "onmouseup" (.inr (.inl rfl))
    have o3 := o "onmousemove" (.inr (.inr rfl))
    unfold orderPiece at o1 o2 o3
    refine ⟨?_, ?_, ?_⟩
    · rw [o1]; cases ev <;> simp
    · rw [o2]; cases ev <;> simp
    · cases ev with
      | mouseMove p =>
        simp only [if_true] at o3
        have hu := hh.under
        simp only at hu
        simp only
        rw [o3, ← hu]
        refine ⟨by simpa using hs'.nodup, fun n => ?_⟩
        obtain ⟨b, c1, c2⟩ := hs'.hov.cross n
        have c3 := (crossings_alternate n _ _ _ c1).2
        rw [← hhist]
        simp only [List.mem_reverse]
        rw [← c2, c3]
        cases (crossings n s'.2.history).getLast? <;> simp
      | _ => simpa using o3
  · rw [hhist]
    refine segmented_event h.unders hsent fun n => ?_
    obtain ⟨b, c1, c2⟩ := hs.hov.cross n
    have c3 := (crossings_alternate n _ _ _ c1).2
    rw [← c2, c3]
    cases (crossings n s.2.history).getLast? <;> simp
  · intro u hu
    rw [hhist, lastPress_event _ _ _ _ _ hsent] at hu
    rw [hh.focus, htake]
    cases ev with
    | mouseButtonDown b => simp only at hu ⊢; rw [hu]
    | _ => exact h.lastPress u hu
  · intro hno
    rw [hh.focus]
    have hold : ∀ b u, Tick.input (.mouseButtonDown b) u ∉ s.2.history := fun b u hm => hno b u (by rw [hhist]; simp [hm])
    cases ev with
    | mouseButtonDown b => exact absurd (by rw [hhist]; simp) (hno b s.2.under)
    | _ => exact h.noPress hold
  · intro n k l j hm
    rw [l1] at hm
    rw [hh.tree.listener]
    rcases List.mem_append.1 hm with hm | hm
    · exact h.honest n k l j hm
    · rcases List.mem_cons.1 hm with hm | hm
      · simp at hm
      · obtain ⟨n', k', j', e⟩ := l3 _ hm
        injection e with e1 e2 e3 e4
        subst e1; subst e2; exact e3

theorem lastMove_cons (ev : InputEvent) (evs : List InputEvent) :
    lastMove (ev :: evs) = (lastMove evs).or (match ev with | .mouseMove p => some p | _ => none) := by
  cases ev <;> cases h : lastMove evs <;> simp [lastMove, h]

/-- A batch of events. -/
structure Batch (env : Emitter) (body : NodeId) (events : List InputEvent) (s s' : Desk) : Prop where
  tree : StateOnly s.1 s'.1
  mouse : s'.2.mouse = s.2.mouse
  under : s'.2.under = match lastMove events with | some p => s.1.pointedAt body p | none => s.2.under
  emits : ∃ L : List Note, s'.2.log = s.2.log ++ L ∧ s'.2.messages = s.2.messages ++ L.filterMap (Note.message env) ∧
    L.filterMap Note.event = events ∧
    ∀ a ev u b, L = a ++ .input ev u :: b →
      u = match lastMove (a.filterMap Note.event) with | some p => s.1.pointedAt body p | none => s.2.under

theorem handleEvents_ok {env root body} (events : List InputEvent) {s : Desk} (h : Standing root body s) (hr : Recorded s) :
    ∃ s', handleEvents env body events s = .ok s' ∧ Standing root body s' ∧ Recorded s' ∧ Batch env body events s s' := by
  induction events generalizing s with
  | nil => exact ⟨s, rfl, h, hr, .refl _, rfl, rfl, [], by simp, by simp, rfl, by simp⟩
  | cons ev evs ih =>
    obtain ⟨s1, h1, h2, h3⟩ := handleEvent_ok (env := env) h ev
    obtain ⟨s2, g1, g2, g3, g4⟩ := ih h2 (handled_recorded h h2 hr h1 h3)
    refine ⟨s2, by simp only [handleEvents, h1, g1], g2, g3, h3.tree.trans g4.tree, g4.mouse.trans h3.mouse, ?_, ?_⟩
    · rw [g4.under, lastMove_cons]
      cases hl : lastMove evs with
      | some p => simp only [Option.some_or]; exact h3.tree.pointedAt body p
      | none => rw [Option.none_or]; simp only; rw [h3.under]; cases ev <;> rfl
    · obtain ⟨L, l1, l2, l3⟩ := h3.emits
      obtain ⟨M, m1, m2, m3, m4⟩ := g4.emits
      have hL : L.filterMap Note.event = [] := by
        rw [List.filterMap_eq_nil_iff]
        intro x hx
        obtain ⟨n, k, j, rfl⟩ := l3 x hx
        rfl
      refine ⟨.input ev s.2.under :: L ++ M, by rw [m1, l1]; simp, ?_, ?_, ?_⟩
      · rw [m2, l2, List.cons_append, List.filterMap_cons_none rfl, List.filterMap_append, List.append_assoc]
      · simp [Note.event, hL, m3]
      · intro a e u b heq
        cases a with
        | nil =>
          simp only [List.nil_append, List.cons_append, List.cons.injEq, Note.input.injEq] at heq
          obtain ⟨⟨-, rfl⟩, -⟩ := heq
          simp [lastMove]
        | cons x a =>
          simp only [List.cons_append, List.cons.injEq] at heq
          obtain ⟨rfl, heq⟩ := heq
          rcases List.append_eq_append_iff.1 heq with ⟨c, h1', h2'⟩ | ⟨c, h1', h2'⟩
          · have := m4 c e u b h2'
            subst h1'
            rw [this, List.filterMap_cons_some (show Note.event (.input ev s.2.under) = some ev from rfl), List.filterMap_append, hL, List.nil_append, lastMove_cons]
            cases hl : lastMove (c.filterMap Note.event) with
            | some p => simp only [Option.some_or]; exact h3.tree.pointedAt body p
            | none => rw [Option.none_or]; simp only; rw [h3.under]; cases ev <;> rfl
          · cases c with
            | nil =>
              simp only [List.nil_append] at h2'
              simp only [List.append_nil] at h1'
              subst h1'
              have := m4 [] e u b (by simp [← h2'])
              rw [this, List.filterMap_cons_some (show Note.event (.input ev s.2.under) = some ev from rfl), hL, lastMove_cons]
              simp only [List.filterMap_nil, lastMove, Option.none_or]
              rw [h3.under]; cases ev <;> rfl
            | cons y c =>
              simp only [List.cons_append, List.cons.injEq] at h2'
              obtain ⟨rfl, -⟩ := h2'
              obtain ⟨n, k, j, e'⟩ := l3 (.input e u) (by rw [h1']; simp)
              simp at e'

end Verif
