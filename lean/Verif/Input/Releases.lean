import Verif.Input.Presses
/-!
# Press and release as wholes (lemmas for C30-C33, C38)
-/
namespace Verif

/-- What a press does to the state of input. -/
theorem pressMouse_ok {env} {s : Desk} (h : Calm s) (hex : ∀ n ∈ s.2.under, (s.1.ctx n).isSome) (button : MouseButtons) :
    ∃ s', pressMouse env button s = .ok s' ∧ PressFrame env s s' ∧ s'.2.inAction = s.2.inAction ++ s.2.under.reverse ∧
      s'.2.drag = (if button = .left then (s.2.under.find? s.1.drags).or s.2.drag else s.2.drag) ∧
      s'.2.focus = (s.2.under.find? s.1.takesInput).or (s.2.focus.filter (· ∈ s.2.under)) := by
  obtain ⟨s1, h1, h2, h3, h4, h5⟩ := blurOutside_ok (env := env) h
  have := eachNode_ind (f := pressStep env button)
    (fun rem s' => PressFrame env s s' ∧ ∃ past, s.2.under.reverse = past ++ rem ∧ s'.2.inAction = s.2.inAction ++ past ∧
      s'.2.drag = (if button = .left then (past.reverse.find? s.1.drags).or s.2.drag else s.2.drag) ∧
      s'.2.focus = (past.reverse.find? s.1.takesInput).or (s.2.focus.filter (· ∈ s.2.under))) s.2.under.reverse s1
    ⟨h2, [], by simp, by simp [h3], by simp [h4], by simp [h5]⟩ ?_
  · obtain ⟨s', g1, g2, past, g3, g4, g5, g6⟩ := this
    simp only [List.append_nil] at g3
    rw [← g3] at g4 g5 g6
    simp only [List.reverse_reverse] at g5 g6
    exact ⟨s', by simp only [pressMouse, h1, h2.quiet.under, g1], g2, g4, g5, g6⟩
  · rintro n rest s2 ⟨f, past, p1, p2, p3, p4⟩ hmem
    have hn : (s2.1.ctx n).isSome := by
      rw [f.quiet.tree.isSome]; exact hex n (by simpa using hmem)
    obtain ⟨s3, g1, g2, g3, g4, g5⟩ := pressStep_ok (env := env) f.calm hn button
    refine ⟨s3, g1, f.trans g2, past ++ [n], by simp [p1], by simp [g3, p2], ?_, ?_⟩
    · rw [g4, f.quiet.tree.drags, p3, List.reverse_append]
      by_cases hb : button = .left
      · simp only [hb, true_and, if_true, List.reverse_cons, List.reverse_nil, List.nil_append, List.cons_append, List.find?_cons]
        cases s.1.drags n <;> simp
      · simp [hb]
    · rw [g5, f.quiet.tree.takesInput, p4, List.reverse_append]
      simp only [List.reverse_cons, List.reverse_nil, List.nil_append, List.cons_append, List.find?_cons]
      cases s.1.takesInput n <;> simp

/-- The handlers of a release. -/
def ReleaseSends (button : MouseButtons) (under inAction : List NodeId) (n : NodeId) (h : String) : Prop :=
  h ∈ ["onmouseup", "ondrop", "ondragend"] ∨ (h = "oncontextmenu" ∧ button = .right) ∨
    (h = "onclick" ∧ button = .left ∧ n ∈ under ∧ n ∈ inAction)

abbrev Tree.takesDrop (t : Tree) (n : NodeId) : Bool := t.listens "ondrop" n

theorem releaseStep_ok {env} {s : Desk} (h : Calm s) {n : NodeId} (hn : (s.1.ctx n).isSome) (hu : n ∈ s.2.under)
    (button : MouseButtons) :
    ∃ u', releaseStep env button s n = .ok (s.1, u') ∧ Quiet env (ReleaseSends button s.2.under s.2.inAction) s (s.1, u') ∧
      Calm (s.1, u') ∧ u'.inAction = s.2.inAction ∧ u'.focus = s.2.focus ∧
      u'.drag = (if s.1.takesDrop n then none else s.2.drag) ∧
      (s.2.drag = none → u'.history = s.2.history ++ (.sent n "onmouseup" ::
        ((if button = .left ∧ n ∈ s.2.inAction then [.sent n "onclick"] else []) ++
         (if button = .right then [.sent n "oncontextmenu"] else [])))) := by
  obtain ⟨t, u⟩ := s
  obtain ⟨e, he⟩ := Option.isSome_iff_exists.1 hn
  simp only at he hu
  unfold releaseStep
  simp only [Tree.elem, he, emitMouse_drag]
  have q1 : Quiet env (ReleaseSends button u.under u.inAction) (t, u) (t, u.emitMouse env n e "onmouseup") :=
    (quiet_emit he ..).mono fun m x hx => .inl (by simp [hx.2])
  have c1 : Calm (t, u.emitMouse env n e "onmouseup") := h.send n e (by simp [Plain]) _
  have htd : t.takesDrop n = (e.listeners "ondrop").isSome := by simp [Tree.takesDrop, Tree.listens, Tree.listener, he]
  cases hd : u.drag with
  | some source =>
    obtain ⟨e', he'⟩ := Option.isSome_iff_exists.1 (h.dragEx source hd)
    simp only at he'
    simp only [he']
    by_cases hl : (e.listeners "ondrop").isSome = true
    · simp only [hl, if_true, htd]
      refine ⟨_, rfl, ?_, ?_, rfl, rfl, rfl, by simp⟩
      · have qa := (quiet_emit (env := env) he (u.emitMouse env n e "onmouseup") "ondrop" (mouseEvent u.mouse e)).mono
          (H' := ReleaseSends button u.under u.inAction) fun m x hx => .inl (by simp [hx.2])
        have qb := (quiet_emit (env := env) he' ({ (u.emitMouse env n e "onmouseup").emitMouse env n e "ondrop" with drag := none } : Ui)
          "ondragend" (mouseEvent u.mouse e')).mono
          (H' := ReleaseSends button u.under u.inAction) fun m x hx => .inl (by simp [hx.2])
        exact q1.trans (qa.trans ⟨qb.tree, qb.mouse, qb.under, qb.emits⟩)
      · exact c1.drop hd
    · simp only [hl, htd]
      exact ⟨_, rfl, q1, c1, rfl, rfl, hd, by simp⟩
  | none =>
    simp only
    have hact := h.active n e he
    simp only at hact
    generalize hu2 : (if (decide (button = .left) && e.state.active) = true then
        (u.emitMouse env n e "onmouseup").emitMouse env n e "onclick" else u.emitMouse env n e "onmouseup") = u2
    have A : Quiet env (ReleaseSends button u.under u.inAction) (t, u) (t, u2) ∧ Calm (t, u2) ∧ u2.inAction = u.inAction ∧
        u2.focus = u.focus ∧ u2.drag = none ∧ u2.history = u.history ++ (.sent n "onmouseup" ::
          (if button = .left ∧ n ∈ u.inAction then [.sent n "onclick"] else [])) := by
      by_cases hb : button = .left ∧ n ∈ u.inAction
      · have hb' : (decide (button = .left) && e.state.active) = true := by simp [hb.1, hact.2 hb.2]
        rw [if_pos hb'] at hu2
        subst hu2
        refine ⟨q1.trans ((quiet_emit he ..).mono fun m x hx => .inr (.inr ⟨hx.2, hb.1, hx.1 ▸ hu, hx.1 ▸ hb.2⟩)),
          c1.send n e (by simp [Plain]) _, rfl, rfl, hd, ?_⟩
        simp [hb]
      · have hb' : ¬ (decide (button = .left) && e.state.active) = true := by
          simp only [Bool.and_eq_true, decide_eq_true_eq, hact]; exact hb
        rw [if_neg hb'] at hu2
        subst hu2
        exact ⟨q1, c1, rfl, rfl, hd, by simp [hb]⟩
    obtain ⟨a1, a2, a3, a4, a5, a6⟩ := A
    by_cases hr : button = .right
    · simp only [hr, if_true]
      refine ⟨_, rfl, ?_, a2.send n e (by simp [Plain]) _, a3, a4, ?_, fun _ => ?_⟩
      · have := a1.trans (c := (t, u2.emitMouse env n e "oncontextmenu"))
          ((quiet_emit he ..).mono fun m x hx => .inr (.inl ⟨hx.2, hr⟩))
        rw [hr] at this; exact this
      · rw [emitMouse_drag, a5]; simp
      · rw [emitMouse_history, a6, hr]; simp
    · simp only [hr, if_false]
      exact ⟨_, rfl, a1, a2, a3, a4, by rw [a5]; simp, fun _ => by rw [a6]; simp⟩

/-- The loop over the released elements. -/
theorem releaseLoop_ok {env} {s : Desk} (h : Calm s) (hex : ∀ n ∈ s.2.under, (s.1.ctx n).isSome) (button : MouseButtons) :
    ∃ u', eachNode (releaseStep env button) s.2.under.reverse s = .ok (s.1, u') ∧
      Quiet env (ReleaseSends button s.2.under s.2.inAction) s (s.1, u') ∧
      Calm (s.1, u') ∧ u'.inAction = s.2.inAction ∧ u'.focus = s.2.focus ∧
      u'.drag = (if s.2.under.any s.1.takesDrop then none else s.2.drag) ∧
      (s.2.drag = none → u'.history = s.2.history ++ s.2.under.reverse.flatMap fun n => (.sent n "onmouseup" ::
        ((if button = .left ∧ n ∈ s.2.inAction then [.sent n "onclick"] else []) ++
         (if button = .right then [.sent n "oncontextmenu"] else [])))) := by
  have := eachNode_ind (f := releaseStep env button)
    (fun rem s' => s'.1 = s.1 ∧ Quiet env (ReleaseSends button s.2.under s.2.inAction) s s' ∧ Calm s' ∧
      s'.2.inAction = s.2.inAction ∧ s'.2.focus = s.2.focus ∧ ∃ past, s.2.under.reverse = past ++ rem ∧
      s'.2.drag = (if past.any s.1.takesDrop then none else s.2.drag) ∧
      (s.2.drag = none → s'.2.history = s.2.history ++ past.flatMap fun n => (.sent n "onmouseup" ::
        ((if button = .left ∧ n ∈ s.2.inAction then [.sent n "onclick"] else []) ++
         (if button = .right then [.sent n "oncontextmenu"] else []))))) s.2.under.reverse s
    ⟨rfl, .refl s, h, rfl, rfl, [], by simp, by simp, by simp⟩ ?_
  · obtain ⟨⟨t', u'⟩, g1, rfl, g2, g3, g4, g5, past, g6, g7, g8⟩ := this
    simp only [List.append_nil] at g6
    rw [← g6] at g7 g8
    rw [List.any_reverse] at g7
    exact ⟨u', g1, g2, g3, g4, g5, g7, g8⟩
  · rintro n rest ⟨t2, u2⟩ ⟨rfl, hq, hc, ha, hf, past, p1, p2, p3⟩ hmem
    have hu : n ∈ s.2.under := by simpa using hmem
    obtain ⟨u3, g1, g2, g3, g4, g5, g6, g7⟩ := releaseStep_ok (env := env) hc (hex n hu) (n := n) (hq.under ▸ hu) button
    simp only at g4 g5 g6 g7 ha hf p2 p3
    refine ⟨(s.1, u3), g1, rfl, ?_, g3, by simp only [g4, ha], by simp only [g5, hf], past ++ [n], by simp [p1], ?_, fun hd => ?_⟩
    · refine hq.trans ?_
      have hu2 : u2.under = s.2.under := hq.under
      simp only [hu2, ha] at g2
      exact g2
    · simp only [g6, p2, List.any_append, List.any_cons, List.any_nil, Bool.or_false]
      cases past.any s.1.takesDrop <;> cases s.1.takesDrop n <;> simp
    · have hd2 : u2.drag = none := by rw [p2, hd]; simp
      simp only [g7 hd2, p3 hd, ha, List.flatMap_append, List.flatMap_cons, List.flatMap_nil, List.append_nil, List.append_assoc]

/-- What the loop that ends the active state keeps. -/
structure StatesBut (t t' : Tree) : Prop where
  tree : StateOnly t t'
  rest : ∀ n e e', t.ctx n = some e → t'.ctx n = some e' → e'.state.hover = e.state.hover ∧ e'.state.focus = e.state.focus

theorem calmLoop_ok {s : Desk} {l : List NodeId} (hex : ∀ n ∈ l, (s.1.ctx n).isSome)
    (ha : ∀ n e, s.1.ctx n = some e → e.state.active = true → n ∈ l) :
    ∃ t', eachNode calmStep l s = .ok (t', s.2) ∧ StatesBut s.1 t' ∧ ∀ n e, t'.ctx n = some e → e.state.active = false := by
  have := eachNode_ind (f := calmStep)
    (fun rem s' => s'.2 = s.2 ∧ StatesBut s.1 s'.1 ∧ ∀ n e, s'.1.ctx n = some e → e.state.active = true → n ∈ rem) l s
    ⟨rfl, ⟨.refl _, fun n e e' h h' => by rw [h] at h'; injection h' with h'; subst h'; exact ⟨rfl, rfl⟩⟩, ha⟩ ?_
  · obtain ⟨⟨t', u'⟩, g1, rfl, g2, g3⟩ := this
    refine ⟨t', g1, g2, fun n e he => ?_⟩
    cases hh : e.state.active with
    | false => rfl
    | true => simpa using g3 n e he hh
  · rintro n rest ⟨t2, u2⟩ ⟨rfl, hs, hr⟩ hmem
    obtain ⟨e, he⟩ := Option.isSome_iff_exists.1 (hex n hmem)
    obtain ⟨e2, he2, -⟩ := hs.tree.there n e he
    simp only at he2
    refine ⟨(t2.setCtx n { e2 with state := { e2.state with active := false } }, s.2), by simp only [calmStep, Tree.elem, he2], rfl, ⟨hs.tree.trans (stateOnly_setCtx he2 _), ?_⟩, ?_⟩
    · intro m a b hA hB
      rcases setCtx_cases hB with ⟨rfl, rfl⟩ | ⟨hne, hB⟩
      · exact hs.rest m a e2 hA he2
      · exact hs.rest m a b hA hB
    · intro m x hx hax
      rcases setCtx_cases hx with ⟨rfl, rfl⟩ | ⟨hne, hx⟩
      · simp at hax
      · rcases List.mem_cons.1 (hr m x hx hax) with h | h
        · exact absurd h hne
        · exact h

theorem releaseMouse_ok {env} {s : Desk} (h : Calm s) (hex : ∀ n ∈ s.2.under, (s.1.ctx n).isSome) (button : MouseButtons) :
    ∃ s', releaseMouse env button s = .ok s' ∧ Quiet env (ReleaseSends button s.2.under s.2.inAction) s s' ∧
      SameHover s.1 s'.1 ∧ Calm s' ∧ s'.2.inAction = [] ∧ s'.2.focus = s.2.focus ∧
      s'.2.drag = (if s.2.under.any s.1.takesDrop then none else s.2.drag) ∧
      (s.2.drag = none → s'.2.history = s.2.history ++ s.2.under.reverse.flatMap fun n => (.sent n "onmouseup" ::
        ((if button = .left ∧ n ∈ s.2.inAction then [.sent n "onclick"] else []) ++
         (if button = .right then [.sent n "oncontextmenu"] else [])))) := by
  obtain ⟨u1, h1, h2, h3, h4, h5, h6, h7⟩ := releaseLoop_ok (env := env) h hex button
  obtain ⟨t2, g1, g2, g3⟩ := calmLoop_ok (s := (s.1, { u1 with inAction := [] })) (l := u1.inAction)
    (fun n hn => h.actEx n (h4 ▸ hn)) (fun n e he ha => by rw [h4]; exact (h.active n e he).1 ha)
  refine ⟨(t2, { u1 with inAction := [] }), by simp only [releaseMouse, h1, g1], ?_, ?_, ?_, rfl, h5, h6, h7⟩
  · exact ⟨g2.tree, h2.mouse, h2.under, h2.emits⟩
  · exact fun n e e' he he' => (g2.rest n e e' he he').1
  · refine ⟨fun n e he => ?_, fun n e he => ?_, h3.focusRun, h3.dragRun, by simp, fun n hn => ?_, fun n hn => ?_⟩
    · simp [g3 n e he]
    · obtain ⟨e0, he0, -⟩ := g2.tree.back he
      rw [(g2.rest n e0 e he0 he).2]
      exact h3.focus n e0 he0
    · simp only [g2.tree.isSome]; exact h3.focusEx n hn
    · simp only [g2.tree.isSome]; exact h3.dragEx n hn

/-- Keyboard input. -/
theorem keyboard_ok {env} {s : Desk} (h : Calm s) {handler : String} (hp : Plain handler) (event : Element → Json) :
    ∃ u', keyboard env handler event s = .ok (s.1, u') ∧ Quiet env (fun n k => s.2.focus = some n ∧ k = handler) s (s.1, u') ∧
      Calm (s.1, u') ∧ u'.inAction = s.2.inAction ∧ u'.focus = s.2.focus ∧ u'.drag = s.2.drag ∧
      ∀ n e, s.2.focus = some n → s.1.ctx n = some e →
        u'.log = s.2.log ++ [.sent n handler (e.listeners handler) (event e)] := by
  obtain ⟨t, u⟩ := s
  unfold keyboard
  cases hf : u.focus with
  | none => exact ⟨u, rfl, .refl _, h, rfl, hf, rfl, by simp⟩
  | some f =>
    obtain ⟨e, he⟩ := Option.isSome_iff_exists.1 (h.focusEx f hf)
    simp only at he
    simp only [Tree.elem, he]
    refine ⟨_, rfl, (quiet_emit he ..).mono fun m x hx => ⟨by rw [hx.1], hx.2⟩, h.send f e hp _, rfl, hf, rfl, ?_⟩
    rintro n e' hn he'
    injection hn with hn; subst hn
    rw [he] at he'; injection he' with he'; subst he'
    rfl

end Verif
