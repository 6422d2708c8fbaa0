import Verif.Input.Under
/-!
# One event at a time (lemmas for C28-C34, C36, C38)
-/
namespace Verif

/-- Only input states of elements differ. -/
abbrev StateOnly : Tree → Tree → Prop := Tree.Related fun e e' => e' = { e with state := e'.state }

theorem StateOnly.refl (t : Tree) : StateOnly t t :=
  Tree.Related.refl (R := fun e e' => e' = { e with state := e'.state }) (fun _ => rfl) t

theorem StateOnly.trans {a b c : Tree} (h : StateOnly a b) (g : StateOnly b c) : StateOnly a c :=
  Tree.Related.trans (R := fun e e' => e' = { e with state := e'.state }) (S := fun e e' => e' = { e with state := e'.state })
    (fun x y z h1 h2 => by rw [h2, h1]) h g

theorem StateOnly.sameForm {a b : Tree} (h : StateOnly a b) : SameForm a b :=
  Tree.Related.mono (fun x y hxy => by rw [hxy]; exact ⟨rfl, rfl, rfl, rfl, rfl, rfl, rfl, rfl, rfl⟩) h

theorem StateOnly.pointed {a b : Tree} (h : StateOnly a b) (p : Rat × Rat) (n : NodeId) :
    pointedB b p n = pointedB a p n := by
  unfold pointedB
  cases he : a.ctx n with
  | none => rw [h.gone n he]
  | some e => obtain ⟨e', h1, h2⟩ := h.there n e he; rw [h1, h2]; rfl

theorem stateOnly_setCtx {t : Tree} {n : NodeId} {e : Element} (he : t.ctx n = some e) (st : ElementState) :
    StateOnly t (t.setCtx n { e with state := st }) := by
  refine ⟨rfl, rfl, rfl, fun m hm => ?_, fun m x hx => ?_⟩
  · by_cases hmn : m = n
    · subst hmn; rw [he] at hm; simp at hm
    · simp only [Tree.setCtx, upd_other _ _ hmn]; exact hm
  · by_cases hmn : m = n
    · subst hmn; rw [he] at hx; injection hx with hx; subst hx
      exact ⟨_, upd_same _ _ _, rfl⟩
    · exact ⟨x, by simp only [Tree.setCtx, upd_other _ _ hmn]; exact hx, rfl⟩

theorem accept_append {σ : Type} (step : σ → Tick → Option σ) (s : σ) (a b : List Tick) :
    accept step s (a ++ b) = (accept step s a).bind fun s' => accept step s' b := by
  induction a generalizing s with
  | nil => rfl
  | cons x a ih =>
    simp only [List.cons_append, accept]
    cases step s x with
    | none => rfl
    | some s' => exact ih s'

theorem accept_ignored {σ : Type} {step : σ → Tick → Option σ} (l : List Tick) {s : σ}
    (h : ∀ x ∈ l, step s x = some s) : accept step s l = some s := by
  induction l with
  | nil => rfl
  | cons x l ih =>
    simp only [accept, h x (by simp)]
    exact ih (fun y hy => h y (by simp [hy]))

/-- The effects every step has: element states, and notes of handlers `H`. -/
structure Quiet (env : Emitter) (H : NodeId → String → Prop) (s s' : Desk) : Prop where
  tree : StateOnly s.1 s'.1
  mouse : s'.2.mouse = s.2.mouse
  under : s'.2.under = s.2.under
  emits : ∃ L : List Note, s'.2.log = s.2.log ++ L ∧ s'.2.messages = s.2.messages ++ L.filterMap (Note.message env) ∧
    ∀ x ∈ L, ∃ n h ev, x = .sent n h (s.1.listener n h) ev ∧ H n h

theorem StateOnly.listener {t t' : Tree} (h : StateOnly t t') (n : NodeId) (k : String) : t'.listener n k = t.listener n k := by
  unfold Tree.listener
  cases he : t.ctx n with
  | none => rw [h.gone n he]
  | some e => obtain ⟨e', h1, h2⟩ := h.there n e he; rw [h1, h2]; rfl

theorem setCtx_self (t : Tree) (n : NodeId) (e : Element) : (t.setCtx n e).ctx n = some e := upd_same ..

theorem Quiet.refl {env H} (s : Desk) : Quiet env H s s :=
  ⟨.refl _, rfl, rfl, [], by simp, by simp, by simp⟩

theorem Quiet.trans {env H} {a b c : Desk} (h : Quiet env H a b) (g : Quiet env H b c) : Quiet env H a c := by
  obtain ⟨L, l1, l2, l3⟩ := h.emits
  obtain ⟨M, m1, m2, m3⟩ := g.emits
  refine ⟨h.tree.trans g.tree, g.mouse.trans h.mouse, g.under.trans h.under, L ++ M, ?_, ?_, ?_⟩
  · rw [m1, l1, List.append_assoc]
  · rw [m2, l2, List.append_assoc, List.filterMap_append]
  · intro x hx
    rcases List.mem_append.1 hx with hx | hx
    · exact l3 x hx
    · obtain ⟨n, k, ev, e1, e2⟩ := m3 x hx
      exact ⟨n, k, ev, by rw [e1, h.tree.listener], e2⟩

theorem Quiet.mono {env H H'} {a b : Desk} (h : Quiet env H a b) (hH : ∀ n x, H n x → H' n x) : Quiet env H' a b := by
  obtain ⟨L, l1, l2, l3⟩ := h.emits
  refine ⟨h.tree, h.mouse, h.under, L, l1, l2, fun x hx => ?_⟩
  obtain ⟨n, k, ev, e1, e2⟩ := l3 x hx
  exact ⟨n, k, ev, e1, hH _ _ e2⟩

/-- The notes a quiet step adds, as ticks. -/
theorem Quiet.history {env H} {a b : Desk} (h : Quiet env H a b) :
    ∃ L : List Tick, b.2.history = a.2.history ++ L ∧ ∀ x ∈ L, ∃ n k, x = .sent n k ∧ H n k := by
  obtain ⟨L, l1, l2, l3⟩ := h.emits
  refine ⟨L.map Note.tick, by simp [Ui.history, l1], ?_⟩
  simp only [List.mem_map]
  rintro x ⟨y, hy, rfl⟩
  obtain ⟨n, k, ev, rfl, e2⟩ := l3 y hy
  exact ⟨n, k, rfl, e2⟩

theorem quiet_emit {env} {t : Tree} {n : NodeId} {e : Element} (he : t.ctx n = some e) (u : Ui) (h : String) (ev : Json) :
    Quiet env (fun m x => m = n ∧ x = h) (t, u) (t, u.emit env n e h ev) := by
  refine ⟨.refl _, rfl, rfl, [.sent n h (e.listeners h) ev], rfl, ?_, ?_⟩
  · simp only [Ui.emit, List.filterMap_cons, List.filterMap_nil, Note.message]
    cases e.listeners h <;> simp
  · simp only [List.mem_singleton]; rintro x rfl; exact ⟨n, h, ev, by simp [Tree.listener, he], rfl, rfl⟩

theorem quiet_setCtx {env H} {t : Tree} {n : NodeId} {e : Element} (he : t.ctx n = some e) (st : ElementState) (u : Ui) :
    Quiet env H (t, u) (t.setCtx n { e with state := st }, u) :=
  ⟨stateOnly_setCtx he st, rfl, rfl, [], by simp, by simp, by simp⟩

@[simp] theorem emit_history {env} (u : Ui) (n : NodeId) (e : Element) (h : String) (ev : Json) :
    (u.emit env n e h ev).history = u.history ++ [.sent n h] := by
  simp [Ui.emit, Ui.history, Note.tick]

@[simp] theorem emitMouse_history {env} (u : Ui) (n : NodeId) (e : Element) (h : String) :
    (u.emitMouse env n e h).history = u.history ++ [.sent n h] := emit_history ..

@[simp] theorem emitMouse_drag {env} (u : Ui) (n : NodeId) (e : Element) (h : String) :
    (u.emitMouse env n e h).drag = u.drag := rfl
@[simp] theorem emitMouse_focus {env} (u : Ui) (n : NodeId) (e : Element) (h : String) :
    (u.emitMouse env n e h).focus = u.focus := rfl
@[simp] theorem emitMouse_inAction {env} (u : Ui) (n : NodeId) (e : Element) (h : String) :
    (u.emitMouse env n e h).inAction = u.inAction := rfl
@[simp] theorem emitMouse_under {env} (u : Ui) (n : NodeId) (e : Element) (h : String) :
    (u.emitMouse env n e h).under = u.under := rfl

/-- Induction over a loop. -/
theorem eachNode_ind {f : Desk → NodeId → Except Fail Desk} (P : List NodeId → Desk → Prop) (l : List NodeId) (s : Desk)
    (h0 : P l s) (hstep : ∀ n rest s, P (n :: rest) s → n ∈ l → ∃ s', f s n = .ok s' ∧ P rest s') :
    ∃ s', eachNode f l s = .ok s' ∧ P [] s' := by
  induction l generalizing s with
  | nil => exact ⟨s, rfl, h0⟩
  | cons n l ih =>
    obtain ⟨s1, h1, h2⟩ := hstep n l s h0 (by simp)
    obtain ⟨s2, g1, g2⟩ := ih s1 h2 (fun m rest s hp hm => hstep m rest s hp (by simp [hm]))
    exact ⟨s2, by simp only [eachNode, h1]; exact g1, g2⟩

/-! ## Moving -/

/-- The handlers of a mouse move. -/
def MoveSends (drag : Option NodeId) (_ : NodeId) (h : String) : Prop :=
  h ∈ ["onmouseleave", "onmouseenter", "onmousemove"] ∨
    (drag.isSome = true ∧ h ∈ ["ondragleave", "ondragenter", "ondragover"])

/-- Enter and leave of one node. -/
def crossRule (n : NodeId) (inside : Bool) : Tick → Option Bool
  | .sent m h =>
    if m = n ∧ h = "onmouseenter" then (if inside then none else some true)
    else if m = n ∧ h = "onmouseleave" then (if inside then some false else none)
    else some inside
  | _ => some inside

/-- What hovering looks like while the set of hovered nodes is `S`. -/
structure HoverIs (s : Desk) (S : NodeId → Prop) : Prop where
  hover : ∀ n e, s.1.ctx n = some e → (e.state.hover = true ↔ S n)
  cross : ∀ n, ∃ b, accept (crossRule n) false s.2.history = some b ∧ (b = true ↔ S n)

/-- The parts of the state a mouse move leaves alone. -/
structure SameRest (s s' : Desk) : Prop where
  drag : s'.2.drag = s.2.drag
  focus : s'.2.focus = s.2.focus
  inAction : s'.2.inAction = s.2.inAction
  states : ∀ n e e', s.1.ctx n = some e → s'.1.ctx n = some e' →
    e'.state.active = e.state.active ∧ e'.state.focus = e.state.focus ∧ e'.state.checked = e.state.checked

theorem SameRest.refl (s : Desk) : SameRest s s :=
  ⟨rfl, rfl, rfl, fun n e e' h h' => by rw [h] at h'; injection h' with h'; subst h'; exact ⟨rfl, rfl, rfl⟩⟩

theorem SameRest.trans {a b c : Desk} (hab : StateOnly a.1 b.1) (h : SameRest a b) (g : SameRest b c) : SameRest a c := by
  refine ⟨g.drag.trans h.drag, g.focus.trans h.focus, g.inAction.trans h.inAction, fun n e e' he he' => ?_⟩
  obtain ⟨e1, h1, -⟩ := hab.there n e he
  obtain ⟨x1, x2, x3⟩ := h.states n e e1 he h1
  obtain ⟨y1, y2, y3⟩ := g.states n e1 e' h1 he'
  exact ⟨y1.trans x1, y2.trans x2, y3.trans x3⟩

theorem leaveStep_ok {env} {s : Desk} {n : NodeId} {e : Element} (he : s.1.ctx n = some e) {S : NodeId → Prop}
    (hS : HoverIs s S) (hn : S n) :
    ∃ s', leaveStep env s n = .ok s' ∧ Quiet env (MoveSends s.2.drag) s s' ∧ SameRest s s' ∧
      HoverIs s' (fun m => S m ∧ (m ≠ n ∨ n ∈ s.2.under)) := by
  unfold leaveStep
  by_cases hu : n ∈ s.2.under
  · rw [if_pos hu]
    exact ⟨s, rfl, .refl s, .refl s, ⟨fun m x hx => by simp [hS.hover m x hx, hu],
      fun m => by obtain ⟨b, h1, h2⟩ := hS.cross m; exact ⟨b, h1, by simp [h2, hu]⟩⟩⟩
  · rw [if_neg hu]
    obtain ⟨t, u⟩ := s
    simp only at he
    simp only [Tree.elem, he]
    generalize hE : ({ e with state := { e.state with hover := false } } : Element) = E
    have q0 : Quiet env (MoveSends u.drag) (t, u) (t.setCtx n E, u) := by rw [← hE]; exact quiet_setCtx he _ u
    have q1 : Quiet env (MoveSends u.drag) (t.setCtx n E, u) (t.setCtx n E, u.emitMouse env n E "onmouseleave") :=
      (quiet_emit (setCtx_self ..) ..).mono fun m x hx => .inl (by simp [hx.2])
    refine ⟨_, rfl, ?_, ?_, ?_⟩
    · refine q0.trans (q1.trans ?_)
      by_cases hd : u.drag.isSome = true
      · simp only [emitMouse_drag, hd, if_true]
        exact (quiet_emit (setCtx_self ..) ..).mono fun m x hx => .inr ⟨hd, by simp [hx.2]⟩
      · simp only [emitMouse_drag, hd]
        exact .refl _
    · have : ∀ u', u'.drag = u.drag ∧ u'.focus = u.focus ∧ u'.inAction = u.inAction →
          SameRest (t, u) (t.setCtx n E, u') := by
        rintro u' ⟨h1, h2, h3⟩
        refine ⟨h1, h2, h3, fun m a a' ha ha' => ?_⟩
        by_cases hm : m = n
        · subst hm
          simp only [Tree.setCtx, upd_same, Option.some.injEq] at ha'
          simp only at ha
          rw [he] at ha; injection ha with ha; subst ha; subst ha'; subst hE; exact ⟨rfl, rfl, rfl⟩
        · simp only [Tree.setCtx, upd_other _ _ hm] at ha'
          simp only at ha
          rw [ha] at ha'; injection ha' with ha'; subst ha'; exact ⟨rfl, rfl, rfl⟩
      apply this
      split <;> simp
    · have hist : ∀ m, accept (crossRule m) false (if (u.emitMouse env n E "onmouseleave").drag.isSome then
            (u.emitMouse env n E "onmouseleave").emitMouse env n E "ondragleave" else u.emitMouse env n E "onmouseleave").history
          = (accept (crossRule m) false u.history).bind fun b => if m = n then (if b then some false else none) else some b := by
        intro m
        have key : ∀ b, accept (crossRule m) b [.sent n "onmouseleave"] = if m = n then (if b then some false else none) else some b := by
          intro b
          by_cases hm : m = n
          · subst hm; cases b <;> simp [accept, crossRule]
          · simp [accept, crossRule, hm, Ne.symm hm]
        split
        · simp only [emitMouse_history, List.append_assoc, accept_append]
          congr 1; funext b
          rw [key]
          by_cases hm : m = n
          · subst hm; cases b <;> simp [accept, crossRule]
          · simp [accept, crossRule, hm]
        · simp only [emitMouse_history, accept_append, key]
      refine ⟨fun m x hx => ?_, fun m => ?_⟩
      · by_cases hm : m = n
        · subst hm
          simp only [Tree.setCtx, upd_same, Option.some.injEq] at hx
          subst hx; subst hE
          simp only at hu
          simp [hu]
        · simp only [Tree.setCtx, upd_other _ _ hm] at hx
          simp [hS.hover m x hx, hm]
      · obtain ⟨b, h1, h2⟩ := hS.cross m
        simp only at h1
        rw [hist, h1]
        simp only at hu
        by_cases hm : m = n
        · subst hm
          have : b = true := h2.2 hn
          subst this
          exact ⟨false, by simp, by simp [hu]⟩
        · exact ⟨b, by simp [hm], by simp [h2, hm]⟩

theorem enterStep_ok {env} {previous : List NodeId} {s : Desk} {n : NodeId} {e : Element} (he : s.1.ctx n = some e)
    {S : NodeId → Prop} (hS : HoverIs s S) (hn : S n ↔ n ∈ previous) :
    ∃ s', enterStep env previous s n = .ok s' ∧ Quiet env (MoveSends s.2.drag) s s' ∧ SameRest s s' ∧
      HoverIs s' (fun m => S m ∨ m = n) := by
  unfold enterStep
  obtain ⟨t, u⟩ := s
  simp only at he
  simp only [Tree.elem, he]
  generalize hE : (if n ∈ previous then e else ({ e with state := { e.state with hover := true } } : Element)) = E
  have hE1 : E = { e with state := { e.state with hover := true } } := by
    rw [← hE]
    split
    · rename_i hp
      have := (hS.hover n e he).2 (hn.2 hp)
      cases e with | mk => cases ‹ElementState›; simp at this ⊢; exact this
    · rfl
  generalize hu1 : (if n ∈ previous then u else
      if (u.emitMouse env n E "onmouseenter").drag.isSome then (u.emitMouse env n E "onmouseenter").emitMouse env n E "ondragenter"
      else u.emitMouse env n E "onmouseenter") = u1
  have hrest : u1.drag = u.drag ∧ u1.focus = u.focus ∧ u1.inAction = u.inAction ∧ u1.under = u.under := by
    rw [← hu1]; split
    · simp
    · split <;> simp
  have q0 : Quiet env (MoveSends u.drag) (t, u) (t.setCtx n E, u) := by rw [hE1]; exact quiet_setCtx he _ u
  have q1 : Quiet env (MoveSends u.drag) (t.setCtx n E, u) (t.setCtx n E, u1) := by
    rw [← hu1]
    split
    · exact .refl _
    · have q : Quiet env (MoveSends u.drag) (t.setCtx n E, u) (t.setCtx n E, u.emitMouse env n E "onmouseenter") :=
        (quiet_emit (setCtx_self ..) ..).mono fun m x hx => .inl (by simp [hx.2])
      by_cases hd : u.drag.isSome = true
      · simp only [emitMouse_drag, hd, if_true]
        exact q.trans ((quiet_emit (setCtx_self ..) ..).mono fun m x hx => .inr ⟨hd, by simp [hx.2]⟩)
      · simp only [emitMouse_drag, hd]
        exact q
  have q2 : Quiet env (MoveSends u.drag) (t.setCtx n E, u1) (t.setCtx n E, u1.emitMouse env n E "onmousemove") :=
    (quiet_emit (setCtx_self ..) ..).mono fun m x hx => .inl (by simp [hx.2])
  refine ⟨_, rfl, ?_, ?_, ?_⟩
  · refine q0.trans (q1.trans (q2.trans ?_))
    by_cases hd : u.drag.isSome = true
    · simp only [emitMouse_drag, hrest.1, hd, if_true]
      exact (quiet_emit (setCtx_self ..) ..).mono fun m x hx => .inr ⟨hd, by simp [hx.2]⟩
    · simp only [emitMouse_drag, hrest.1, hd]
      exact .refl _
  · have : ∀ u', u'.drag = u.drag ∧ u'.focus = u.focus ∧ u'.inAction = u.inAction →
        SameRest (t, u) (t.setCtx n E, u') := by
      rintro u' ⟨h1, h2, h3⟩
      refine ⟨h1, h2, h3, fun m a a' ha ha' => ?_⟩
      by_cases hm : m = n
      · subst hm
        simp only [Tree.setCtx, upd_same, Option.some.injEq] at ha'
        simp only at ha
        rw [he] at ha; injection ha with ha; subst ha; subst ha'; rw [hE1]; exact ⟨rfl, rfl, rfl⟩
      · simp only [Tree.setCtx, upd_other _ _ hm] at ha'
        simp only at ha
        rw [ha] at ha'; injection ha' with ha'; subst ha'; exact ⟨rfl, rfl, rfl⟩
    apply this
    split <;> simp [hrest]
  · have c1 : ∀ m, accept (crossRule m) false u1.history
          = (accept (crossRule m) false u.history).bind fun b =>
            if n ∈ previous then some b else if m = n then (if b then none else some true) else some b := by
      intro m
      rw [← hu1]
      by_cases hp : n ∈ previous
      · simp [hp]
      · simp only [hp, if_false]
        have key : ∀ b, accept (crossRule m) b [.sent n "onmouseenter"] = if m = n then (if b then none else some true) else some b := by
          intro b
          by_cases hm : m = n
          · subst hm; cases b <;> simp [accept, crossRule]
          · simp [accept, crossRule, Ne.symm hm, hm]
        split
        · simp only [emitMouse_history, List.append_assoc, accept_append]
          congr 1; funext b
          rw [key]
          by_cases hm : m = n
          · subst hm; cases b <;> simp [accept, crossRule]
          · simp [accept, crossRule, hm]
        · simp only [emitMouse_history, accept_append, key]
    have c2 : ∀ m, accept (crossRule m) false (if (u1.emitMouse env n E "onmousemove").drag.isSome then
          (u1.emitMouse env n E "onmousemove").emitMouse env n E "ondragover" else u1.emitMouse env n E "onmousemove").history
        = accept (crossRule m) false u1.history := by
      intro m
      have k1 : ∀ b, accept (crossRule m) b [.sent n "onmousemove"] = some b := by intro b; simp [accept, crossRule]
      have k2 : ∀ b, accept (crossRule m) b [.sent n "ondragover"] = some b := by intro b; simp [accept, crossRule]
      split <;> simp only [emitMouse_history, List.append_assoc, accept_append, k1, k2, Option.bind_some, Option.bind_fun_some]
    refine ⟨fun m x hx => ?_, fun m => ?_⟩
    · by_cases hm : m = n
      · subst hm
        simp only [Tree.setCtx, upd_same, Option.some.injEq] at hx
        subst hx; rw [hE1]; simp
      · simp only [Tree.setCtx, upd_other _ _ hm] at hx
        simp [hS.hover m x hx, hm]
    · obtain ⟨b, h1, h2⟩ := hS.cross m
      simp only at h1
      rw [c2, c1, h1]
      by_cases hp : n ∈ previous
      · refine ⟨b, by simp [hp], ?_⟩
        rw [h2]
        constructor
        · exact .inl
        · rintro (h | rfl)
          · exact h
          · exact hn.2 hp
      · by_cases hm : m = n
        · subst hm
          have : b = false := by
            cases b with
            | false => rfl
            | true => exact absurd (hn.1 (h2.1 rfl)) hp
          subst this
          exact ⟨true, by simp [hp], by simp⟩
        · exact ⟨b, by simp [hp, hm], by simp [h2, hm]⟩

end Verif
