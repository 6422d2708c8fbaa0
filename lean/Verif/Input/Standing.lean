import Verif.Input.Releases
/-!
# The invariant of input and the effect of one event (lemmas for C28-C38)
-/
namespace Verif

theorem pressed_snoc (l : List Tick) (x : Tick) (n : NodeId) :
    PressedSince (l ++ [x]) n ↔
      match x with
      | .input (.mouseButtonDown _) u => n ∈ u ∨ PressedSince l n
      | .input (.mouseButtonUp _) _ => False
      | _ => PressedSince l n := by
  have key : PressedSince (l ++ [x]) n ↔ (∃ b u, x = .input (.mouseButtonDown b) u ∧ n ∈ u) ∨
      (PressedSince l n ∧ ∀ b u, x ≠ .input (.mouseButtonUp b) u) := by
    constructor
    · rintro ⟨before, button, under, after, h1, h2, h3⟩
      rcases List.eq_nil_or_concat after with rfl | ⟨a, y, rfl⟩
      · obtain ⟨-, h⟩ := List.append_inj' h1 rfl
        injection h with h
        exact .inl ⟨button, under, h, h2⟩
      · rw [List.concat_eq_append] at h1 h3
        have h1 : l ++ [x] = (before ++ .input (.mouseButtonDown button) under :: a) ++ [y] := by rw [h1]; simp
        obtain ⟨h, h'⟩ := List.append_inj' h1 rfl
        injection h' with h'
        subst h'
        exact .inr ⟨⟨before, button, under, a, h, h2, fun b u hm => h3 b u (by simp [hm])⟩,
          fun b u hx => h3 b u (by simp [hx])⟩
    · rintro (⟨b, u, rfl, hn⟩ | ⟨⟨before, button, under, after, rfl, h2, h3⟩, hx⟩)
      · exact ⟨l, b, u, [], by simp, hn, by simp⟩
      · refine ⟨before, button, under, after ++ [x], by simp, h2, fun b u hm => ?_⟩
        rcases List.mem_append.1 hm with hm | hm
        · exact h3 b u hm
        · simp only [List.mem_singleton] at hm; exact hx b u hm.symm
  rw [key]
  cases x with
  | sent m h => simp
  | input ev u => cases ev <;> simp

theorem pressed_sends (l sends : List Tick) (n : NodeId) (hs : ∀ x ∈ sends, ∃ m k, x = .sent m k) :
    PressedSince (l ++ sends) n ↔ PressedSince l n := by
  induction sends generalizing l with
  | nil => simp
  | cons x sends ih =>
    have : l ++ x :: sends = (l ++ [x]) ++ sends := by simp
    rw [this, ih _ (fun y hy => hs y (by simp [hy])), pressed_snoc]
    obtain ⟨m, k, rfl⟩ := hs x (by simp)
    rfl

theorem pressed_event (l sends : List Tick) (ev : InputEvent) (u : List NodeId) (n : NodeId)
    (hs : ∀ x ∈ sends, ∃ m k, x = .sent m k) :
    PressedSince (l ++ .input ev u :: sends) n ↔
      match ev with
      | .mouseButtonDown _ => n ∈ u ∨ PressedSince l n
      | .mouseButtonUp _ => False
      | _ => PressedSince l n := by
  have : l ++ .input ev u :: sends = (l ++ [.input ev u]) ++ sends := by simp
  rw [this, pressed_sends _ _ _ hs, pressed_snoc]
  cases ev <;> rfl

theorem clicks_event {l sends : List Tick} {ev : InputEvent} {u : List NodeId} (h : ClicksFollowPresses l)
    (hs : ∀ x ∈ sends, ∃ m k, x = .sent m k)
    (hc : ∀ n, .sent n "onclick" ∈ sends → ev = .mouseButtonUp .left ∧ n ∈ u ∧ PressedSince l n) :
    ClicksFollowPresses (l ++ .input ev u :: sends) := by
  intro before after n heq
  rcases List.append_eq_append_iff.1 heq with ⟨a, h1, h2⟩ | ⟨c, h1, h2⟩
  · cases a with
    | nil => simp at h2
    | cons x a =>
      simp only [List.cons_append, List.cons.injEq] at h2
      obtain ⟨rfl, h2⟩ := h2
      obtain ⟨h3, h4, h5⟩ := hc n (by rw [h2]; simp)
      subst h3
      refine ⟨l, u, a, h1, fun e v hm => ?_, h4, h5⟩
      obtain ⟨m, k, hk⟩ := hs _ (by rw [h2]; exact List.mem_append_left _ hm)
      simp at hk
  · cases c with
    | nil => simp at h2
    | cons x c =>
      simp only [List.cons_append, List.cons.injEq] at h2
      obtain ⟨rfl, -⟩ := h2
      exact h before c n h1

/-- The invariant of input between events. -/
structure Standing (root body : NodeId) (s : Desk) : Prop where
  wf : s.1.Wf root body
  calm : Calm s
  hov : HoverIs s (· ∈ s.2.under)
  nodup : s.2.under.Nodup
  ex : ∀ n ∈ s.2.under, (s.1.ctx n).isSome
  takes : ∀ f, s.2.focus = some f → s.1.takesInput f = true
  pressed : ∀ n, n ∈ s.2.inAction ↔ PressedSince s.2.history n
  clicks : ClicksFollowPresses s.2.history

/-- The elements under the pointer when it is at `p`. -/
def Tree.pointedAt (t : Tree) (body : NodeId) (p : Rat × Rat) : List NodeId :=
  (preorder t t.next body).filter (pointedB t p)

theorem StateOnly.pointedAt {t t' : Tree} (h : StateOnly t t') (body : NodeId) (p : Rat × Rat) :
    t'.pointedAt body p = t.pointedAt body p := by
  unfold Tree.pointedAt
  rw [preorder_congr h.kids, h.next]
  congr 1
  funext n; exact h.pointed p n

/-- What an event does. -/
structure Handled (env : Emitter) (body : NodeId) (ev : InputEvent) (s s' : Desk) : Prop where
  tree : StateOnly s.1 s'.1
  mouse : s'.2.mouse = s.2.mouse
  under : s'.2.under = match ev with | .mouseMove p => s.1.pointedAt body p | _ => s.2.under
  emits : ∃ L : List Note, s'.2.log = s.2.log ++ .input ev s.2.under :: L ∧
    s'.2.messages = s.2.messages ++ L.filterMap (Note.message env) ∧ ∀ x ∈ L, ∃ n h j, x = .sent n h (s.1.listener n h) j
  focus : s'.2.focus = match ev with | .mouseButtonDown _ => s.2.under.find? s.1.takesInput | _ => s.2.focus
  drag : s'.2.drag = match ev with
    | .mouseButtonDown .left => (s.2.under.find? s.1.drags).or s.2.drag
    | .mouseButtonUp _ => if s.2.under.any s.1.takesDrop then none else s.2.drag
    | _ => s.2.drag
  action : s'.2.inAction = match ev with
    | .mouseButtonDown _ => s.2.inAction ++ s.2.under.reverse
    | .mouseButtonUp _ => []
    | _ => s.2.inAction
  noKeys : keyHandler ev = none → ∃ L : List Tick, s'.2.history = s.2.history ++ .input ev s.2.under :: L ∧
    ∀ x ∈ L, ∃ n h, x = .sent n h ∧ h ∉ ["onkeydown", "onkeyup", "oninput"]
  release : ∀ button, ev = .mouseButtonUp button → s.2.drag = none →
    s'.2.history = s.2.history ++ .input ev s.2.under :: s.2.under.reverse.flatMap fun n => (.sent n "onmouseup" ::
        ((if button = .left ∧ n ∈ s.2.inAction then [.sent n "onclick"] else []) ++
         (if button = .right then [.sent n "oncontextmenu"] else [])))
  keys : ∀ handler event, (∃ key, ev = .keyDown key ∧ handler = "onkeydown" ∧ event = keyboardEvent key) ∨
      (∃ key, ev = .keyUp key ∧ handler = "onkeyup" ∧ event = keyboardEvent key) ∨
      (∃ c, ev = .char c ∧ handler = "oninput" ∧ event = textEvent c) →
    (s.2.focus = none → s'.2.log = s.2.log ++ [.input ev s.2.under]) ∧
    ∀ n e, s.2.focus = some n → s.1.ctx n = some e →
      s'.2.log = s.2.log ++ [.input ev s.2.under, .sent n handler (e.listeners handler) (event e)]

theorem Calm.noted {t : Tree} {u : Ui} (h : Calm (t, u)) (ev : InputEvent) (under : List NodeId) :
    Calm (t, { u with log := u.log ++ [.input ev under] }) := by
  refine h.tick (x := .input ev under) (by simp [Ui.history, Note.tick]) ⟨rfl, rfl, rfl⟩ (fun s => rfl) ?_
  unfold Ui.phase
  cases u.drag <;> rfl

theorem Quiet.logged {env H} {t : Tree} {u : Ui} {ev : InputEvent} {under cur : List NodeId} {s' : Desk}
    (h : Quiet env H (t, { u with under := cur, log := u.log ++ [.input ev under] }) s') :
    ∃ L : List Note, s'.2.log = u.log ++ .input ev under :: L ∧
    s'.2.messages = u.messages ++ L.filterMap (Note.message env) ∧ ∀ x ∈ L, ∃ n h j, x = .sent n h (t.listener n h) j ∧ H n h := by
  obtain ⟨L, h1, h2, h3⟩ := h.emits
  exact ⟨L, by simpa using h1, h2, h3⟩

theorem logged_ticks {u u' : Ui} {ev : InputEvent} {under : List NodeId} {L : List Note} {K : String → Prop}
    (h : u'.log = u.log ++ .input ev under :: L) (hL : ∀ x ∈ L, ∃ n k l j, x = .sent n k l j ∧ K k) :
    ∃ M : List Tick, u'.history = u.history ++ .input ev under :: M ∧ ∀ x ∈ M, ∃ n k, x = .sent n k ∧ K k := by
  refine ⟨L.map Note.tick, by simp [Ui.history, h, Note.tick], ?_⟩
  simp only [List.mem_map]
  rintro x ⟨y, hy, rfl⟩
  obtain ⟨n, k, l, j, rfl, hk⟩ := hL y hy
  exact ⟨n, k, rfl, hk⟩

/-- Putting the parts of the invariant together after an event. -/
theorem standing_after {env H root body} {t : Tree} {u : Ui} {ev : InputEvent} {cur : List NodeId} {s' : Desk}
    (h : Standing root body (t, u))
    (hq : Quiet env H (t, { u with under := cur, log := u.log ++ [.input ev u.under] }) s')
    (hclick : ∀ n, H n "onclick" → ev = .mouseButtonUp .left ∧ n ∈ u.under ∧ n ∈ u.inAction)
    (hcalm : Calm s') (hhov : HoverIs s' (· ∈ cur)) (hnd : cur.Nodup) (hex : ∀ n ∈ cur, (t.ctx n).isSome)
    (htakes : ∀ f, s'.2.focus = some f → t.takesInput f = true)
    (hact : s'.2.inAction = match ev with
      | .mouseButtonDown _ => u.inAction ++ u.under.reverse
      | .mouseButtonUp _ => []
      | _ => u.inAction) : Standing root body s' := by
  obtain ⟨L, l1, l2, l3⟩ := hq.logged
  have hh : s'.2.history = u.history ++ .input ev u.under :: L.map Note.tick := by
    simp [Ui.history, l1, Note.tick]
  have hs : ∀ x ∈ L.map Note.tick, ∃ m k, x = .sent m k := by
    simp only [List.mem_map]
    rintro x ⟨y, hy, rfl⟩
    obtain ⟨n, k, j, rfl, -⟩ := l3 y hy
    exact ⟨n, k, rfl⟩
  have hp : ∀ n, n ∈ u.inAction ↔ PressedSince u.history n := h.pressed
  refine ⟨hq.tree.sameForm.wf h.wf, hcalm, ?_, ?_, ?_, ?_, ?_, ?_⟩
  · rw [hq.under]; exact hhov
  · rw [hq.under]; exact hnd
  · rw [hq.under]; intro n hn; rw [hq.tree.isSome]; exact hex n hn
  · intro f hf; rw [hq.tree.takesInput]; exact htakes f hf
  · intro n
    rw [hh, pressed_event _ _ _ _ _ hs, hact]
    cases ev with
    | mouseButtonDown b => simp [hp n, or_comm]
    | mouseButtonUp b => simp
    | _ => exact hp n
  · rw [hh]
    refine clicks_event h.clicks hs fun n hn => ?_
    rw [List.mem_map] at hn
    obtain ⟨y, hy, hyn⟩ := hn
    obtain ⟨m, k, j, rfl, hk⟩ := l3 y hy
    simp only [Note.tick, Tick.sent.injEq] at hyn
    obtain ⟨rfl, rfl⟩ := hyn
    obtain ⟨c1, c2, c3⟩ := hclick m hk
    exact ⟨c1, c2, (hp m).1 c3⟩

theorem body_isSome {t : Tree} {root body : NodeId} (h : t.Wf root body) : (t.ctx body).isSome :=
  (h.slotsYounger root body (by simp [Tree.slots])).2.2

theorem HoverIs.noted {t : Tree} {u : Ui} {S : NodeId → Prop} (h : HoverIs (t, u) S) (ev : InputEvent) (under : List NodeId) :
    HoverIs (t, { u with log := u.log ++ [.input ev under] }) S :=
  h.same (.refl _) (.refl _) (L := [.input ev under]) (by simp [Ui.history, Note.tick]) (by simp)

theorem handleEvent_ok {env root body} {s : Desk} (h : Standing root body s) (ev : InputEvent) :
    ∃ s', handleEvent env body s ev = .ok s' ∧ Standing root body s' ∧ Handled env body ev s s' := by
  obtain ⟨t, u⟩ := s
  have hc : Calm (t, { u with log := u.log ++ [.input ev u.under] }) := h.calm.noted ev u.under
  have hh := h.hov.noted ev u.under
  simp only at hh
  have idle : ∀ s', s' = (t, { u with log := u.log ++ [.input ev u.under] }) →
      (match ev with | .mouseMove _ | .mouseButtonDown _ | .mouseButtonUp _ | .keyDown _ | .keyUp _ | .char _ => False | _ => True) →
      Standing root body s' ∧ Handled env body ev (t, u) s' := by
    rintro s' rfl hev
    constructor
    · refine standing_after (env := env) (H := fun _ _ => False) (cur := u.under) h (.refl _) (by simp) hc hh h.nodup h.ex h.takes ?_
      cases ev <;> first | rfl | exact hev.elim
    · refine ⟨.refl _, rfl, ?_, ⟨[], by simp, by simp, by simp⟩, ?_, ?_, ?_, ?_, ?_, ?_⟩
      · cases ev <;> first | rfl | exact hev.elim
      · cases ev <;> first | rfl | exact hev.elim
      · cases ev <;> first | rfl | exact hev.elim
      · cases ev <;> first | rfl | exact hev.elim
      · exact fun _ => ⟨[], by simp [Ui.history, Note.tick], by simp⟩
      · rintro b rfl; exact hev.elim
      · rintro x y (⟨k, rfl, -⟩ | ⟨k, rfl, -⟩ | ⟨k, rfl, -⟩) <;> exact hev.elim
  have keys : ∀ handler event, handler ∈ ["onkeydown", "onkeyup", "oninput"] →
      (match ev with | .keyDown _ | .keyUp _ | .char _ => True | _ => False) →
      (∀ handler' event', (∃ key, ev = .keyDown key ∧ handler' = "onkeydown" ∧ event' = keyboardEvent key) ∨
        (∃ key, ev = .keyUp key ∧ handler' = "onkeyup" ∧ event' = keyboardEvent key) ∨
        (∃ c, ev = .char c ∧ handler' = "oninput" ∧ event' = textEvent c) → handler' = handler ∧ event' = event) →
      ∃ s', keyboard env handler event (t, { u with log := u.log ++ [.input ev u.under] }) = .ok s' ∧
        Standing root body s' ∧ Handled env body ev (t, u) s' := by
    intro handler event hm hev huniq
    have hp : Plain handler := by
      simp only [List.mem_cons, List.not_mem_nil, or_false] at hm
      rcases hm with rfl | rfl | rfl <;> simp [Plain]
    obtain ⟨u', g1, g2, g3, g4, g5, g6, g7⟩ := keyboard_ok (env := env) hc hp event
    simp only at g4 g5 g6 g7
    obtain ⟨L, l1, l2⟩ := g2.history
    refine ⟨(t, u'), g1, ?_, ?_⟩
    · refine standing_after (env := env) (H := fun n k => u.focus = some n ∧ k = handler) (cur := u.under) h g2 ?_ g3 ?_ h.nodup h.ex ?_ ?_
      · rintro n ⟨-, hk⟩
        rw [← hk] at hm; simp at hm
      · refine hh.same g2.tree (.refl _) l1 fun x hx n => ?_
        obtain ⟨m, k, rfl, -, hk⟩ := l2 x hx
        simp only [List.mem_cons, List.not_mem_nil, or_false] at hm
        subst hk
        rcases hm with rfl | rfl | rfl <;> simp
      · intro f hf; exact h.takes f (by rw [← hf]; exact g5.symm)
      · rw [g4]; cases ev <;> first | rfl | exact hev.elim
    · obtain ⟨N, n1, n2, n3⟩ := g2.logged
      refine ⟨g2.tree, g2.mouse, ?_, ⟨N, n1, n2, fun x hx => ?_⟩, ?_, ?_, ?_, ?_, ?_, ?_⟩
      · rw [g2.under]; cases ev <;> first | rfl | exact hev.elim
      · obtain ⟨a, b, c, e, -⟩ := n3 x hx; exact ⟨a, b, c, e⟩
      · rw [g5]; cases ev <;> first | rfl | exact hev.elim
      · rw [g6]; cases ev <;> first | rfl | exact hev.elim
      · rw [g4]; cases ev <;> first | rfl | exact hev.elim
      · intro hk; cases ev <;> first | exact hev.elim | simp [keyHandler] at hk
      · rintro b rfl; exact hev.elim
      · intro handler' event' hx
        obtain ⟨rfl, rfl⟩ := huniq _ _ hx
        constructor
        · intro hf
          rw [n1]
          cases N with
          | nil => rfl
          | cons x N =>
            obtain ⟨a, b, c, -, e, -⟩ := n3 x (by simp)
            simp only at hf
            rw [hf] at e; simp at e
        · intro n e hn he
          rw [g7 n e hn he]; simp
  cases ev with
  | unknown => exact ⟨_, rfl, idle _ rfl trivial⟩
  | mouseWheel d => exact ⟨_, rfl, idle _ rfl trivial⟩
  | mouseMove p =>
    simp only [handleEvent]
    obtain ⟨s', g1, g2, g3, g4, g5, g6⟩ := moveMouse_ok (env := env) (s := (t, { u with log := u.log ++ [.input (.mouseMove p) u.under] }))
      h.wf (body_isSome h.wf) h.nodup h.ex hh p rfl
    have hcalm := hc.moved g2 g3
    refine ⟨s', g1, ?_, ?_⟩
    · refine standing_after (env := env) (ev := .mouseMove p) (cur := t.pointedAt body p) h g2 ?_ hcalm g4 g5 g6 ?_ g3.inAction
      · intro n hn; simp [MoveSends] at hn
      · intro f hf; exact h.takes f (by rw [← hf]; exact g3.focus.symm)
    · obtain ⟨L, l1, l2, l3⟩ := Quiet.logged (t := t) (u := u) (ev := .mouseMove p) (under := u.under) (cur := t.pointedAt body p) g2
      refine ⟨g2.tree, g2.mouse, g2.under, ⟨L, l1, l2, fun x hx => ?_⟩, g3.focus, g3.drag, g3.inAction, fun _ => ?_, by simp, by simp⟩
      · obtain ⟨a, b, c, e, -⟩ := l3 x hx; exact ⟨a, b, c, e⟩
      · refine logged_ticks l1 fun x hx => ?_
        obtain ⟨a, b, c, e, hm⟩ := l3 x hx
        refine ⟨a, b, _, c, e, ?_⟩
        rcases hm with hm | ⟨-, hm⟩ <;> simp only [List.mem_cons, List.not_mem_nil, or_false] at hm <;>
          rcases hm with rfl | rfl | rfl <;> simp
  | mouseButtonDown b =>
    simp only [handleEvent]
    obtain ⟨s', g1, g2, g3, g4, g5⟩ := pressMouse_ok (env := env) hc h.ex b
    simp only at g3 g4 g5
    have g5' : s'.2.focus = u.under.find? t.takesInput := by
      rw [g5]
      cases hf : u.under.find? t.takesInput with
      | some f => rfl
      | none =>
        rw [Option.none_or]
        cases hu : u.focus with
        | none => rfl
        | some f =>
          have ht : t.takesInput f = true := h.takes f hu
          have hno : f ∉ u.under := fun hmem => by
            have := List.find?_eq_none.1 hf f hmem
            exact this ht
          simp [Option.filter, hno]
    obtain ⟨K, k1, k2⟩ := g2.quiet.history
    refine ⟨s', g1, ?_, ?_⟩
    · refine standing_after (env := env) (cur := u.under) h g2.quiet ?_ g2.calm ?_ h.nodup h.ex ?_ g3
      · intro n hn; simp [PressSends] at hn
      · refine hh.same g2.quiet.tree g2.hover k1 fun x hx n => ?_
        obtain ⟨m, k, rfl, hk⟩ := k2 x hx
        simp only [PressSends, List.mem_cons, List.not_mem_nil, or_false] at hk
        rcases hk with rfl | rfl | rfl | rfl <;> simp
      · intro f hf; rw [g5'] at hf; exact List.find?_some hf
    · obtain ⟨L, l1, l2, l3⟩ := g2.quiet.logged (cur := u.under)
      refine ⟨g2.quiet.tree, g2.quiet.mouse, g2.quiet.under, ⟨L, l1, l2, fun x hx => ?_⟩, g5', ?_, g3, fun _ => ?_, by simp, by simp⟩
      · obtain ⟨a, b, c, e, -⟩ := l3 x hx; exact ⟨a, b, c, e⟩
      · rw [g4]; cases b <;> simp
      · refine logged_ticks l1 fun x hx => ?_
        obtain ⟨a, b, c, e, hm⟩ := l3 x hx
        refine ⟨a, b, _, c, e, ?_⟩
        simp only [PressSends, List.mem_cons, List.not_mem_nil, or_false] at hm
        rcases hm with rfl | rfl | rfl | rfl <;> simp
  | mouseButtonUp b =>
    simp only [handleEvent]
    obtain ⟨s', g1, g2, g3, g4, g5, g6, g7, g8⟩ := releaseMouse_ok (env := env) hc h.ex b
    simp only at g5 g6 g7 g8
    obtain ⟨K, k1, k2⟩ := g2.history
    refine ⟨s', g1, ?_, ?_⟩
    · refine standing_after (env := env) (cur := u.under) h g2 ?_ g4 ?_ h.nodup h.ex ?_ g5
      · intro n hn
        rcases hn with hn | ⟨hn, -⟩ | ⟨-, rfl, h1, h2⟩
        · simp at hn
        · simp at hn
        · exact ⟨rfl, h1, h2⟩
      · refine hh.same g2.tree g3 k1 fun x hx n => ?_
        obtain ⟨m, k, rfl, hk⟩ := k2 x hx
        rcases hk with hk | ⟨rfl, -⟩ | ⟨rfl, -⟩
        · simp only [List.mem_cons, List.not_mem_nil, or_false] at hk
          rcases hk with rfl | rfl | rfl <;> simp
        · simp
        · simp
      · intro f hf; exact h.takes f (by rw [← hf]; exact g6.symm)
    · obtain ⟨L, l1, l2, l3⟩ := g2.logged (cur := u.under)
      refine ⟨g2.tree, g2.mouse, g2.under, ⟨L, l1, l2, fun x hx => ?_⟩, g6, g7, g5, fun _ => ?_, ?_, by simp⟩
      · obtain ⟨a, b, c, e, -⟩ := l3 x hx; exact ⟨a, b, c, e⟩
      · refine logged_ticks l1 fun x hx => ?_
        obtain ⟨a, b, c, e, hm⟩ := l3 x hx
        refine ⟨a, b, _, c, e, ?_⟩
        rcases hm with hm | ⟨rfl, -⟩ | ⟨rfl, -⟩
        · simp only [List.mem_cons, List.not_mem_nil, or_false] at hm
          rcases hm with rfl | rfl | rfl <;> simp
        · simp
        · simp
      · rintro button hb hd
        injection hb with hb; subst hb
        rw [g8 hd]
        simp [Ui.history, Note.tick]
  | keyDown key =>
    exact keys "onkeydown" (keyboardEvent key) (by simp) trivial (by
      rintro x y (⟨k, h1, h2, h3⟩ | ⟨k, h1, h2, h3⟩ | ⟨k, h1, h2, h3⟩)
      · injection h1 with h1; subst h1; exact ⟨h2, h3⟩
      · simp at h1
      · simp at h1)
  | keyUp key =>
    exact keys "onkeyup" (keyboardEvent key) (by simp) trivial (by
      rintro x y (⟨k, h1, h2, h3⟩ | ⟨k, h1, h2, h3⟩ | ⟨k, h1, h2, h3⟩)
      · simp at h1
      · injection h1 with h1; subst h1; exact ⟨h2, h3⟩
      · simp at h1)
  | char c =>
    exact keys "oninput" (textEvent c) (by simp) trivial (by
      rintro x y (⟨k, h1, h2, h3⟩ | ⟨k, h1, h2, h3⟩ | ⟨k, h1, h2, h3⟩)
      · simp at h1
      · simp at h1
      · injection h1 with h1; subst h1; exact ⟨h2, h3⟩)

end Verif
