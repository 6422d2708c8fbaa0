import Verif.Input.Record
/-!
# Sessions keep the invariants of input (lemmas for C28-C38, C62)
-/
namespace Verif

variable {inline : String → Option (List Declaration)}

/-- Listeners and input states are kept. -/
structure Keeps (t t' : Tree) : Prop where
  gone : ∀ n, t.ctx n = none → t'.ctx n = none
  there : ∀ n e, t.ctx n = some e → ∃ e', t'.ctx n = some e' ∧ e'.listeners = e.listeners ∧ e'.state = e.state

theorem Keeps.refl (t : Tree) : Keeps t t := ⟨fun _ h => h, fun _ e h => ⟨e, h, rfl, rfl⟩⟩

theorem Keeps.of_ctx {t t' : Tree} (h : t'.ctx = t.ctx) : Keeps t t' :=
  ⟨fun _ hn => by rw [h]; exact hn, fun _ e he => ⟨e, by rw [h]; exact he, rfl, rfl⟩⟩

theorem Keeps.trans {a b c : Tree} (h : Keeps a b) (g : Keeps b c) : Keeps a c :=
  ⟨fun n hn => g.gone n (h.gone n hn), fun n e he => by
    obtain ⟨e1, h1, h2, h3⟩ := h.there n e he
    obtain ⟨e2, g1, g2, g3⟩ := g.there n e1 h1
    exact ⟨e2, g1, g2.trans h2, g3.trans h3⟩⟩

theorem Keeps.isSome {t t' : Tree} (h : Keeps t t') (n : NodeId) : (t'.ctx n).isSome = (t.ctx n).isSome := by
  cases he : t.ctx n with
  | none => rw [h.gone n he]
  | some e => obtain ⟨e', h1, -⟩ := h.there n e he; rw [h1]; rfl

theorem Keeps.back {t t' : Tree} (h : Keeps t t') {n : NodeId} {e' : Element} (he : t'.ctx n = some e') :
    ∃ e, t.ctx n = some e ∧ e'.listeners = e.listeners ∧ e'.state = e.state := by
  cases hc : t.ctx n with
  | none => rw [h.gone n hc] at he; simp at he
  | some e =>
    obtain ⟨e1, h1, h2⟩ := h.there n e hc
    rw [he] at h1; injection h1 with h1; subst h1
    exact ⟨e, rfl, h2⟩

theorem Keeps.listener {t t' : Tree} (h : Keeps t t') (n : NodeId) (k : String) : t'.listener n k = t.listener n k := by
  unfold Tree.listener
  cases he : t.ctx n with
  | none => rw [h.gone n he]
  | some e => obtain ⟨e', h1, h2, -⟩ := h.there n e he; rw [h1, Option.bind_some, Option.bind_some, h2]

theorem Restyled.keeps {t t' : Tree} (h : Restyled t t') : Keeps t t' :=
  ⟨h.gone, fun n e he => by obtain ⟨e', h1, h2, h3⟩ := h.there n e he; exact ⟨e', h1, h2.listeners, h3⟩⟩

theorem keeps_setCtx {t : Tree} {n : NodeId} {e E : Element} (he : t.ctx n = some e) (h1 : E.listeners = e.listeners)
    (h2 : E.state = e.state) : Keeps t (t.setCtx n E) := by
  refine ⟨fun m hm => ?_, fun m x hx => ?_⟩
  · by_cases hmn : m = n
    · subst hmn; rw [he] at hm; simp at hm
    · simp only [Tree.setCtx, upd_other _ _ hmn]; exact hm
  · by_cases hmn : m = n
    · subst hmn; rw [he] at hx; injection hx with hx; subst hx
      exact ⟨E, upd_same _ _ _, h1, h2⟩
    · exact ⟨x, by simp only [Tree.setCtx, upd_other _ _ hmn]; exact hx, rfl, rfl⟩

theorem SameForm.reactionOk {t t' : Tree} (h : SameForm t t') {root body : NodeId} {r : Reaction}
    (hr : ReactionOk t root body r) : ReactionOk t' root body r := by
  cases r with
  | type n i x =>
    obtain ⟨e, he, ht⟩ := hr
    obtain ⟨e', h1, h2⟩ := h.there n e he
    exact ⟨e', h1, by rw [h2.text]; exact ht⟩
  | reattach p n v =>
    obtain ⟨r1, r2, r3⟩ := hr
    refine ⟨r1, by rw [h.slots]; exact r2, fun e' he' => ?_⟩
    obtain ⟨e, he, hf⟩ := h.back he'
    rw [hf.tag]; exact r3 e he
  | «repeat» p i k j =>
    obtain ⟨r1, r2, r3, r4, e, he, ht⟩ := hr
    obtain ⟨e', h1, h2⟩ := h.there p e he
    exact ⟨r1, r2, r3, by rw [h.slots]; exact r4, e', h1, by rw [h2.tag]; exact ht⟩
  | tag n k b =>
    show (t'.ctx n).isSome = true
    rw [h.isSome]; exact hr
  | bind n k i x =>
    obtain ⟨r1, e, he, ha⟩ := hr
    obtain ⟨e', h1, h2⟩ := h.there n e he
    exact ⟨r1, e', h1, by rw [h2.attrsBindings]; exact ha⟩

theorem updateTrees_keeps {root body : NodeId} (rs : List Reaction) {s s' : Stage} (h : s.tree.Wf root body)
    (hrs : ∀ r ∈ rs, ReactionOk s.tree root body r) (hu : updateTrees inline s rs = .ok s') : Keeps s.tree s'.tree := by
  obtain ⟨s1, a1, -, a3, -⟩ := updateTrees_steps (inline := inline) rs s h hrs
  rw [hu] at a1; injection a1 with a1; subst a1
  refine ⟨fun n hn => ?_, fun n e he => ?_⟩
  · have := a3.defs n
    rw [hn] at this
    simpa using this
  · clear a3
    induction rs generalizing s e with
    | nil =>
      simp only [updateTrees, Except.ok.injEq] at hu; subst hu
      exact ⟨e, he, rfl, rfl⟩
    | cons r rs ih =>
      simp only [updateTrees, bind, Except.bind] at hu
      split at hu
      · simp at hu
      · rename_i s1 h1
        obtain ⟨e1, g1, -, -, -, g5⟩ := updateTree_elem h (hrs r (by simp)) h1 he
        obtain ⟨s1', a1, a2, a3⟩ := C16_tree_stays_tree (inline := inline) s [r] h (by simpa using hrs r (by simp))
        simp only [updateTrees, bind, Except.bind, h1, Except.ok.injEq] at a1
        subst a1
        obtain ⟨e', b1, b2, b3⟩ := ih a2 (fun x hx => a3 x (hrs x (by simp [hx]))) hu e1 g1
        simp only [Prod.mk.injEq] at g5
        exact ⟨e', b1, b2.trans g5.1, b3.trans g5.2⟩

/-- Wherever a view of a session has got to, there is a reached view with the same form. -/
structure Twin (v0 v : View) : Prop where
  vm : v.vm = v0.vm
  root : v.root = v0.root
  body : v.body = v0.body
  identified : v.stage.identified = v0.stage.identified
  tree : SameForm v0.stage.tree v.stage.tree

structure SessionOk (translate : String → String) (inline : String → Option (List Declaration))
    (tr : Transformers) (fuel : Nat) (document : Html) (s : Screen) : Prop where
  twin : ∃ v0, Reached translate inline tr fuel document v0 ∧ Twin v0 s.view
  standing : Standing s.view.root s.view.body (s.view.stage.tree, s.ui)
  recorded : Recorded (s.view.stage.tree, s.ui)

theorem Standing.retree {root body} {t t' : Tree} {u u' : Ui} (h : Standing root body (t, u)) (hw : t'.Wf root body)
    (hk : Keeps t t') (hu : u'.under = u.under ∧ u'.inAction = u.inAction ∧ u'.drag = u.drag ∧ u'.focus = u.focus ∧ u'.log = u.log) :
    Standing root body (t', u') := by
  obtain ⟨h1, h2, h3, h4, h5⟩ := hu
  have hh : u'.history = u.history := by simp [Ui.history, h5]
  have hp : u'.phase = u.phase := by simp [Ui.phase, h3]
  refine ⟨hw, ⟨?_, ?_, ?_, ?_, ?_, ?_, ?_⟩, ⟨?_, ?_⟩, ?_, ?_, ?_, ?_, ?_⟩
  · intro n e he
    obtain ⟨e0, he0, -, hst⟩ := hk.back he
    simp only [hst, h2]; exact h.calm.active n e0 he0
  · intro n e he
    obtain ⟨e0, he0, -, hst⟩ := hk.back he
    simp only [hst, h4]; exact h.calm.focus n e0 he0
  · simp only [hh, h4]; exact h.calm.focusRun
  · simp only [hh, hp]; exact h.calm.dragRun
  · simp only [h2, hk.isSome]; exact h.calm.actEx
  · simp only [h4, hk.isSome]; exact h.calm.focusEx
  · simp only [h3, hk.isSome]; exact h.calm.dragEx
  · intro n e he
    obtain ⟨e0, he0, -, hst⟩ := hk.back he
    simp only [hst, h1]; exact h.hov.hover n e0 he0
  · simp only [hh, h1]; exact h.hov.cross
  · simp only [h1]; exact h.nodup
  · simp only [h1, hk.isSome]; exact h.ex
  · simp only [h4, Tree.takesInput, Tree.listens, hk.listener]; exact h.takes
  · simp only [h2, hh]; exact h.pressed
  · simp only [hh]; exact h.clicks

theorem Recorded.retree {t t' : Tree} {u u' : Ui} (h : Recorded (t, u)) (hk : Keeps t t')
    (hu : u'.focus = u.focus ∧ u'.log = u.log) : Recorded (t', u') := by
  obtain ⟨h4, h5⟩ := hu
  have hh : u'.history = u.history := by simp [Ui.history, h5]
  have hl : ∀ k, t'.listens k = t.listens k := fun k => by funext n; simp only [Tree.listens, hk.listener]
  have hd : DropRule t' = DropRule t := by funext a b c d; simp only [DropRule, hl]
  refine ⟨?_, ?_, ?_, ?_, ?_, ?_, ?_, ?_⟩
  · simp only [hh, h4]; exact h.keyRun
  · simp only [hh]; exact h.releases
  · simp only [hh, hd]; exact h.drops
  · simp only [hh]; exact h.order
  · simp only [hh]; exact h.unders
  · simp only [hh, h4, hl]; exact h.lastPress
  · simp only [hh, h4]; exact h.noPress
  · simp only [h5, hk.listener]; exact h.honest

/-- What updating the bindings of a session's view does. -/
theorem twin_update {translate tr fuel document} {v0 v v1 : View} (hr : Reached translate inline tr fuel document v0)
    (h : Twin v0 v) {value : Json} (hu : v.update inline value = .ok v1) :
    ∃ v2, Reached translate inline tr fuel document v2 ∧ Twin v2 v1 ∧ v1.root = v.root ∧ v1.body = v.body ∧
      v1.stage.tree.Wf v1.root v1.body ∧ Keeps v.stage.tree v1.stage.tree := by
  obtain ⟨regs, hg⟩ := reached_good hr
  unfold View.update at hu
  cases hb : v.vm.bind value with
  | none => rw [hb] at hu; simp at hu
  | some p =>
    obtain ⟨vm, rs⟩ := p
    rw [hb] at hu
    simp only at hu
    rw [h.vm] at hb
    obtain ⟨stage, a1, a2, a3, a4⟩ := viewGood_update (inline := inline) hg value hb
    obtain ⟨stage1, b1, b2, b3⟩ := updateTrees_form rs h.tree h.identified a1
    rw [b1] at hu
    simp only [Except.ok.injEq] at hu
    subst hu
    refine ⟨_, .updated hr a2, ⟨rfl, h.root, h.body, b3, b2⟩, rfl, rfl, ?_, ?_⟩
    · simp only [h.root, h.body]
      exact b2.wf a3.wf
    · exact updateTrees_keeps rs (root := v0.root) (body := v0.body) (h.tree.wf hg.wf)
        (fun r hr => h.tree.reactionOk (a4 r hr)) b1

/-- What one update of a session does. -/
structure UpdateOk (s s' : Screen) (events : List InputEvent) (out : Output) : Prop where
  mouse : s'.ui.mouse = (lastMove events).getD s.ui.mouse
  under : s'.ui.under = s'.view.stage.tree.pointedAt s'.view.body s'.ui.mouse
  emits : ∃ L : List Note, s'.ui.log = s.ui.log ++ L ∧ out.messages = L.filterMap (Note.message s'.view.emitter) ∧
    L.filterMap Note.event = (if (lastMove events).isSome then events else .mouseMove s.ui.mouse :: events) ∧
    ∀ a ev u b, L = a ++ .input ev u :: b → u = match lastMove (a.filterMap Note.event) with
      | some p => s'.view.stage.tree.pointedAt s'.view.body p
      | none => s.ui.under
  captured : out.captured = (!s'.ui.under.isEmpty || s'.ui.drag.isSome || s'.ui.focus.isSome || !s'.ui.inAction.isEmpty)
  pointer : out.pointer = pointerShape s'.view.stage.tree s'.ui.under .auto
  waiting : s'.ui.messages = []

theorem lastMove_batch (events : List InputEvent) (m : Rat × Rat) :
    lastMove (if (lastMove events).isSome then events else .mouseMove ((lastMove events).getD m) :: events) =
      some ((lastMove events).getD m) := by
  cases h : lastMove events with
  | none => simp [lastMove, h]
  | some p => simp [h]

theorem session_update {translate tr fuel document} {s : Screen} (h : SessionOk translate inline tr fuel document s)
    {value : Json} {v : View} (hv : s.view.update inline value = .ok v) {t : Tree} (ht : Restyled v.stage.tree t)
    (events : List InputEvent) :
    ∃ t' u out, handleOutput v.emitter v.body events (t, s.ui) = .ok ((t', u), out) ∧
      SessionOk translate inline tr fuel document ⟨{ v with stage := { v.stage with tree := t' } }, u⟩ ∧
      UpdateOk s ⟨{ v with stage := { v.stage with tree := t' } }, u⟩ events out := by
  obtain ⟨v0, hr, htw⟩ := h.twin
  obtain ⟨v2, r2, tw2, er, eb, wf, kp⟩ := twin_update hr htw hv
  have hform : SameForm v.stage.tree t := Tree.Related.mono (fun _ _ hx => hx.1) ht
  have hkeep : Keeps s.view.stage.tree t := kp.trans ht.keeps
  obtain ⟨batch, hbatch⟩ : ∃ b, b = (if (lastMove events).isSome then events
    else .mouseMove ((lastMove events).getD s.ui.mouse) :: events) := ⟨_, rfl⟩
  have hbatch' : batch = (if (lastMove events).isSome then events else .mouseMove s.ui.mouse :: events) := by
    rw [hbatch]; cases lastMove events <;> simp
  have st : Standing v.root v.body (t, { s.ui with mouse := (lastMove events).getD s.ui.mouse, messages := [] }) := by
    refine Standing.retree (t := s.view.stage.tree) (u := s.ui) ?_ (hform.wf wf) hkeep ⟨rfl, rfl, rfl, rfl, rfl⟩
    rw [er, eb]; exact h.standing
  have rc : Recorded (t, { s.ui with mouse := (lastMove events).getD s.ui.mouse, messages := [] }) :=
    h.recorded.retree hkeep ⟨rfl, rfl⟩
  obtain ⟨⟨t', u⟩, g1, g2, g3, g4⟩ := handleEvents_ok (env := v.emitter) batch st rc
  have g2' : Standing v.root v.body (t', { u with messages := [] }) :=
    g2.retree g2.wf (.refl _) ⟨rfl, rfl, rfl, rfl, rfl⟩
  obtain ⟨L, l1, l2, l3, l4⟩ := g4.emits
  have hm : u.mouse = (lastMove events).getD s.ui.mouse := g4.mouse
  refine ⟨t', { u with messages := [] }, ⟨!u.under.isEmpty || u.drag.isSome || u.focus.isSome || !u.inAction.isEmpty, pointerShape t' u.under .auto, u.messages⟩, ?_, ⟨⟨v2, r2, tw2.vm, tw2.root, tw2.body, tw2.identified, ?_⟩, g2',
    g3.retree (.refl _) ⟨rfl, rfl⟩⟩, hm, ?_, ⟨L, l1, ?_, by rw [l3, hbatch'], ?_⟩, rfl, rfl, rfl⟩
  · unfold handleOutput
    simp only [← hbatch, g1]
  · exact (tw2.tree.trans hform).trans g4.tree.sameForm
  · have hu := g4.under
    rw [hbatch, lastMove_batch] at hu
    simp only at hu ⊢
    rw [hu, hm]
    exact (g4.tree.pointedAt v.body _).symm
  · have : u.messages = L.filterMap (Note.message v.emitter) := by simpa using l2
    exact this
  · intro a ev u' b heq
    rw [l4 a ev u' b heq]
    cases lastMove (a.filterMap Note.event) with
    | none => rfl
    | some p => exact (g4.tree.pointedAt v.body p).symm

theorem session_ok {translate tr fuel document} {s : Screen} (h : Session translate inline tr fuel document s) :
    SessionOk translate inline tr fuel document s := by
  induction h with
  | opened h =>
    rename_i v
    have hr : Reached translate inline tr fuel document v := .opened h
    obtain ⟨regs, hg⟩ := reached_good hr
    obtain ⟨σ, h1, -, -, h4, h5⟩ := openView_parts h
    have hview := renderView_ok h1
    have hst : ∀ n e, v.stage.tree.ctx n = some e → e.state = {} := by
      intro n e he
      have hlt : n < σ.tree.next := h5 ▸ hg.wf.exist n (by rw [he]; rfl)
      obtain ⟨e', g1, g2⟩ := hview.states n hlt
      rw [h4, g1] at he; injection he with he; subst he; exact g2
    refine ⟨⟨v, hr, rfl, rfl, rfl, rfl, Tree.Related.refl Element.SameForm.refl _⟩, ?_, ?_⟩
    · refine ⟨hg.wf, ⟨?_, ?_, rfl, rfl, by simp, by simp, by simp⟩, ⟨?_, fun n => ⟨false, rfl, by simp⟩⟩, List.nodup_nil, by simp, by simp, ?_, ?_⟩
      · intro n e he; simp [hst n e he]
      · intro n e he; simp [hst n e he]
      · intro n e he; simp [hst n e he]
      · intro n
        simp only [List.not_mem_nil, false_iff]
        rintro ⟨b, x, u, a, heq, -⟩
        simp [Ui.history] at heq
      · intro b a n heq
        simp [Ui.history] at heq
    · have seg : ∀ Q, Segmented Q ({} : Ui).history := fun Q b x u a heq => by simp [Ui.history] at heq
      refine ⟨rfl, seg _, seg _, seg _, seg _, ?_, fun _ => rfl, by simp⟩
      · rintro u ⟨b, x, a, heq, -⟩
        simp [Ui.history] at heq
  | updated _ hu ih =>
    obtain ⟨v, t, t', u, h1, h2, h3, rfl⟩ := hu
    obtain ⟨t1, u1, out1, g1, g2, -⟩ := session_update ih h1 h2 _
    rw [h3] at g1
    simp only [Except.ok.injEq, Prod.mk.injEq] at g1
    obtain ⟨⟨rfl, rfl⟩, rfl⟩ := g1
    exact g2

theorem updates_ok {translate tr fuel document} {s s' : Screen} (h : Session translate inline tr fuel document s)
    {value : Json} {events : List InputEvent} {out : Output} (hu : s.Updates inline value events s' out) :
    SessionOk translate inline tr fuel document s' ∧ UpdateOk s s' events out := by
  obtain ⟨v, t, t', u, h1, h2, h3, rfl⟩ := hu
  obtain ⟨t1, u1, out1, g1, g2, g3⟩ := session_update (session_ok h) h1 h2 events
  rw [h3] at g1
  simp only [Except.ok.injEq, Prod.mk.injEq] at g1
  obtain ⟨⟨rfl, rfl⟩, rfl⟩ := g1
  exact ⟨g2, g3⟩

end Verif
