import Verif.View.Again
import Verif.Spec.Idle
import Verif.Props.Cache
import Verif.Props.Bind
import Verif.Props.Placement
/-!
# A program left alone (lemmas for C85)
-/
namespace Verif

variable {p : Platform}

/-! ## The same rules -/

theorem matchLoop_sees {checks} {t t' : Tree} (h : SameForm t t') {css : Css} (hs : css.SeesSame t t') (ss : List Simple) (hss : ∀ name, .pseudoClass name ∈ ss → css.Mentions name)
    (n : NodeId) {e e' : Element} (he : t.ctx n = some e) (he' : t'.ctx n = some e') :
    matchLoop checks viewPseudo t' ss n e' = matchLoop checks viewPseudo t ss n e := by
  induction ss generalizing n e e' with
  | nil => rfl
  | cons x ss ih =>
    have hf : e.SameForm e' := by
      obtain ⟨e1, h1, h2⟩ := h.there n e he
      rw [he'] at h1; injection h1 with h1; subst h1
      exact h2
    have ih := fun n e e' => @ih (fun name hn => hss name (List.mem_cons_of_mem _ hn)) n e e'
    by_cases hx : x.isPart = true
    · rw [matchLoop_part hx, matchLoop_part hx, ih n e e' he he',
        matchSimple_congr x hf.tag (fun k _ => by rw [hf.attrs]) (fun name hname => hs n e e' he he' name (hss name (by rw [hname]; exact List.mem_cons_self)))]
    · cases x with
      | combinator c =>
        have hnt : nextTarget checks t' n c = nextTarget checks t n c := by unfold nextTarget; rw [h.par, h.kids]
        simp only [matchLoop, hnt]
        cases nextTarget checks t n c with
        | error f => rfl
        | ok m =>
          cases m with
          | none => rfl
          | some m =>
            simp only
            cases hm : t.ctx m with
            | none => simp only [h.gone m hm]
            | some a =>
              obtain ⟨a', h1, h2⟩ := h.there m a hm
              simp only [h1]
              exact ih m a a' hm h1
      | _ => simp [Simple.isPart] at hx

theorem matchStyle_sees {checks} {t t' : Tree} (h : SameForm t t') {css : Css} (hs : css.SeesSame t t') (style : Style) (hst : style ∈ css.styles) (n : NodeId) :
    matchStyle checks viewPseudo t' style n = matchStyle checks viewPseudo t style n := by
  unfold matchStyle
  have : ∀ l, (∀ c ∈ l, c ∈ style.selectors) → matchAny checks viewPseudo t' n l = matchAny checks viewPseudo t n l := by
    intro l
    induction l with
    | nil => intro _; rfl
    | cons c l ih =>
      intro hl
      have hc : matchComplex checks viewPseudo t' c n = matchComplex checks viewPseudo t c n := by
        unfold matchComplex
        cases hm : t.ctx n with
        | none => simp only [h.gone n hm]
        | some a =>
          obtain ⟨a', h1, h2⟩ := h.there n a hm
          simp only [h1]
          exact matchLoop_sees h hs _ (fun name hname => ⟨style, hst, c, hl c (by simp), by simpa using hname⟩) n hm h1
      simp only [matchAny, hc, ih (fun c hc => hl c (by simp [hc]))]
  exact this _ fun _ h => h

theorem applied_sees {checks} {t t' : Tree} (h : SameForm t t') {css : Css} (hs : css.SeesSame t t') (n : NodeId) (l : List ElementStyle) (hl : ∀ r ∈ l, r.rule ∈ css.styles) :
    applied checks viewPseudo t' n l = applied checks viewPseudo t n l := by
  induction l with
  | nil => rfl
  | cons x l ih =>
    have ih := ih fun r hr => hl r (by simp [hr])
    cases x with
    | static s => simp only [applied, ih]
    | dynamic s => simp only [applied, ih, matchStyle_sees h hs s (hl (.dynamic s) (by simp))]

/-! ## The pointer stays where it is -/

theorem enterLoop_idle {env : Emitter} {previous : List NodeId} (l : List NodeId) (hl : ∀ n ∈ l, n ∈ previous) (t : Tree) (ht : ∀ n ∈ l, (t.ctx n).isSome) (u : Ui) :
    ∃ m L, eachNode (enterStep env previous) l (t, u) = .ok (t, { u with messages := u.messages ++ m, log := L }) ∧
      ((∀ n ∈ l, ∀ e, t.ctx n = some e → e.listeners "onmousemove" = none ∧ e.listeners "ondragover" = none) → m = []) := by
  induction l generalizing u with
  | nil => exact ⟨[], u.log, by simp [eachNode], fun _ => rfl⟩
  | cons n l ih =>
    obtain ⟨e, he⟩ := Option.isSome_iff_exists.1 (ht n (by simp))
    have hstep : ∃ m L, enterStep env previous (t, u) n = .ok (t, { u with messages := u.messages ++ m, log := L }) ∧
        (e.listeners "onmousemove" = none ∧ e.listeners "ondragover" = none → m = []) := by
      unfold enterStep
      simp only [Tree.elem, he, if_pos (hl n (by simp)), setCtx_same he]
      have emit : ∀ (u : Ui) h, ∃ m L, u.emitMouse env n e h = { u with messages := u.messages ++ m, log := L } ∧ (e.listeners h = none → m = []) := by
        intro u h
        unfold Ui.emitMouse Ui.emit
        cases hh : e.listeners h with
        | none => exact ⟨[], u.log ++ [.sent n h none (mouseEvent u.mouse e)], by simp, fun _ => rfl⟩
        | some x => exact ⟨[emitMessage env x _], _, rfl, fun h => by cases h⟩
      obtain ⟨m1, L1, h1, h2⟩ := emit u "onmousemove"
      obtain ⟨m2, L2, h3, h4⟩ := emit { u with messages := u.messages ++ m1, log := L1 } "ondragover"
      rw [h1]
      by_cases hd : u.drag.isSome
      · rw [if_pos hd, h3]
        exact ⟨m1 ++ m2, L2, by simp [List.append_assoc], fun ⟨g1, g2⟩ => by rw [h2 g1, h4 g2]; rfl⟩
      · rw [if_neg hd]
        exact ⟨m1, L1, rfl, fun ⟨g1, _⟩ => h2 g1⟩
    obtain ⟨m1, L1, h1, h2⟩ := hstep
    obtain ⟨m2, L2, h3, h4⟩ := ih (fun n hn => hl n (by simp [hn])) (fun n hn => ht n (by simp [hn])) { u with messages := u.messages ++ m1, log := L1 }
    refine ⟨m1 ++ m2, L2, ?_, fun h => ?_⟩
    · simp only [eachNode, h1, h3, List.append_assoc]
    · rw [h2 (h n (by simp) e he), h4 fun n hn => h n (by simp [hn])]; rfl

theorem leaveLoop_idle {env : Emitter} (l : List NodeId) (s : Desk) (hl : ∀ n ∈ l, n ∈ s.2.under) : eachNode (leaveStep env) l s = .ok s := by
  induction l with
  | nil => rfl
  | cons n l ih =>
    simp only [eachNode, leaveStep, if_pos (hl n (by simp))]
    exact ih fun n hn => hl n (by simp [hn])

theorem handleOutput_idle {env : Emitter} {root body : NodeId} {t : Tree} {u : Ui} (hw : t.Wf root body) (hb : (t.ctx body).isSome) (hu : u.under = t.pointedAt body u.mouse)
    (hex : ∀ n ∈ u.under, (t.ctx n).isSome) (hm : u.messages = []) :
    ∃ m L, handleOutput env body [] (t, u) = .ok ((t, { u with log := L }),
        ⟨!u.under.isEmpty || u.drag.isSome || u.focus.isSome || !u.inAction.isEmpty, pointerShape t u.under .auto, m⟩) ∧
      ((∀ n ∈ u.under, ∀ e, t.ctx n = some e → e.listeners "onmousemove" = none ∧ e.listeners "ondragover" = none) → m = []) := by
  have hun : underMouse t u.mouse t.next body = .ok u.under := by
    rw [hu]; exact underMouse_ok hw u.mouse t.next body hb (by unfold NodeId; omega)
  obtain ⟨m, L, h1, h2⟩ := enterLoop_idle (env := env) (previous := u.under) u.under.reverse (by simp) t (by simpa using hex)
    { u with messages := [], log := u.log ++ [.input (.mouseMove u.mouse) u.under] }
  refine ⟨m, L, ?_, fun h => h2 (by simpa using h)⟩
  have hmove : moveMouse env body u.mouse (t, { u with messages := [], log := u.log ++ [.input (.mouseMove u.mouse) u.under] }) = .ok (t, { u with messages := m, log := L }) := by
    unfold moveMouse
    simp only [hun]
    rw [leaveLoop_idle _ _ (by simp)]
    simp only
    simpa using h1
  unfold handleOutput
  simp only [lastMove, Option.getD_none, Option.isSome_none, Bool.false_eq_true, if_false, handleEvents, handleEvent]
  rw [hmove]
  simp only [Except.ok.injEq, Prod.mk.injEq, true_and, and_true]
  obtain ⟨a1, a2, a3, a4, a5, a6, a7⟩ := u
  simp only at hm
  subst hm
  rfl

/-! ## One update -/

theorem resizeRoot_twice (viewport : Rat × Rat) (l : LayoutStyle) : resizeRoot viewport (resizeRoot viewport l) = resizeRoot viewport l := by
  unfold resizeRoot
  split
  · simp
  · rfl

theorem upd_id {α} (f : NodeId → α) (n : NodeId) {x : α} (h : f n = x) : upd f n x = f := by
  funext m
  by_cases hm : m = n
  · subst hm; rw [upd_same, h]
  · rw [upd_other _ _ hm]

theorem update_twice {inline} {v v' : View} {value : Json} (hw : WfJson value) (h : v.update inline value = .ok v') (t : Tree) :
    View.update inline { v' with stage := { v'.stage with tree := t } } value = .ok { v' with stage := { v'.stage with tree := t } } := by
  unfold View.update at h
  cases hb : v.vm.bind value with
  | none => rw [hb] at h; cases h
  | some q =>
    obtain ⟨vm, rs⟩ := q
    rw [hb] at h
    simp only at h
    split at h
    · cases h
    · rename_i stage hst
      injection h with h
      subst h
      have := C04_rebind_same_is_noop v.vm vm value rs hw hb
      unfold View.update
      simp only [this, updateTrees]

/-- An update with nothing new after an update that has not changed which rules are for which elements. -/
theorem Unmoved.update_idle {fuel fuel' : Nat} {document : Html} {css : Css} {a a' : App} {f : Frame} {values : List Json} (h : Unmoved p fuel document a (f.value :: values)) (hrules : ∀ n, ∀ r ∈ a.kept n, r.rule ∈ css.styles)
    (hsing : ∀ s ∈ css.styles, ∀ x ∈ s.declaration, x.Singular) (hp : p.Reads) (hf : f.order.Fair) (hrec : f.order.recall = fun _ => none) (hval : WfJson f.value)
    {out : Output} (hu : a.update p fuel' f.order f.input f.value = .ok (a', out)) (hsee : css.SeesSame a.screen.view.stage.tree a'.screen.view.stage.tree) :
    ∃ m L, (∀ g : Frame, f.Idle g → g.order.recall = (fun _ => none) → a'.update p fuel' g.order g.input g.value =
        .ok ({ a' with screen := { a'.screen with ui := { a'.screen.ui with log := L } } }, ⟨out.captured, out.pointer, m⟩)) ∧
      ((∀ n e, a'.screen.view.stage.tree.ctx n = some e → e.state.hover = true → e.listeners "onmousemove" = none ∧ e.listeners "ondragover" = none) → m = []) := by
  have hl' := h.living.updated hu
  have hst' := (session_ok hl'.session).standing
  obtain ⟨-, hup⟩ := updates_ok h.living.session (update_refines h.living.session hu)
  obtain ⟨v, styled, tree, t', ui, g1, g2, g3, g4, g5⟩ := update_parts hu
  obtain ⟨wf, hkids, hpar, hbody⟩ := h.living.bound g1
  have hfr := (styleTree_spec fuel' (linked_of_wf wf) g2).1
  have hst : Restyled v.stage.tree styled.tree := hfr.restyled
  have hpl : Restyled styled.tree tree := placeTree_restyled _ g3
  have hso := handleOutput_states (session_ok h.living.session) g1 (hst.trans hpl) g4
  have hreb := h.living.rebound g1
  have hbody' : (a'.screen.view.stage.tree.ctx a'.screen.view.body).isSome := by
    have h1 := hst'.wf
    have hm : a'.screen.view.body ∈ a'.screen.view.stage.tree.kids a'.screen.view.root := by rw [hl'.kids]; simp
    exact (h1.slotsYounger _ _ (h1.sub _ _ hm)).2.2
  obtain ⟨m, L, k1, k2⟩ := handleOutput_idle (env := a'.screen.view.emitter) hst'.wf hbody' hup.under hst'.ex hup.waiting
  refine ⟨m, L, fun g hg hgr => ?_, fun hlis => k2 fun n hn e he => hlis n e he ((hst'.hov.hover n e he).2 hn)⟩
  rw [← hup.captured, ← hup.pointer] at k1
  have e1 : a'.screen.view.update p.inline g.value = .ok a'.screen.view := by
    rw [g5, hg.value]; exact update_twice hval g1 t'
  have e2 : a'.kept = a.kept := by rw [g5]
  have e3 : a'.css = a.css := by rw [g5]
  have e4 : a'.layouts = styled.layouts := by rw [g5]
  have e5 : a'.screen.view.root = v.root := by rw [g5]
  have e6 : a'.screen.view.body = v.body := by rw [g5]
  have e7 : a'.screen.view.stage.tree = t' := by rw [g5]
  have hroot : styled.layouts v.root = resizeRoot f.input.viewport (a.layouts v.root) := by
    rw [hfr.layouts v.root (fun hin => by
      have h1 := hin.le (linked_of_wf wf)
      have h2 := (linked_of_wf wf).older _ _ hpar
      unfold NodeId at *; omega)]
    exact upd_same _ _ _
  have e8 : upd a'.layouts a'.screen.view.root (resizeRoot g.input.viewport (a'.layouts a'.screen.view.root)) = styled.layouts := by
    rw [e4, e5, hg.viewport]
    refine upd_id _ _ ?_
    rw [hroot, resizeRoot_twice]
  have hform : SameForm v.stage.tree t' := SameForm.trans (Tree.Related.mono (fun _ _ hx => hx.1) (hst.trans hpl)) hso.sameForm
  have hsee' : css.SeesSame v.stage.tree t' := by
    intro n e e' he he' name hname
    obtain ⟨e0, h0, h1⟩ := hreb.back he
    rw [hsee n e0 e' h0 (by rw [e7]; exact he') name hname]
    exact (viewPseudo_state (by rw [h1]) name).symm
  have hdeep := (placeTree_deep fuel' g3 rfl).2
  have e9 : styleView (a'.env p fuel' g.order g.input.time) fuel' a'.screen.view.body g.input.viewport ⟨a'.screen.view.stage.tree, styled.layouts⟩ = .ok ⟨a'.screen.view.stage.tree, styled.layouts⟩ := by
    rw [e6, e7, hg.viewport]
    refine styleView_again (env := a.env p fuel' f.order f.input.time) (env' := a'.env p fuel' g.order g.input.time) hf hg.fair rfl (s := ⟨v.stage.tree, _⟩) (s' := styled) (s2 := ⟨t', styled.layouts⟩) wf g2 rfl
      (SameStyled.related_trans (placeTree_styled _ g3) (stateOnly_styled hso)) ?_ (h.bound g1) (styleTree_still hf h.rules _ g2 (h.bound g1)) ?_ (by rw [hst.kids] at hdeep; exact hdeep)
    · intro n
      show applied p.checks viewPseudo t' n (a'.kept n) = applied p.checks viewPseudo v.stage.tree n (a.kept n)
      rw [e2]
      exact applied_sees hform hsee' n _ (hrules n)
    · intro n e he x hx
      unfold declarations at hx
      split at hx
      · rename_i rules hr
        rcases List.mem_append.1 hx with hx | hx
        · obtain ⟨b, hb, hxb⟩ := List.mem_flatten.1 hx
          obtain ⟨s, hs, rfl⟩ := List.mem_map.1 hb
          obtain ⟨r, h1, rfl⟩ := applied_mem hr s hs
          exact hsing _ (hrules n r h1) x hxb
        · exact (((h.bound g1) n e he).style x hx).2
      · cases hx
  have hrec' : ∀ s : Styled, s.recall (fun _ => none) = s := fun s => recall_same (fun n c h => by cases h)
  have e10 : placeView (p.solve ((⟨a'.screen.view.stage.tree, styled.layouts⟩ : Styled).recall g.order.recall)) fuel' a'.screen.view.body a'.screen.view.stage.tree = .ok a'.screen.view.stage.tree := by
    have hcont : (⟨a'.screen.view.stage.tree, styled.layouts⟩ : Styled).content = styled.content := by
      have : LaidOutFrom styled a' := ⟨e4, by rw [e7]; exact SameStyled.related_trans (placeTree_styled _ g3) (stateOnly_styled hso)⟩
      rw [← e4]; exact content_laidOut this
    rw [hgr, hrec', hp _ _ hcont, e6, e7]
    rw [hrec, hrec'] at g3
    obtain ⟨-, -, hpf⟩ := placeTree_spec (t0 := styled.tree) (linked_of_wf ((show SameForm v.stage.tree styled.tree from Tree.Related.mono (fun _ _ hx => hx.1) hst).wf wf)) fuel' ⟨rfl, rfl, rfl⟩ (fun _ _ => rfl) g3
    exact placeTree_again hso hpl.kids hpf hdeep
  unfold App.update
  rw [e1]
  simp only
  rw [e8, e9]
  simp only
  rw [e10]
  simp only
  rw [hg.events, k1]
  simp only [e4]

/-- The record of input is never read. -/
theorem update_unread {fuel : Nat} {a a' b : App} {order : FrameOrder} {input : Input} {value : Json} {out : Output} (hb : SameApp a b) (hi : input.events = [])
    (h : a.update p fuel order input value = .ok (a', out)) : ∃ b', b.update p fuel order input value = .ok (b', out) ∧ SameApp a' b' := by
  obtain ⟨v, styled, tree, t', ui, g1, g2, g3, g4, g5⟩ := update_parts h
  have hd : SameDesk (tree, a.screen.ui) (tree, b.screen.ui) := by
    refine ⟨rfl, ?_⟩
    unfold SameApp at hb
    unfold SameUi
    rw [hb]
  rw [hi] at g4
  have := handleOutput_wheel v.emitter v.body [] hd
  rw [g4] at this
  generalize ho : handleOutput v.emitter v.body (([] : List InputEvent).filter InputEvent.notWheel) (tree, b.screen.ui) = r at this
  cases this with
  | @ok _ s' _ hs =>
    obtain ⟨t1, u1⟩ := s'
    obtain ⟨hs1, hs2⟩ := hs
    simp only at hs1 hs2
    subst hs1
    have hb1 : b.screen.view = a.screen.view := by rw [hb]
    have hb2 : b.css = a.css := by rw [hb]
    have hb3 : b.kept = a.kept := by rw [hb]
    have hb4 : b.layouts = a.layouts := by rw [hb]
    refine ⟨⟨⟨{ v with stage := { v.stage with tree := t1 } }, u1⟩, a.css, a.kept, styled.layouts⟩, ?_, ?_⟩
    · have henv : b.env p fuel order input.time = a.env p fuel order input.time := by unfold App.env; rw [hb2, hb3]
      rw [List.filter_nil] at ho
      unfold App.update
      simp only [hb1, hb2, hb3, hb4, g1, henv, g2, g3, hi, ho]
    · rw [g5]
      unfold SameApp
      unfold SameUi at hs2
      simp only
      rw [← hs2]

end Verif
