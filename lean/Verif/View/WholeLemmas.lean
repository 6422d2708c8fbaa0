import Verif.View.Whole
import Verif.Props.Frame
import Verif.Props.Layout
import Verif.Props.Input
import Verif.Props.Read
import Verif.Props.ReadCss
import Verif.Props.Display
/-!
# The whole program refines the sessions of the other properties (lemmas for C73-C75)
-/
namespace Verif

variable {p : Platform}

/-! ## Opening -/

theorem openApp_parts {fuel : Nat} {document : Html} {css : Css} {a : App} (h : openApp p fuel document css = .ok a) :
    openView p.translate p.inline p.transformers fuel document = .ok a.screen.view ∧ a.screen.ui = {} ∧ a.css = css ∧
    ∃ σ, renderView (docEnv p.translate p.inline document) fuel (docBody document) = .ok (a.screen.view.root, a.screen.view.body, σ) ∧
      keepRules p.checks css.styles σ.tree fuel a.screen.view.body (fun _ => []) = .ok a.kept ∧ a.layouts = freshLayouts σ.tree := by
  unfold openApp at h
  unfold openView
  rw [collect_doc] at h ⊢
  simp only at h ⊢
  split at h
  · cases h
  · rename_i root body σ hr
    split at h
    · cases h
    · rename_i vm hvm
      split at h
      · cases h
      · rename_i kept hk
        split at h
        · cases h
        · rename_i stage hs
          injection h with h; subst h
          rw [hr]
          simp only [hvm, hs]
          exact ⟨trivial, trivial, trivial, σ, hr, hk, rfl⟩

/-! ## The rules kept for each element -/

theorem InSubtree.top {t : Tree} {n m : NodeId} (h : InSubtree t n m) : m = n ∨ ∃ c, t.par c = some n ∧ InSubtree t c m := by
  induction h with
  | here => exact .inl rfl
  | deeper hp _ ih =>
    rename_i q m' _
    rcases ih with rfl | ⟨c, hc, hm⟩
    · exact .inr ⟨m', hp, .here⟩
    · exact .inr ⟨c, hc, .deeper hp hm⟩

/-- The rules kept for a node are the ones found for it. -/
def Sorted (checks : Bool) (styles : List Style) (t : Tree) (m : NodeId) (l : List ElementStyle) : Prop :=
  ∃ e, t.ctx m = some e ∧ classify checks t m e styles = .ok l

theorem keepRules_spec {checks : Bool} {styles : List Style} {t : Tree} {root body : NodeId} (hw : t.Wf root body) (depth : Nat) :
    ∀ {n : NodeId} {kept kept' : NodeId → List ElementStyle}, keepRules checks styles t depth n kept = .ok kept' →
      (∀ m, kept' m = kept m ∨ Sorted checks styles t m (kept' m)) ∧ ∀ m, InSubtree t n m → Sorted checks styles t m (kept' m) := by
  induction depth with
  | zero => intro n kept kept' h; cases h
  | succ depth ih =>
    intro n kept kept' h
    rw [keepRules] at h
    cases he : t.ctx n with
    | none => rw [he] at h; cases h
    | some e =>
      rw [he] at h
      simp only at h
      cases hl : classify checks t n e styles with
      | error f => rw [hl] at h; cases h
      | ok l =>
        rw [hl] at h
        simp only at h
        have loop : ∀ (cs : List NodeId) {k k' : NodeId → List ElementStyle}, keepEach (fun kept c => keepRules checks styles t depth c kept) cs k = .ok k' →
            (∀ m, k' m = k m ∨ Sorted checks styles t m (k' m)) ∧ ∀ c ∈ cs, ∀ m, InSubtree t c m → Sorted checks styles t m (k' m) := by
          intro cs
          induction cs with
          | nil =>
            intro k k' hk
            simp only [keepEach, Except.ok.injEq] at hk
            subst hk
            exact ⟨fun m => .inl rfl, by simp⟩
          | cons c cs ihc =>
            intro k k' hk
            simp only [keepEach] at hk
            split at hk
            · cases hk
            · rename_i k1 h1
              obtain ⟨a1, a2⟩ := ih h1
              obtain ⟨b1, b2⟩ := ihc hk
              refine ⟨fun m => ?_, fun c' hc' m hm => ?_⟩
              · rcases b1 m with hb | hb
                · rw [hb]; exact a1 m
                · exact .inr hb
              · rcases List.mem_cons.1 hc' with rfl | hc'
                · rcases b1 m with hb | hb
                  · rw [hb]; exact a2 m hm
                  · exact hb
                · exact b2 c' hc' m hm
        obtain ⟨b1, b2⟩ := loop _ h
        have hn : ∀ m, upd kept n l m = kept m ∨ Sorted checks styles t m (upd kept n l m) := by
          intro m
          by_cases hm : m = n
          · subst hm; rw [upd_same]; exact .inr ⟨e, he, hl⟩
          · rw [upd_other _ _ hm]; exact .inl rfl
        refine ⟨fun m => ?_, fun m hm => ?_⟩
        · rcases b1 m with hb | hb
          · rw [hb]; exact hn m
          · exact .inr hb
        · rcases hm.top with rfl | ⟨c, hc, hm⟩
          · rcases b1 m with hb | hb
            · rw [hb, upd_same]; exact ⟨e, he, hl⟩
            · exact hb
          · exact b2 c ((hw.link n c).2 hc) m hm

theorem classify_total {checks : Bool} {t : Tree} {root body : NodeId} (hw : t.Wf root body) {n : NodeId} (hn : (t.ctx n).isSome) (e : Element)
    (styles : List Style) (hp : ∀ s ∈ styles, s.NoPlus) : ∃ l, classify checks t n e styles = .ok l := by
  induction styles with
  | nil => exact ⟨[], rfl⟩
  | cons s styles ih =>
    obtain ⟨l, hl⟩ := ih (fun s hs => hp s (List.mem_cons_of_mem _ hs))
    obtain ⟨b, hb, -⟩ := matchAny_total (checks := checks) (pc := anyPseudo) hw hn s.selectors (hp s List.mem_cons_self)
    rw [classify, show matchStyle checks anyPseudo t s n = .ok b from hb]
    simp only [hl]
    cases b <;> simp only [Bool.false_eq_true, if_false, if_true] <;> split <;> exact ⟨_, rfl⟩

theorem classify_mem {checks : Bool} {t : Tree} {n : NodeId} {e : Element} {styles : List Style} {l : List ElementStyle}
    (h : classify checks t n e styles = .ok l) : ∀ r ∈ l, r.rule ∈ styles := by
  induction styles generalizing l with
  | nil => simp only [classify, Except.ok.injEq] at h; subst h; simp
  | cons s styles ih =>
    rw [classify] at h
    split at h
    · cases h
    · split at h
      · cases h
      · rename_i l' hl
        have := ih hl
        split at h <;> split at h <;> (injection h with h; subst h) <;> intro r hr
        all_goals try (rcases List.mem_cons.1 hr with rfl | hr <;> [exact List.mem_cons_self; exact List.mem_cons_of_mem _ (this r hr)])
        exact List.mem_cons_of_mem _ (this r hr)

theorem keepRules_total {checks : Bool} {styles : List Style} (hp : ∀ s ∈ styles, s.NoPlus) {t : Tree} {root body : NodeId} (hw : t.Wf root body) (d : Nat) :
    ∀ {n : NodeId} {kept : NodeId → List ElementStyle}, t.next ≤ n + d → (t.ctx n).isSome →
      ∃ kept', ∀ depth ≥ d + 1, keepRules checks styles t depth n kept = .ok kept' := by
  induction d with
  | zero =>
    intro n kept hnext hn
    have := hw.exist n hn
    unfold NodeId at *
    omega
  | succ d ih =>
    intro n kept hnext hn
    obtain ⟨e, he⟩ := Option.isSome_iff_exists.1 hn
    obtain ⟨l, hl⟩ := classify_total (checks := checks) hw hn e styles hp
    have loop : ∀ (cs : List NodeId) (k : NodeId → List ElementStyle), (∀ c ∈ cs, c ∈ t.kids n) →
        ∃ k', ∀ depth ≥ d + 1, keepEach (fun kept c => keepRules checks styles t depth c kept) cs k = .ok k' := by
      intro cs
      induction cs with
      | nil => intro k _; exact ⟨k, fun _ _ => rfl⟩
      | cons c cs ihc =>
        intro k hmem
        obtain ⟨hlt, -, hex⟩ := hw.slotsYounger n c (hw.sub n c (hmem c List.mem_cons_self))
        obtain ⟨k1, h1⟩ := ih (n := c) (kept := k) (by unfold NodeId at *; omega) hex
        obtain ⟨k2, h2⟩ := ihc k1 (fun c' hc' => hmem c' (List.mem_cons_of_mem _ hc'))
        refine ⟨k2, fun depth hd => ?_⟩
        rw [keepEach, h1 depth hd]
        exact h2 depth hd
    obtain ⟨k', hk⟩ := loop (t.kids n) (upd kept n l) (fun _ h => h)
    refine ⟨k', fun depth hd => ?_⟩
    obtain ⟨j, rfl⟩ : ∃ j, depth = j + 1 := ⟨depth - 1, by omega⟩
    rw [keepRules, he]
    simp only [hl]
    exact hk j (by omega)

/-! ## Placing leaves the form alone -/

theorem placed_form (e : Element) (layout : Layout) (opacity : Rat) (clipping : Option Layout) :
    e.SameForm (e.placed layout opacity clipping) ∧ (e.placed layout opacity clipping).state = e.state :=
  ⟨⟨rfl, rfl, rfl, rfl, rfl, rfl, rfl, rfl, rfl⟩, rfl⟩

theorem restyled_setCtx {t : Tree} {n : NodeId} {e e' : Element} (he : t.ctx n = some e) (hf : e.SameForm e') (hs : e'.state = e.state) :
    Restyled t (t.setCtx n e') := by
  refine ⟨rfl, rfl, rfl, ?_, ?_⟩
  · intro m hm
    by_cases hmn : m = n
    · subst hmn; rw [he] at hm; cases hm
    · simp only [Tree.setCtx, upd_other _ _ hmn]; exact hm
  · intro m x hx
    by_cases hmn : m = n
    · subst hmn
      rw [he] at hx; injection hx with hx; subst hx
      exact ⟨e', upd_same _ _ _, hf, hs⟩
    · exact ⟨x, by simp only [Tree.setCtx, upd_other _ _ hmn]; exact hx, Element.SameForm.refl x, rfl⟩

theorem forEach_induct {σ : Type} {R : σ → σ → Prop} (hr : ∀ s, R s s) (ht : ∀ a b c, R a b → R b c → R a c) {f : σ → NodeId → Except Trouble σ}
    (hf : ∀ s c s', f s c = .ok s' → R s s') (cs : List NodeId) {s s' : σ} (h : forEach f cs s = .ok s') : R s s' := by
  induction cs generalizing s with
  | nil => simp only [forEach, Except.ok.injEq] at h; subst h; exact hr s
  | cons c cs ih =>
    simp only [forEach] at h
    split at h
    · cases h
    · rename_i s1 h1
      exact ht _ _ _ (hf _ _ _ h1) (ih h)

theorem placeTree_restyled {boxes : NodeId → Layout} (depth : Nat) : ∀ {n : NodeId} {location : Rat × Rat} {opacity : Rat}
    {clipping : Option Layout} {t t' : Tree}, placeTree boxes depth n location opacity clipping t = .ok t' → Restyled t t' := by
  induction depth with
  | zero => intro n l o c t t' h; cases h
  | succ depth ih =>
    intro n location opacity clipping t t' h
    rw [placeTree] at h
    cases he : t.ctx n with
    | none => rw [he] at h; cases h
    | some e =>
      rw [he] at h
      simp only at h
      refine (restyled_setCtx he (placed_form _ _ _ _).1 (placed_form _ _ _ _).2).trans (forEach_induct (R := Restyled) Restyled.refl (fun _ _ _ => Restyled.trans) ?_ _ h)
      intro s c s' hs
      exact ih hs

/-! ## Updating -/

/-- The parts of a successful update. -/
theorem update_parts {fuel : Nat} {order : FrameOrder} {a a' : App} {input : Input} {value : Json} {out : Output}
    (h : a.update p fuel order input value = .ok (a', out)) :
    ∃ v styled tree t' ui, a.screen.view.update p.inline value = .ok v ∧
      styleView (a.env p fuel order input.time) fuel v.body input.viewport
        ⟨v.stage.tree, upd a.layouts v.root (resizeRoot input.viewport (a.layouts v.root))⟩ = .ok styled ∧
      placeView (p.solve (styled.recall order.recall)) fuel v.body styled.tree = .ok tree ∧
      handleOutput v.emitter v.body input.events (tree, a.screen.ui) = .ok ((t', ui), out) ∧
      a' = ⟨⟨{ v with stage := { v.stage with tree := t' } }, ui⟩, a.css, a.kept, styled.layouts⟩ := by
  unfold App.update at h
  split at h
  · cases h
  · rename_i v hv
    simp only at h
    split at h
    · cases h
    · rename_i styled hs
      split at h
      · cases h
      · rename_i tree hp
        split at h
        · cases h
        · rename_i t' ui o ho
          simp only [Except.ok.injEq, Prod.mk.injEq] at h
          obtain ⟨rfl, rfl⟩ := h
          exact ⟨v, styled, tree, t', ui, hv, hs, hp, ho, rfl⟩

theorem update_refines {fuel fuel' : Nat} {order : FrameOrder} {a a' : App} {input : Input} {value : Json} {out : Output} {document : Html}
    (hs : Session p.translate p.inline p.transformers fuel' document a.screen)
    (h : a.update p fuel order input value = .ok (a', out)) : a.screen.Updates p.inline value input.events a'.screen out := by
  obtain ⟨v, styled, tree, t', ui, h1, h2, h3, h4, rfl⟩ := update_parts h
  obtain ⟨v0, hr, htw⟩ := (session_ok hs).twin
  obtain ⟨-, -, -, -, -, wf, -⟩ := twin_update hr htw h1
  have hst : Restyled v.stage.tree styled.tree := styleView_restyled (s := ⟨v.stage.tree, _⟩) wf h2
  exact ⟨v, tree, t', ui, h1, hst.trans (placeTree_restyled _ h3), h4, rfl⟩

theorem run_cons {fuel : Nat} {a a2 : App} {f : Frame} {fs : List Frame} {outs : List Output} (h : a.run p fuel (f :: fs) = .ok (a2, outs)) :
    ∃ a1 out rest, a.update p fuel f.order f.input f.value = .ok (a1, out) ∧ a1.run p fuel fs = .ok (a2, rest) ∧ outs = out :: rest := by
  simp only [App.run] at h
  split at h
  · cases h
  · rename_i a1 out h1
    split at h
    · cases h
    · rename_i a3 rest h2
      simp only [Except.ok.injEq, Prod.mk.injEq] at h
      obtain ⟨rfl, rfl⟩ := h
      exact ⟨a1, out, rest, h1, h2, rfl⟩

theorem run_session {fuel fuel' : Nat} {document : Html} (fs : List Frame) {a a' : App} {outs : List Output}
    (hs : Session p.translate p.inline p.transformers fuel' document a.screen) (h : a.run p fuel fs = .ok (a', outs)) :
    Session p.translate p.inline p.transformers fuel' document a'.screen := by
  induction fs generalizing a outs with
  | nil => simp only [App.run, Except.ok.injEq, Prod.mk.injEq] at h; obtain ⟨rfl, -⟩ := h; exact hs
  | cons f fs ih =>
    obtain ⟨a1, out, rest, h1, h2, -⟩ := run_cons h
    exact ih (.updated hs (update_refines hs h1)) h2

/-- Updating a twin. -/
theorem twin_step {translate inline tr fuel document} {v0 v v1 : View} (hr : Reached translate inline tr fuel document v0)
    (h : Twin v0 v) {value : Json} (hu : v.update inline value = .ok v1) : ∃ v2, v0.update inline value = .ok v2 ∧ Twin v2 v1 := by
  obtain ⟨regs, hg⟩ := reached_good hr
  unfold View.update at hu
  cases hb : v.vm.bind value with
  | none => rw [hb] at hu; simp at hu
  | some q =>
    obtain ⟨vm, rs⟩ := q
    rw [hb] at hu
    simp only at hu
    rw [h.vm] at hb
    obtain ⟨stage, a1, a2, a3, a4⟩ := viewGood_update (inline := inline) hg value hb
    obtain ⟨stage1, b1, b2, b3⟩ := updateTrees_form rs h.tree h.identified a1
    rw [b1] at hu
    simp only [Except.ok.injEq] at hu
    subst hu
    exact ⟨_, a2, rfl, h.root, h.body, b3, b2⟩

theorem Twin.output {v0 v : View} (h : Twin v0 v) {t t' : Tree} (ht : Restyled v.stage.tree t) (hf : SameForm t t') :
    Twin v0 { v with stage := { v.stage with tree := t' } } :=
  ⟨h.vm, h.root, h.body, h.identified, (h.tree.trans (Tree.Related.mono (fun _ _ hx => hx.1) ht)).trans hf⟩

theorem handleOutput_states {translate inline tr fuel document} {s : Screen} (h : SessionOk translate inline tr fuel document s)
    {value : Json} {v : View} (hv : s.view.update inline value = .ok v) {t : Tree} (ht : Restyled v.stage.tree t)
    {events : List InputEvent} {t' : Tree} {u : Ui} {out : Output} (ho : handleOutput v.emitter v.body events (t, s.ui) = .ok ((t', u), out)) :
    StateOnly t t' := by
  obtain ⟨v0, hr, htw⟩ := h.twin
  obtain ⟨v2, r2, tw2, er, eb, wf, kp⟩ := twin_update hr htw hv
  have hform : SameForm v.stage.tree t := Tree.Related.mono (fun _ _ hx => hx.1) ht
  have hkeep : Keeps s.view.stage.tree t := kp.trans ht.keeps
  have st : Standing v.root v.body (t, { s.ui with mouse := (lastMove events).getD s.ui.mouse, messages := [] }) := by
    refine Standing.retree (t := s.view.stage.tree) (u := s.ui) ?_ (hform.wf wf) hkeep ⟨rfl, rfl, rfl, rfl, rfl⟩
    rw [er, eb]; exact h.standing
  have rc : Recorded (t, { s.ui with mouse := (lastMove events).getD s.ui.mouse, messages := [] }) :=
    h.recorded.retree hkeep ⟨rfl, rfl⟩
  obtain ⟨⟨t1, u1⟩, g1, g2, g3, g4⟩ := handleEvents_ok (env := v.emitter) (if (lastMove events).isSome then events
    else .mouseMove ((lastMove events).getD s.ui.mouse) :: events) st rc
  unfold handleOutput at ho
  simp only [g1, Except.ok.injEq, Prod.mk.injEq] at ho
  obtain ⟨⟨rfl, -⟩, -⟩ := ho
  exact g4.tree

theorem handleOutput_form {translate inline tr fuel document} {s : Screen} (h : SessionOk translate inline tr fuel document s)
    {value : Json} {v : View} (hv : s.view.update inline value = .ok v) {t : Tree} (ht : Restyled v.stage.tree t)
    {events : List InputEvent} {t' : Tree} {u : Ui} {out : Output} (ho : handleOutput v.emitter v.body events (t, s.ui) = .ok ((t', u), out)) :
    SameForm t t' := (handleOutput_states h hv ht ho).sameForm

/-- The view after some frames has the form of the view after the updates with the values of the frames alone. -/
theorem run_twin {fuel fuel' : Nat} {document : Html} (fs : List Frame) {a a' : App} {outs : List Output} {v0 : View}
    (hr : Reached p.translate p.inline p.transformers fuel' document v0) (htw : Twin v0 a.screen.view)
    (hs : Session p.translate p.inline p.transformers fuel' document a.screen) (h : a.run p fuel fs = .ok (a', outs)) :
    ∃ v, v0.updates p.inline (fs.map (·.value)) = .ok v ∧ Twin v a'.screen.view := by
  induction fs generalizing a outs v0 with
  | nil =>
    simp only [App.run, Except.ok.injEq, Prod.mk.injEq] at h; obtain ⟨rfl, -⟩ := h
    exact ⟨v0, rfl, htw⟩
  | cons f fs ih =>
    obtain ⟨a1, out, rest, h1, h2, -⟩ := run_cons h
    have hup := update_refines hs h1
    obtain ⟨v, t, t', u, g1, g2, g3, g4⟩ := hup
    obtain ⟨v2, e1, e2⟩ := twin_step hr htw g1
    have hs1 : Session p.translate p.inline p.transformers fuel' document a1.screen := .updated hs ⟨v, t, t', u, g1, g2, g3, g4⟩
    have htw1 : Twin v2 a1.screen.view := by
      rw [g4]
      exact e2.output g2 (handleOutput_form (session_ok hs) g1 g2 g3)
    obtain ⟨v3, e3, e4⟩ := ih (.updated hr e1) htw1 hs1 h2
    refine ⟨v3, ?_, e4⟩
    simp only [List.map_cons, View.updates, e1]
    exact e3

end Verif
