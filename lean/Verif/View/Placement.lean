import Verif.View.Rebound
import Verif.View.Modest
import Verif.Props.Layout
/-!
# Where the elements of a program are (lemmas for C78, C79)
-/
namespace Verif

variable {p : Platform}

theorem Way.kids {t t' : Tree} (hk : t'.kids = t.kids) {body : NodeId} {above : List NodeId} {n : NodeId} (h : Way t body above n) : Way t' body above n := by
  induction h with
  | body => exact .body
  | down _ hc ih => exact .down ih (by rw [hk]; exact hc)

theorem displayed_way {t : Tree} {body n : NodeId} (h : Displayed t body n) : ∃ above, Way t body above n := by
  induction h with
  | root => exact ⟨[], .body⟩
  | child _ hc ih => obtain ⟨l, hl⟩ := ih; exact ⟨_, .down hl hc⟩

theorem Way.displayed {t : Tree} {body n : NodeId} {above : List NodeId} (h : Way t body above n) : Displayed t body n := by
  induction h with
  | body => exact .root
  | down _ hc ih => exact .child ih hc

/-- Placing in the last update, as the program has it at the end. -/
theorem Living.placed {fuel fuel' : Nat} {document : Html} {a a' : App} (h : Living p fuel document a) {order : FrameOrder} {input : Input} {value : Json} {out : Output}
    (hu : a.update p fuel' order input value = .ok (a', out)) :
    ∃ styled tree, LaidOutFrom styled a' ∧ styled.tree.Wf a'.screen.view.root a'.screen.view.body ∧
      placeView (p.solve (styled.recall order.recall)) fuel' a'.screen.view.body styled.tree = .ok tree ∧ StateOnly tree a'.screen.view.stage.tree := by
  obtain ⟨v, styled, tree, t', ui, g1, g2, g3, g4, g5⟩ := update_parts hu
  have wf := (h.bound g1).1
  have hst : Restyled v.stage.tree styled.tree := styleView_restyled (s := ⟨v.stage.tree, _⟩) wf g2
  have hpl : Restyled styled.tree tree := placeTree_restyled _ g3
  have hso := handleOutput_states (session_ok h.session) g1 (hst.trans hpl) g4
  have hform : SameForm v.stage.tree styled.tree := Tree.Related.mono (fun _ _ hx => hx.1) hst
  refine ⟨styled, tree, ⟨?_, ?_⟩, ?_, ?_, ?_⟩
  · rw [g5]
  · rw [g5]; exact SameStyled.related_trans (placeTree_styled _ g3) (stateOnly_styled hso)
  · rw [g5]; exact hform.wf wf
  · rw [g5]; exact g3
  · rw [g5]; exact hso

/-- One more update. -/
theorem run_snoc {fuel : Nat} {fs : List Frame} {a a1 a' : App} {outs : List Output} {last : Frame} {out : Output} (hr : a.run p fuel fs = .ok (a1, outs))
    (hu : a1.update p fuel last.order last.input last.value = .ok (a', out)) : a.run p fuel (fs ++ [last]) = .ok (a', outs ++ [out]) := by
  induction fs generalizing a outs with
  | nil =>
    simp only [App.run, Except.ok.injEq, Prod.mk.injEq] at hr
    obtain ⟨rfl, rfl⟩ := hr
    simp [App.run, hu]
  | cons f fs ih =>
    obtain ⟨a2, out1, rest, h1, h2, rfl⟩ := run_cons hr
    simp [App.run, h1, ih h2]

/-! ## Scrolling -/

/-- What is kept true of the scrolling of all elements. -/
structure ScrollRule (p : Platform) (Q : NodeId → Option Scrolling → Prop) : Prop where
  none : ∀ n, Q n none
  step : ∀ styled n s, Q n s → Q n (Scrolling.ensure (p.solve styled n) s)

theorem placeTree_scrolling {boxes : NodeId → Layout} {Q : NodeId → Option Scrolling → Prop} (hQ : ∀ n s, Q n s → Q n (Scrolling.ensure (boxes n) s)) (depth : Nat) :
    ∀ {n : NodeId} {location : Rat × Rat} {opacity : Rat} {clipping : Option Layout} {t t' : Tree},
      placeTree boxes depth n location opacity clipping t = .ok t' → t.Every (fun n e => Q n e.scrolling) → t'.Every (fun n e => Q n e.scrolling) := by
  induction depth with
  | zero => intro n l o c t t' h; cases h
  | succ depth ih =>
    intro n location opacity clipping t t' h ht
    rw [placeTree] at h
    cases he : t.ctx n with
    | none => rw [he] at h; cases h
    | some e =>
      rw [he] at h
      simp only at h
      refine forEach_induct (R := fun t t' : Tree => t.Every (fun n e => Q n e.scrolling) → t'.Every (fun n e => Q n e.scrolling)) (fun t => id)
        (fun _ _ _ f g h => g (f h)) (fun s c s' hs => ih hs) _ h (Tree.Every.setCtx ht ?_)
      exact hQ n _ (ht n e he)

theorem every_related {R : Element → Element → Prop} {P : NodeId → Element → Prop} {t t' : Tree} (h : CtxRel R t t') (hP : ∀ n e e', R e e' → P n e → P n e') (ht : t.Every P) :
    t'.Every P := by
  intro n e he
  obtain ⟨e0, h0, h1⟩ := h.back he
  exact hP _ _ _ h1 (ht n e0 h0)

theorem scrolling_opened {Q : NodeId → Option Scrolling → Prop} (hQ : ∀ n, Q n none) {fuel : Nat} {document : Html} {css : Css} {a : App} (h : openApp p fuel document css = .ok a) :
    a.screen.view.stage.tree.Every (fun n e => Q n e.scrolling) := by
  obtain ⟨σ, ho⟩ := openApp_opened h
  have hv := renderView_ok ho.rendered
  have hm : σ.tree.Every (fun _ e => e.scrolling = none) :=
    renderView_modest (env := docEnv p.translate p.inline document)
      ⟨fun _ _ => rfl, fun _ _ => rfl, fun _ _ => rfl, fun _ _ _ h => h, fun _ _ _ h => h, fun _ _ _ h => h, fun _ _ _ h => h, fun _ _ _ h => h, fun _ _ _ h => h⟩ ho.rendered
  have := every_related (P := fun n e => Q n e.scrolling) (updateTrees_rebound (inline := p.inline) _ (s := ⟨σ.tree, σ.staticId⟩) hv.wf (defaultReactions_ok ho.rendered) ho.stage)
    (fun _ e e' hr hq => by rw [hr]; exact hq) (fun n e he => by show Q n e.scrolling; rw [hm n e he]; exact hQ n)
  exact this

theorem scrolling_updated {Q : NodeId → Option Scrolling → Prop} (hQ : ScrollRule p Q) {fuel fuel' : Nat} {document : Html} {a a' : App} (h : Living p fuel document a)
    {order : FrameOrder} {input : Input} {value : Json} {out : Output} (hu : a.update p fuel' order input value = .ok (a', out))
    (ha : a.screen.view.stage.tree.Every (fun n e => Q n e.scrolling)) : a'.screen.view.stage.tree.Every (fun n e => Q n e.scrolling) := by
  obtain ⟨v, styled, tree, t', ui, g1, g2, g3, g4, g5⟩ := update_parts hu
  have hst : Restyled v.stage.tree styled.tree := styleView_restyled (s := ⟨v.stage.tree, _⟩) (h.bound g1).1 g2
  have hpl : Restyled styled.tree tree := placeTree_restyled _ g3
  have hso := handleOutput_states (session_ok h.session) g1 (hst.trans hpl) g4
  have h1 := every_related (P := fun n e => Q n e.scrolling) (h.rebound g1) (fun _ e e' hr hq => by rw [hr]; exact hq) ha
  have h2 := every_related (P := fun n e => Q n e.scrolling) (styleTree_unshifted _ g2) (fun _ e e' hr hq => by rw [hr.2.2.2.2.1]; exact hq) h1
  have h3 := placeTree_scrolling (fun n s => hQ.step _ n s) _ g3 h2
  have h4 := every_related (P := fun n e => Q n e.scrolling) (Tree.Related.ctxRel hso) (fun _ e e' hr hq => by rw [hr]; exact hq) h3
  rw [g5]; exact h4

theorem scrolling_run {Q : NodeId → Option Scrolling → Prop} (hQ : ScrollRule p Q) {fuel fuel' : Nat} {document : Html} (fs : List Frame) {a a' : App} {outs : List Output}
    (h : Living p fuel document a) (hr : a.run p fuel' fs = .ok (a', outs)) (ha : a.screen.view.stage.tree.Every (fun n e => Q n e.scrolling)) :
    a'.screen.view.stage.tree.Every (fun n e => Q n e.scrolling) := by
  induction fs generalizing a outs with
  | nil => simp only [App.run, Except.ok.injEq, Prod.mk.injEq] at hr; obtain ⟨rfl, -⟩ := hr; exact ha
  | cons f fs ih =>
    obtain ⟨a1, out, rest, h1, h2, -⟩ := run_cons hr
    exact ih (h.updated h1) h2 (scrolling_updated hQ h h1 ha)

end Verif
