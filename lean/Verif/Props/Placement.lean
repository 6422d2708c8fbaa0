import Verif.View.Placement
import Verif.Props.Input
import Verif.Input.Ghost
/-!
# C78, C79: where the elements of a program are
-/
namespace Verif

variable {p : Platform}

/-- **C78.** After every update of every run, every displayed element is where the layout engine put it: its position
is the sum of the places the engine gave it and the elements above it in their parents, less what those above are
scrolled by; its size is that of its box. Its opacity is the product of its own and those above it, it is a scrolling one
exactly if its content is larger than itself, and it is clipped by the frame of the nearest scrolling element above. The
boxes are those the engine computed from the layout styles and elements the program ends up with (`LaidOutFrom`), as far
as it does not recall older ones (C82 says when it does). -/
theorem C78_places {fuel fuel' : Nat} {document : Html} {css : Css} {a a1 a' : App} {fs : List Frame} {outs : List Output} {last : Frame} {out : Output}
    (ho : openApp p fuel document css = .ok a) (hr : a.run p fuel' fs = .ok (a1, outs)) (hu : a1.update p fuel' last.order last.input last.value = .ok (a', out)) :
    ∃ styled boxes, LaidOutFrom styled a' ∧ boxes = p.solve (styled.recall last.order.recall) ∧ ∀ above n, Way a'.screen.view.stage.tree a'.screen.view.body above n →
      ∃ e, a'.screen.view.stage.tree.ctx n = some e ∧
        e.position.1 = (cornerOf boxes above n).1 - (above.map fun m => (a'.screen.view.stage.tree.scrolled m).1).sum ∧
        e.position.2 = (cornerOf boxes above n).2 - (above.map fun m => (a'.screen.view.stage.tree.scrolled m).2).sum ∧
        e.size = ((boxes n).width, (boxes n).height) ∧
        e.contentSize = ((boxes n).contentWidth, (boxes n).contentHeight) ∧
        e.opacity = ((above ++ [n]).map a'.screen.view.stage.tree.ownOpacity).prod ∧
        (a'.screen.view.stage.tree.scrolls n = true ↔ (boxes n).Overflows) ∧
        (∀ outer q inner, above = outer ++ q :: inner → (boxes q).Overflows → (∀ m ∈ inner, ¬ (boxes m).Overflows) →
          ∃ eq, a'.screen.view.stage.tree.ctx q = some eq ∧ e.clipping = some eq.frame) ∧
        ((∀ m ∈ above, ¬ (boxes m).Overflows) → e.clipping = none) := by
  have hl := living_run fs (Living.opened ho) hr
  obtain ⟨styled, tree, h1, wf, h2, h3⟩ := hl.placed hu
  generalize hboxes : p.solve (styled.recall last.order.recall) = boxes at h2
  refine ⟨styled, boxes, h1, hboxes.symm, fun above n hw => ?_⟩
  have hk : styled.tree.kids = a'.screen.view.stage.tree.kids := h1.tree.kids.symm
  have hw' : Way styled.tree a'.screen.view.body above n := hw.kids hk
  have hscr : ∀ m, a'.screen.view.stage.tree.scrolled m = tree.scrolled m := by
    intro m
    unfold Tree.scrolled
    cases hc : tree.ctx m with
    | none => rw [h3.gone m hc]
    | some x => obtain ⟨x', g1, g2⟩ := h3.there m x hc; rw [g1]; simp only; rw [g2]; rfl
  have hscs : ∀ m, a'.screen.view.stage.tree.scrolls m = tree.scrolls m := by
    intro m
    unfold Tree.scrolls
    cases hc : tree.ctx m with
    | none => rw [h3.gone m hc]
    | some x => obtain ⟨x', g1, g2⟩ := h3.there m x hc; rw [g1]; simp only; rw [g2]
  have hown : ∀ m, a'.screen.view.stage.tree.ownOpacity m = styled.tree.ownOpacity m := by
    intro m
    unfold Tree.ownOpacity
    cases hc : styled.tree.ctx m with
    | none => rw [h1.tree.gone m hc]
    | some x => obtain ⟨x', g1, g2⟩ := h1.tree.there m x hc; rw [g1]; simp only; rw [g2]
  have hover : ∀ l m, Way styled.tree a'.screen.view.body l m → (tree.scrolls m = true ↔ (boxes m).Overflows) := fun l m hm => C59_scrolls_iff wf h2 hm
  have habove : ∀ {above n}, Way styled.tree a'.screen.view.body above n → ∀ m ∈ above, ∃ l, Way styled.tree a'.screen.view.body l m := by
    intro above n h
    induction h with
    | body => simp
    | down h _ ih =>
      intro m hm
      rcases List.mem_append.1 hm with hm | hm
      · exact ih m hm
      · rw [List.mem_singleton] at hm; subst hm; exact ⟨_, h⟩
  obtain ⟨e, he, p1, p2, p3, p4⟩ := C57_position wf h2 hw'
  obtain ⟨e', he', o1⟩ := C58_opacity wf h2 hw'
  rw [he] at he'; injection he' with he'; subst he'
  obtain ⟨e', he', c1, c2⟩ := C58_clipping wf h2 hw'
  rw [he] at he'; injection he' with he'; subst he'
  obtain ⟨e', he', hs⟩ := h3.there n e he
  have hframe : ∀ q eq, tree.ctx q = some eq → ∃ eq', a'.screen.view.stage.tree.ctx q = some eq' ∧ eq'.frame = eq.frame := by
    intro q eq hq
    obtain ⟨eq', g1, g2⟩ := h3.there q eq hq
    exact ⟨eq', g1, by rw [g2]; rfl⟩
  refine ⟨e', he', ?_, ?_, ?_, ?_, ?_, ?_, ?_, ?_⟩
  · rw [hs]; simp only [hscr]; exact p1
  · rw [hs]; simp only [hscr]; exact p2
  · rw [hs]; exact p3
  · rw [hs]; exact p4
  · rw [hs, show a'.screen.view.stage.tree.ownOpacity = styled.tree.ownOpacity from funext hown]; exact o1
  · rw [hscs]; exact hover _ _ hw'
  · intro outer q inner ha hq hi
    have hmem : ∀ m ∈ above, (tree.scrolls m = true ↔ (boxes m).Overflows) := fun m hm => by
      obtain ⟨l, hl⟩ := habove hw' m hm; exact hover l m hl
    obtain ⟨eq, g1, g2⟩ := c1 outer q inner ha ((hmem q (by rw [ha]; simp)).2 hq) (fun m hm => by
      have := hmem m (by rw [ha]; simp [hm])
      cases hc : tree.scrolls m with
      | false => rfl
      | true => exact absurd (this.1 hc) (hi m hm))
    obtain ⟨eq', g3, g4⟩ := hframe q eq g1
    exact ⟨eq', g3, by rw [hs, g4]; exact g2⟩
  · intro hi
    rw [hs]
    refine c2 fun m hm => ?_
    obtain ⟨l, hl⟩ := habove hw' m hm
    cases hc : tree.scrolls m with
    | false => rfl
    | true => exact absurd ((hover l m hl).1 hc) (hi m hm)

/-- **C79 (what is so instead).** Nothing a user does ever scrolls anything: in every run, with whatever wheel events, no
element is ever scrolled by more than zero on either axis. -/
theorem C79_never_scrolls_partial {fuel fuel' : Nat} {document : Html} {css : Css} {a a' : App} {fs : List Frame} {outs : List Output}
    (ho : openApp p fuel document css = .ok a) (hr : a.run p fuel' fs = .ok (a', outs)) (n : NodeId) :
    (a'.screen.view.stage.tree.scrolled n).1 ≤ 0 ∧ (a'.screen.view.stage.tree.scrolled n).2 ≤ 0 := by
  have hQ : ScrollRule p (fun _ s => ∀ r, s = some r → r.x ≤ 0 ∧ r.y ≤ 0) := by
    refine ⟨fun n r h => (by cases h), fun styled n s hs r hr => ?_⟩
    unfold Scrolling.ensure at hr
    cases s with
    | none =>
      simp only at hr
      split at hr
      · injection hr with hr; subst hr; exact ⟨min_le_left _ _, min_le_left _ _⟩
      · cases hr
    | some c =>
      obtain ⟨c1, c2⟩ := hs c rfl
      simp only at hr
      split at hr
      · injection hr with hr; subst hr; exact ⟨(min_le_left _ _).trans c1, (min_le_left _ _).trans c2⟩
      · cases hr
  have := scrolling_run hQ fs (Living.opened ho) hr (scrolling_opened (Q := fun _ s => ∀ r, s = some r → r.x ≤ 0 ∧ r.y ≤ 0) hQ.none ho)
  unfold Tree.scrolled
  cases hc : a'.screen.view.stage.tree.ctx n with
  | none => exact ⟨le_refl _, le_refl _⟩
  | some e =>
    simp only [Element.scrolled]
    cases hs : e.scrolling with
    | none => exact ⟨le_refl _, le_refl _⟩
    | some s => exact this n e hc s hs

/-- **C79 (what is so instead).** An element whose content the engine never makes smaller than the element is never
scrolled at all. -/
theorem C79_at_rest_partial {fuel fuel' : Nat} {document : Html} {css : Css} {a a' : App} {fs : List Frame} {outs : List Output}
    (ho : openApp p fuel document css = .ok a) (hr : a.run p fuel' fs = .ok (a', outs)) {n : NodeId} (hf : ∀ styled, (p.solve styled n).Filled) :
    a'.screen.view.stage.tree.scrolled n = (0, 0) := by
  have hQ : ScrollRule p (fun m s => (∀ styled, (p.solve styled m).Filled) → ∀ r, s = some r → r.x = 0 ∧ r.y = 0) := by
    refine ⟨fun n _ r h => (by cases h), fun styled n s hs hf r hr => ?_⟩
    obtain ⟨f1, f2⟩ := hf styled
    have m1 : min 0 ((p.solve styled n).contentWidth - (p.solve styled n).width) = 0 := min_eq_left (by linarith)
    have m2 : min 0 ((p.solve styled n).contentHeight - (p.solve styled n).height) = 0 := min_eq_left (by linarith)
    unfold Scrolling.ensure at hr
    cases s with
    | none =>
      simp only at hr
      split at hr
      · injection hr with hr; subst hr; exact ⟨m1, m2⟩
      · cases hr
    | some c =>
      obtain ⟨c1, c2⟩ := hs hf c rfl
      simp only [c1, c2] at hr
      split at hr
      · injection hr with hr; subst hr; exact ⟨m1, m2⟩
      · cases hr
  have := scrolling_run hQ fs (Living.opened ho) hr (scrolling_opened (Q := fun m s => (∀ styled, (p.solve styled m).Filled) → ∀ r, s = some r → r.x = 0 ∧ r.y = 0) hQ.none ho)
  unfold Tree.scrolled
  cases hc : a'.screen.view.stage.tree.ctx n with
  | none => rfl
  | some e =>
    simp only [Element.scrolled]
    cases hs : e.scrolling with
    | none => rfl
    | some s => obtain ⟨h1, h2⟩ := this n e hc hf s hs; simp [h1, h2]

/-- The frame without turns of the wheel. -/
def Frame.still (f : Frame) : Frame := { f with input := { f.input with events := f.input.events.filter InputEvent.notWheel } }

/-- The same program but for the record of its input, which it never reads. -/
def SameApp (a a' : App) : Prop := a' = { a with screen := { a.screen with ui := { a.screen.ui with log := a'.screen.ui.log } } }

/-- **C79 (what is so instead).** Leaving out the wheel events changes nothing: the same outputs, the same program (but for
the record of input kept for the proofs). -/
theorem C79_wheel_ignored {fuel : Nat} {fs : List Frame} {a a' : App} {outs : List Output} (hr : a.run p fuel fs = .ok (a', outs)) :
    ∃ a'', a.run p fuel (fs.map Frame.still) = .ok (a'', outs) ∧ SameApp a' a'' := by
  suffices ∀ b, SameApp a b → ∃ a'', b.run p fuel (fs.map Frame.still) = .ok (a'', outs) ∧ SameApp a' a'' from this a rfl
  induction fs generalizing a outs with
  | nil =>
    intro b hb
    simp only [App.run, Except.ok.injEq, Prod.mk.injEq] at hr
    obtain ⟨rfl, rfl⟩ := hr
    exact ⟨b, rfl, hb⟩
  | cons f fs ih =>
    intro b hb
    obtain ⟨a1, out, rest, h1, h2, rfl⟩ := run_cons hr
    obtain ⟨v, styled, tree, t', ui, g1, g2, g3, g4, g5⟩ := update_parts h1
    have hd : SameDesk (tree, a.screen.ui) (tree, b.screen.ui) := by
      refine ⟨rfl, ?_⟩
      unfold SameApp at hb
      unfold SameUi
      rw [hb]
    have := handleOutput_wheel v.emitter v.body f.input.events hd
    rw [g4] at this
    generalize ho : handleOutput v.emitter v.body (f.input.events.filter InputEvent.notWheel) (tree, b.screen.ui) = r at this
    cases this with
    | @ok _ s' _ hs =>
      obtain ⟨t1, u1⟩ := s'
      obtain ⟨hs1, hs2⟩ := hs
      simp only at hs1 hs2
      subst hs1
      have hb1 : b.screen.view = a.screen.view := by rw [hb]
      have hb2 : b.css = a.css := by rw [hb]
      have hb3 : b.kept = a.kept := by rw [hb]
      have hb4 : b.layouts = a.layouts := by rw [hb]
      have hup : b.update p fuel f.still.order f.still.input f.still.value =
          .ok (⟨⟨{ v with stage := { v.stage with tree := t1 } }, u1⟩, a.css, a.kept, styled.layouts⟩, out) := by
        have henv : b.env p fuel f.order f.input.time = a.env p fuel f.order f.input.time := by unfold App.env; rw [hb2, hb3]
        unfold App.update
        simp only [Frame.still, hb1, hb2, hb3, hb4, g1, henv, g2, g3, ho]
      obtain ⟨a'', k1, k2⟩ := ih h2 ⟨⟨{ v with stage := { v.stage with tree := t1 } }, u1⟩, a.css, a.kept, styled.layouts⟩ (by
        rw [g5]
        unfold SameApp
        unfold SameUi at hs2
        simp only
        rw [← hs2])
      refine ⟨a'', ?_, k2⟩
      simp only [List.map_cons, App.run, hup, k1]

/-- **C78.** From the boxes to the pointer: if the engine never makes the content of the elements above smaller than
themselves, an element is hovered after an update exactly if it is displayed, visible and takes pointer events, and the
pointer is in the rectangle the engine gave it. -/
theorem C78_hover {fuel fuel' : Nat} {document : Html} {css : Css} {a a1 a' : App} {fs : List Frame} {outs : List Output} {last : Frame} {out : Output}
    (ho : openApp p fuel document css = .ok a) (hr : a.run p fuel' fs = .ok (a1, outs)) (hu : a1.update p fuel' last.order last.input last.value = .ok (a', out)) :
    ∃ styled boxes, LaidOutFrom styled a' ∧ boxes = p.solve (styled.recall last.order.recall) ∧ ∀ above n e, Way a'.screen.view.stage.tree a'.screen.view.body above n → (∀ m ∈ above, ∀ styled, (p.solve styled m).Filled) →
      a'.screen.view.stage.tree.ctx n = some e →
      (e.state.hover = true ↔ e.pointerEvents = .auto ∧ e.visible = true ∧ InBox (cornerOf boxes above n) (boxes n) a'.screen.ui.mouse) := by
  obtain ⟨styled, boxes, h1, hbx, h2⟩ := C78_places ho hr hu
  refine ⟨styled, boxes, h1, hbx, fun above n e hw hf he => ?_⟩
  obtain ⟨e', he', p1, p2, p3, -⟩ := h2 above n hw
  rw [he] at he'; injection he' with he'; subst he'
  obtain ⟨hs, hup⟩ := C74_runs_are_sessions ho hr
  have hall : a.run p fuel' (fs ++ [last]) = .ok (a', outs ++ [out]) := by
    exact run_snoc hr hu
  have hz : ∀ m ∈ above, a'.screen.view.stage.tree.scrolled m = (0, 0) := fun m hm => C79_at_rest_partial ho hall (hf m hm)
  have z1 : (above.map fun m => (a'.screen.view.stage.tree.scrolled m).1).sum = 0 := by
    rw [List.map_congr_left (fun m hm => by rw [hz m hm])]; simp
  have z2 : (above.map fun m => (a'.screen.view.stage.tree.scrolled m).2).sum = 0 := by
    rw [List.map_congr_left (fun m hm => by rw [hz m hm])]; simp
  rw [z1, sub_zero] at p1
  rw [z2, sub_zero] at p2
  rw [(C28_hover_exact hs (hup last a' out hu)).1 n e he]
  unfold Pointed Inside InBox
  constructor
  · rintro ⟨-, e', h', g1, g2, g3⟩
    rw [he] at h'; injection h' with h'; subst h'
    rw [p1, p2, p3] at g3
    exact ⟨g1, g2, g3⟩
  · rintro ⟨g1, g2, g3⟩
    refine ⟨hw.displayed, e, he, g1, g2, ?_⟩
    rw [p1, p2, p3]
    exact g3

end Verif
