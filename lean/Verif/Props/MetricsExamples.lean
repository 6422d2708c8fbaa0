import Verif.Props.MetricsIdle
/-!
# C86: the metrics of a program
-/
namespace Verif

/-- `updateCounted` after the value was bound. -/
def App.restCounted (p : Platform) (fuel : Nat) (order : FrameOrder) (a : App) (input : Input) (m : Metrics) (r : Except Fail View) : Except Halt ((App × Output) × Metrics) :=
  let m := { m with updates := m.updates + 1 }
  match r with
  | .error f => .error f.halt
  | .ok v =>
    let layouts := upd a.layouts v.root (resizeRoot input.viewport (a.layouts v.root))
    match styleTreeCounted a.css.styles.length (a.env p fuel order input.time) fuel v.body ⟨16, 16, ⟨0, 0, 0, 0⟩, input.viewport.1, input.viewport.2⟩
        (fun _ => none) (⟨v.stage.tree, layouts⟩, m) with
    | .error t => .error t.halt
    | .ok (styled, m) =>
      match placeTreeCounted (p.solve (styled.recall order.recall)) fuel v.body (0, 0) 1 none (styled.tree, m) with
      | .error t => .error t.halt
      | .ok (tree, m) =>
        match handleOutput v.emitter v.body input.events (tree, a.screen.ui) with
        | .error f => .error f.halt
        | .ok ((tree, ui), out) =>
          .ok ((⟨⟨{ v with stage := { v.stage with tree := tree } }, ui⟩, a.css, a.kept, styled.layouts⟩, out), m)

theorem App.updateCounted_rest (p : Platform) (fuel : Nat) (order : FrameOrder) (a : App) (input : Input) (value : Json) (m : Metrics) :
    a.updateCounted p fuel order input value m = a.restCounted p fuel order input m (a.screen.view.update p.inline value) := rfl

/-- A frame, counted. -/
def App.countedFrame (p : Platform) (fuel : Nat) (a : App) (f : Frame) (m : Metrics) : Option (App × Output × Metrics) :=
  match a.screen.view.evalUpdates p.inline fuel [f.value] with
  | some (.ok v) => match a.restCounted p fuel f.order f.input m (.ok v) with
    | .ok ((a1, out), m) => some (a1, out, m)
    | _ => none
  | _ => none

theorem App.countedFrame_sound {p : Platform} {fuel : Nat} {a a1 : App} {f : Frame} {out : Output} {m m1 : Metrics} (h : a.countedFrame p fuel f m = some (a1, out, m1)) :
    a.updateCounted p fuel f.order f.input f.value m = .ok ((a1, out), m1) := by
  unfold App.countedFrame at h
  split at h
  case h_2 => cases h
  rename_i v hv
  split at h
  case h_2 => cases h
  rename_i a2 out2 m2 hu
  simp only [Option.some.injEq, Prod.mk.injEq] at h
  obtain ⟨rfl, rfl, rfl⟩ := h
  rw [App.updateCounted_rest]
  have hv' : a.screen.view.update p.inline f.value = .ok v := by
    have := View.evalUpdates_sound _ _ _ _ _ hv
    simp only [View.updates] at this
    cases hx : a.screen.view.update p.inline f.value with
    | error f => rw [hx] at this; cases this
    | ok w => rw [hx] at this; injection this with this; rw [this]
  rw [hv']; exact hu

def lookFirst : Frame := ⟨orderId, ⟨1, (800, 600), [.mouseMove (5, 5)]⟩, .obj [("k", .str "")]⟩

def shownCounts (s : Option Shown) : Option (Nat × Nat) := s.map fun s => (s.size, s.styled)

/-- The counters after two frames, and what is shown. -/
def lookMetrics : Bool :=
  match openApp wholePlatform 100 lookDoc lookCss with
  | .error _ => false
  | .ok a => match a.countedFrame wholePlatform 100 lookFirst {} with
    | some (a0, _, m0) => match a0.countedFrame wholePlatform 100 lookLast m0 with
      | some (a1, _, m1) => decide (m0 = ⟨1, 3, 2, 1, 5, 3, 2, 4, 0⟩) && decide (m1 = ⟨2, 6, 4, 1, 5, 6, 4, 9, 0⟩) &&
          decide (shownCounts (a1.screen.view.draw 10) = some (3, 2))
      | _ => false
    | _ => false

theorem lookMetrics_true : lookMetrics = true := by decide +kernel

/-- The conditions of C86 are met: body, `p` and the text in it are shown, and the first two of them are styled. The first frame
gives the `p` another layout style, the second one does not; the second has a declaration more (`.big`). -/
theorem C86_example : ∃ a0 a1 out0 out1 m0 m1 shown, CountedUpdate wholePlatform lookDoc lookCss a0 a1 lookLast out1 m0 m1 ∧
    (∃ a, CountedUpdate wholePlatform lookDoc lookCss a a0 lookFirst out0 {} m0) ∧ lookFirst.order.Fair ∧ lookLast.order.Fair ∧
    a1.screen.view.draw 10 = some shown ∧ shown.size = 3 ∧ shown.styled = 2 ∧
    m0 = { updates := 1, elementsShown := 3, cascades := 2, layouts := 1, styles := 5, matchesStatic := 3, matchesDynamic := 2, applyOk := 4, applyError := 0 } ∧
    m1 = { updates := 2, elementsShown := 6, cascades := 4, layouts := 1, styles := 5, matchesStatic := 6, matchesDynamic := 4, applyOk := 9, applyError := 0 } := by
  have h := lookMetrics_true
  unfold lookMetrics at h
  split at h
  · cases h
  rename_i a ha
  split at h
  case h_2 => cases h
  rename_i a0 out0 m0 h0
  split at h
  case h_2 => cases h
  rename_i a1 out1 m1 h1
  simp only [Bool.and_eq_true, decide_eq_true_eq] at h
  obtain ⟨⟨e0, e1⟩, e2⟩ := h
  have u0 := App.countedFrame_sound h0
  have u1 := App.countedFrame_sound h1
  have p0 : a.update wholePlatform 100 lookFirst.order lookFirst.input lookFirst.value = .ok (a0, out0) := by
    have := updateCounted_uncounted wholePlatform 100 lookFirst.order a lookFirst.input lookFirst.value {}
    rw [u0] at this; exact this.symm
  have hr : a.run wholePlatform 100 [lookFirst] = .ok (a0, [] ++ [out0]) := run_snoc (fs := []) rfl p0
  unfold shownCounts at e2
  cases hs : a1.screen.view.draw 10 with
  | none => rw [hs] at e2; cases e2
  | some shown =>
    rw [hs] at e2
    simp only [Option.map_some, Option.some.injEq, Prod.mk.injEq] at e2
    exact ⟨a0, a1, out0, out1, m0, m1, shown, ⟨⟨100, 100, a, _, _, ha, hr⟩, 100, u1⟩, ⟨a, ⟨100, 100, a, [], [], ha, rfl⟩, 100, u0⟩, orderId_fair, orderReverse_fair,
      hs, e2.1, e2.2, e0, e1⟩

end Verif
