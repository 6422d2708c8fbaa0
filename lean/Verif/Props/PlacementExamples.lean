import Verif.Props.Placement
import Verif.Props.LookExamples
/-!
# C78, C79: a program whose body overflows
-/
namespace Verif

/-- The engine puts the body at the origin, 100 x 50 with a content of 100 x 200, and the `p` at (10, 60) in it, 80 x 40. -/
def tallPlatform : Platform := ⟨true, id, fun _ => none, fun _ => none,
  fun _ n => if n = 1 then ⟨0, 0, 100, 50, 100, 200⟩ else if n = 2 then ⟨10, 60, 80, 40, 80, 40⟩ else ⟨1, 2, 3, 4, 3, 4⟩⟩

theorem tall_filled (n : NodeId) (s : Styled) : (tallPlatform.solve s n).Filled := by
  simp only [tallPlatform]
  split
  · constructor <;> decide +kernel
  · split <;> constructor <;> decide +kernel

/-- The wheel is turned over the `p`, twice. -/
def tallFrames : List Frame := [⟨orderId, ⟨1, (800, 600), [.mouseMove (20, 70), .mouseWheel (0, -1)]⟩, .obj [("k", .str "")]⟩]
def tallLast : Frame := ⟨orderReverse, ⟨1, (800, 600), [.mouseWheel (0, -1)]⟩, .obj [("k", .str "big")]⟩

def tallFacts (a' : App) : Bool :=
  decide (a'.screen.view.body = 1 ∧ a'.screen.view.stage.tree.kids 1 = [2] ∧ a'.screen.view.stage.tree.kids 2 = [3]) &&
  match a'.screen.view.stage.tree.ctx 1, a'.screen.view.stage.tree.ctx 2, a'.screen.view.stage.tree.ctx 3 with
  | some e1, some e2, some e3 =>
    decide (e1.scrolling.isSome = true ∧ e1.position = (0, 0) ∧ e1.size = (100, 50)) &&
    decide (e2.position = (10, 60) ∧ e2.state.hover = true ∧ e2.pointerEvents = .auto ∧ e2.visible = true ∧ e2.opacity = 1 / 2) &&
    decide (e2.clipping.map (fun l => (l.x, l.y, l.width, l.height)) = some (0, 0, 100, 50)) &&
    decide (e3.position = (11, 62) ∧ e3.opacity = 1 / 2)
  | _, _, _ => false

def tallCheck : Bool :=
  match openApp tallPlatform 100 lookDoc lookCss with
  | .error _ => false
  | .ok a => match a.evalRun tallPlatform 100 tallFrames with
    | some (.ok (a1, _)) => match a1.evalRun tallPlatform 100 [tallLast] with
      | some (.ok (a', [_])) => tallFacts a'
      | _ => false
    | _ => false

theorem tallCheck_true : tallCheck = true := by decide +kernel

/-- The conditions of C78 and C79 are met by a program whose body scrolls: the `p` is at (10, 60), clipped by the body,
hovered (although it is below the frame it is clipped by), and not moved by the wheel; its opacity is that of its
`:hover` rule, and its text has it too. -/
theorem C78_example : ∃ a a1 a' outs out e2 e3, openApp tallPlatform 100 lookDoc lookCss = .ok a ∧ a.run tallPlatform 100 tallFrames = .ok (a1, outs) ∧
    a1.update tallPlatform 100 tallLast.order tallLast.input tallLast.value = .ok (a', out) ∧
    Way a'.screen.view.stage.tree a'.screen.view.body [1, 2] 3 ∧ (∀ m ∈ [1, 2], ∀ styled, (tallPlatform.solve styled m).Filled) ∧
    a'.screen.view.stage.tree.ctx 2 = some e2 ∧ a'.screen.view.stage.tree.ctx 3 = some e3 ∧ e2.position = (10, 60) ∧ e2.state.hover = true ∧
    e2.clipping.map (fun l => (l.x, l.y, l.width, l.height)) = some (0, 0, 100, 50) ∧ a'.screen.view.stage.tree.scrolls 1 = true ∧
    a'.screen.view.stage.tree.scrolled 1 = (0, 0) ∧ e3.position = (11, 62) ∧ e3.opacity = 1 / 2 := by
  have h := tallCheck_true
  unfold tallCheck at h
  split at h
  · cases h
  rename_i a ha
  split at h
  case h_2 => cases h
  rename_i a1 outs hr
  split at h
  case h_2 => cases h
  rename_i a' out hu
  have hr' := App.evalRun_sound _ hr
  have hu' := App.evalRun_sound _ hu
  obtain ⟨a2, out2, rest, g1, g2, g3⟩ := run_cons hu'
  simp only [App.run, Except.ok.injEq, Prod.mk.injEq] at g2
  obtain ⟨rfl, rfl⟩ := g2
  unfold tallFacts at h
  rw [Bool.and_eq_true, decide_eq_true_eq] at h
  obtain ⟨⟨b1, b2, b3⟩, h⟩ := h
  split at h
  case h_2 => cases h
  rename_i e1 e2 e3 c1 c2 c3
  simp only [Bool.and_eq_true, decide_eq_true_eq] at h
  obtain ⟨⟨⟨⟨d1, d2, d3⟩, d4, d5, d6, d7, d8⟩, d9⟩, d10, d11⟩ := h
  refine ⟨a, a1, a2, outs, out2, e2, e3, ha, hr', g1, ?_, fun m _ s => tall_filled m s, c2, c3, d4, d5, d9, ?_, ?_, d10, d11⟩
  · rw [b1]
    exact .down (above := [1]) (.down (above := []) .body (by rw [b2]; simp)) (by rw [b3]; simp)
  · simp only [Tree.scrolls, c1]; exact d1
  · exact C79_at_rest_partial ha (run_snoc hr' g1) (fun s => tall_filled 1 s)

/-- **C79 is false of the program**: a user turns the wheel over content that does not fit, and it does not move. -/
theorem C79_wheel_counterexample : ∃ a a' outs, openApp tallPlatform 100 lookDoc lookCss = .ok a ∧ a.run tallPlatform 100 (tallFrames ++ [tallLast]) = .ok (a', outs) ∧
    a'.screen.view.stage.tree.scrolls 1 = true ∧ a'.screen.view.stage.tree.scrolled 1 = (0, 0) := by
  obtain ⟨a, a1, a', outs, out, e2, e3, h1, h2, h3, -, -, -, -, -, -, -, h4, h5, -⟩ := C78_example
  exact ⟨a, a', _, h1, run_snoc h2 h3, h4, h5⟩

end Verif
