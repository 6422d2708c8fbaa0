import Verif.Props.Reproducible
import Verif.Props.LookExamples
/-!
# C84: the same program again
-/
namespace Verif

/-- The updates of `lookFrames` and `lookLast` with the other order. -/
def lookAgain : List Frame := [⟨orderReverse, ⟨1, (800, 600), [.mouseMove (5, 5)]⟩, .obj [("k", .str "")]⟩, ⟨orderId, ⟨1, (1000, 700), []⟩, .obj [("k", .str "very big")]⟩]

/-- The conditions of C84 are met. -/
theorem C84_example : lookCss.Unlisted ∧ UnlistedDocument wholePlatform lookDoc ∧ List.Forall₂ Frame.Again (lookFrames ++ [lookLast]) lookAgain ∧
    ∃ a a' outs, openApp wholePlatform 100 lookDoc lookCss = .ok a ∧ a.run wholePlatform 100 (lookFrames ++ [lookLast]) = .ok (a', outs) ∧
      a.run wholePlatform 100 lookAgain = .ok (a', outs) := by
  have h1 : lookCss.Unlisted := ⟨fun s hs => (lookCss_supported s hs).2, fun name an h => by cases h⟩
  have h2 : UnlistedDocument wholePlatform lookDoc := by
    refine ⟨?_, everyNode_of 4 ?_ ?_ ?_⟩
    · rw [look_body]; simp [Html.UnlistedStyle, Html.bindings]
    · rw [look_body]; simp [Html.depth]
    · rw [look_body]
      intro c hc
      simp only [Html.nodes, Html.children, List.flatMap_cons, List.flatMap_nil, List.append_nil, List.cons_append,
        List.nil_append, List.mem_cons, List.not_mem_nil, or_false] at hc
      rcases hc with rfl | rfl <;> simp [Html.UnlistedStyle, Html.bindings]
    · have : ((beforeBody lookDoc.children).filterMap Html.definition).map Prod.snd = [] := rfl
      rw [this]
      intro t ht
      cases ht
  have h3 : List.Forall₂ Frame.Again (lookFrames ++ [lookLast]) lookAgain :=
    .cons ⟨rfl, rfl, orderId_fair, orderReverse_fair, rfl⟩ (.cons ⟨rfl, rfl, orderReverse_fair, orderId_fair, rfl⟩ .nil)
  refine ⟨h1, h2, h3, ?_⟩
  have h := lookCheck_true
  unfold lookCheck at h
  split at h
  · cases h
  rename_i a ha
  split at h
  case h_2 => cases h
  rename_i a1 outs hr
  split at h
  case h_2 => cases h
  rename_i v hv
  split at h
  case h_2 => cases h
  rename_i a' out hu
  have hv' : a1.screen.view.update wholePlatform.inline lookLast.value = .ok v := by
    have := View.evalUpdates_sound _ _ _ _ _ hv
    simp only [View.updates] at this
    cases hx : a1.screen.view.update wholePlatform.inline lookLast.value with
    | error f => rw [hx] at this; cases this
    | ok w => rw [hx] at this; injection this with this; rw [this]
  have hu' : a1.update wholePlatform 100 lookLast.order lookLast.input lookLast.value = .ok (a', out) := by
    rw [App.update_rest, hv']; exact hu
  have hrun := run_snoc (App.evalRun_sound _ hr) hu'
  exact ⟨a, a', _, ha, hrun, (C84_reproducible_partial ha h1 (.inl h2) h3).trans hrun⟩

/-- `p{color:#f00,#00f}`. -/
def listCss : Css := ⟨[⟨[[.type "p"]], [.property .Color [[.explicit (.color ⟨255, 0, 0, 255⟩)], [.explicit (.color ⟨0, 0, 255, 255⟩)]]]⟩], fun _ => none⟩

def listColor (order : FrameOrder) : Option Rgba :=
  match openApp wholePlatform 100 lookDoc listCss with
  | .error _ => none
  | .ok a => match a.evalRun wholePlatform 100 [⟨order, ⟨1, (800, 600), []⟩, .obj [("k", .str "")]⟩] with
    | some (.ok (a', _)) => (a'.screen.view.stage.tree.ctx 2).map (·.color)
    | _ => none

/-- Finding for C84: with `color: #f00, #00f` the same program shows a red text in one run and a blue one in another. -/
theorem C84_order_counterexample : ∃ a a1 a2 outs1 outs2, openApp wholePlatform 100 lookDoc listCss = .ok a ∧
    a.run wholePlatform 100 [⟨orderId, ⟨1, (800, 600), []⟩, .obj [("k", .str "")]⟩] = .ok (a1, outs1) ∧
    a.run wholePlatform 100 [⟨orderReverse, ⟨1, (800, 600), []⟩, .obj [("k", .str "")]⟩] = .ok (a2, outs2) ∧
    (a1.screen.view.stage.tree.ctx 2).map (·.color) = some ⟨0, 0, 255, 255⟩ ∧ (a2.screen.view.stage.tree.ctx 2).map (·.color) = some ⟨255, 0, 0, 255⟩ := by
  have h1 : listColor orderId = some ⟨0, 0, 255, 255⟩ := by decide +kernel
  have h2 : listColor orderReverse = some ⟨255, 0, 0, 255⟩ := by decide +kernel
  unfold listColor at h1 h2
  split at h1
  · cases h1
  rename_i a ha
  rw [ha] at h2
  simp only at h2
  split at h1
  case h_2 => cases h1
  rename_i a1 o1 r1
  split at h2
  case h_2 => cases h2
  rename_i a2 o2 r2
  exact ⟨a, a1, a2, o1, o2, ha, App.evalRun_sound _ r1, App.evalRun_sound _ r2, h1, h2⟩

end Verif
