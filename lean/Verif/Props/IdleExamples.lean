import Verif.Props.Idle
import Verif.Props.LookExamples
/-!
# C85: programs left alone
-/
namespace Verif

def idleFacts (a0 a1 : App) : Bool :=
  (List.range a0.screen.view.stage.tree.next).all (fun n => match a0.screen.view.stage.tree.ctx n, a1.screen.view.stage.tree.ctx n with
    | some e, some e' => decide (e'.state = e.state)
    | _, _ => true) &&
  (match a1.screen.view.stage.tree.ctx 2 with | some e => e.state.hover | none => false)

def idleCheck : Bool :=
  match openApp wholePlatform 100 lookDoc lookCss with
  | .error _ => false
  | .ok a => match a.evalRun wholePlatform 100 lookFrames with
    | some (.ok (a0, _)) => match a0.screen.view.evalUpdates wholePlatform.inline 100 [lookLast.value] with
      | some (.ok v) => match a0.rest wholePlatform 100 lookLast.anew.order lookLast.input (.ok v) with
        | .ok (a1, _) => idleFacts a0 a1
        | _ => false
      | _ => false
    | _ => false

theorem idleCheck_true : idleCheck = true := by decide +kernel

theorem wholePlatform_reads : wholePlatform.Reads := fun _ _ _ => rfl

/-- The conditions of C85 are met: the mouse is over the `p`, which the stylesheet shows differently then; a new value and a
new viewport come, and then nothing. -/
theorem C85_example : ∃ a a0 a1 outs out, openApp wholePlatform 100 lookDoc lookCss = .ok a ∧ a.run wholePlatform 100 lookFrames = .ok (a0, outs) ∧
    a0.update wholePlatform 100 lookLast.anew.order lookLast.input lookLast.value = .ok (a1, out) ∧ lookCss.Mentions "hover" ∧
    lookCss.SeesSame a0.screen.view.stage.tree a1.screen.view.stage.tree ∧ (a1.screen.view.stage.tree.ctx 2).map (·.state.hover) = some true ∧
    ∀ gs : List Frame, (∀ g ∈ gs, lookLast.Idle g) → ∃ a2 outs', a1.run wholePlatform 100 (gs.map Frame.anew) = .ok (a2, outs') ∧ SameApp a1 a2 := by
  have h := idleCheck_true
  unfold idleCheck at h
  split at h
  · cases h
  rename_i a ha
  split at h
  case h_2 => cases h
  rename_i a0 outs hr
  split at h
  case h_2 => cases h
  rename_i v hv
  split at h
  case h_2 => cases h
  rename_i a1 out hu
  have hv' : a0.screen.view.update wholePlatform.inline lookLast.value = .ok v := by
    have := View.evalUpdates_sound _ _ _ _ _ hv
    simp only [View.updates] at this
    cases hx : a0.screen.view.update wholePlatform.inline lookLast.value with
    | error f => rw [hx] at this; cases this
    | ok w => rw [hx] at this; injection this with this; rw [this]
  have hu' : a0.update wholePlatform 100 lookLast.anew.order lookLast.input lookLast.value = .ok (a1, out) := by
    rw [App.update_rest, hv']; exact hu
  have hrun := App.evalRun_sound _ hr
  have hfair : ∀ f ∈ lookFrames, f.order.Fair := by
    intro f hf
    simp only [lookFrames, List.mem_singleton] at hf
    subst hf; exact orderId_fair
  unfold idleFacts at h
  rw [Bool.and_eq_true, List.all_eq_true] at h
  obtain ⟨h1, h2⟩ := h
  have hsee : lookCss.SeesSame a0.screen.view.stage.tree a1.screen.view.stage.tree := by
    intro n e e' he he' name _
    have hl := living_run _ (Living.opened ha) hrun
    have := h1 n (List.mem_range.2 ((session_ok hl.session).standing.wf.exist n (by rw [he]; rfl)))
    rw [he, he'] at this
    exact viewPseudo_state (of_decide_eq_true this) name
  refine ⟨a, a0, a1, outs, out, ha, hrun, hu', ⟨_, List.mem_of_getElem? (i := 4) rfl, _, List.mem_singleton_self _, by simp⟩, hsee, ?_, fun gs hg => ?_⟩
  · cases hc : a1.screen.view.stage.tree.ctx 2 with
    | none => rw [hc] at h2; cases h2
    | some e => rw [hc] at h2; simpa using h2
  · obtain ⟨out', -, -, -, k⟩ := C85_idle_partial ha C77_example_still.1 (fun s hs => (lookCss_supported s hs).2) wholePlatform_reads (.inl C77_example_still.2.1) hfair hrun orderReverse_fair
      (by simp [lookLast, WfJson, WfFields]) hu' hsee
    obtain ⟨a2, k1, k2⟩ := k gs hg
    exact ⟨a2, _, k1, k2⟩

/-- `p:hover{pointer-events:none}`. -/
def flickerCss : Css := ⟨[⟨[[.type "p", .pseudoClass "hover"]], [.property .PointerEvents [[.explicit (.keyword "none")]]]⟩], fun _ => none⟩

def flickerFirst : Frame := ⟨orderId, ⟨1, (800, 600), [.mouseMove (5, 5)]⟩, .obj [("k", .str "")]⟩
def flickerIdle (time : Rat) : Frame := ⟨orderId, ⟨time, (800, 600), []⟩, .obj [("k", .str "")]⟩

/-- Whether the `p` is hovered after so many idle updates. -/
def flickerHover (n : Nat) : Option Bool :=
  match openApp wholePlatform 100 lookDoc flickerCss with
  | .error _ => none
  | .ok a => match a.evalRun wholePlatform 100 (flickerFirst :: (List.range n).map (fun i => flickerIdle (i + 2))) with
    | some (.ok (a', _)) => (a'.screen.view.stage.tree.ctx 2).map (·.state.hover)
    | _ => none

theorem flickerHover_at {n : Nat} {b : Bool} (h : flickerHover n = some b) : ∃ a a' outs, openApp wholePlatform 100 lookDoc flickerCss = .ok a ∧
    a.run wholePlatform 100 (flickerFirst :: (List.range n).map (fun i => flickerIdle (i + 2))) = .ok (a', outs) ∧ (a'.screen.view.stage.tree.ctx 2).map (·.state.hover) = some b := by
  unfold flickerHover at h
  split at h
  · cases h
  rename_i a ha
  split at h
  case h_2 => cases h
  rename_i a' o r
  exact ⟨a, a', o, ha, App.evalRun_sound _ r, h⟩

/-- Finding for C85: with `p:hover { pointer-events: none }` a program that gets nothing new goes on and off: the `p` under the pointer is
hovered, then not, then hovered again. -/
theorem C85_flicker_counterexample : flickerCss.NeverMoves ∧ (∀ time, flickerFirst.Idle (flickerIdle time)) ∧ ∀ n b, (n, b) ∈ [(0, true), (1, false), (2, true), (3, false)] →
    ∃ a a' outs, openApp wholePlatform 100 lookDoc flickerCss = .ok a ∧
      a.run wholePlatform 100 (flickerFirst :: (List.range n).map (fun i => flickerIdle (i + 2))) = .ok (a', outs) ∧ (a'.screen.view.stage.tree.ctx 2).map (·.state.hover) = some b := by
  refine ⟨?_, fun time => ⟨rfl, rfl, rfl, orderId_fair⟩, ?_⟩
  · intro s hs
    simp only [flickerCss, List.mem_singleton] at hs
    subst hs
    simp [Declaration.Still, motionProperties]
  · intro n b hn
    refine flickerHover_at ?_
    have : ∀ x ∈ [((0 : Nat), true), (1, false), (2, true), (3, false)], flickerHover x.1 = some x.2 := by decide +kernel
    exact this (n, b) hn

end Verif
