import Verif.View.Fuel
import Verif.Props.WholeExamples
/-!
# C73, C84: there is one outcome, whatever the fuel of the model

Time and stack are not part of the code; the model counts them as fuel. A call ends in one way or not at all, and which of
the two does not depend on the fuel: with too little of it the model says `endless`, with enough it always says the same.
-/
namespace Verif

/-- Of a computation `f` with an amount of fuel: it never ends, or it has an outcome that every amount gives which suffices,
and all amounts from some number on suffice. -/
def OneOutcome {α : Type} (f : Nat → Except Halt α) : Prop :=
  (∀ fuel, f fuel = .error .endless) ∨
    ∃ r F, r ≠ .error .endless ∧ (∀ fuel ≥ F, f fuel = r) ∧ ∀ fuel, f fuel = r ∨ f fuel = .error .endless

theorem oneOutcome_of_mono {α : Type} {f : Nat → Except Halt α} (h : ∀ fuel fuel', fuel ≤ fuel' → f fuel ≠ .error .endless → f fuel' = f fuel) : OneOutcome f := by
  by_cases he : ∀ fuel, f fuel = .error .endless
  · exact .inl he
  · obtain ⟨F, hF⟩ := not_forall.1 he
    refine .inr ⟨f F, F, hF, fun fuel hf => h F fuel hf hF, fun fuel => ?_⟩
    by_cases hf : f fuel = .error .endless
    · exact .inr hf
    · refine .inl ?_
      rcases Nat.le_total fuel F with hle | hle
      · exact (h fuel F hle hf).symm
      · exact h F fuel hle hF

/-- **C73.** Opening a view from whatever two texts has one outcome. -/
theorem C73_one_outcome (p : Platform) (html css : String) : OneOutcome fun fuel => fromHtml p fuel html css :=
  oneOutcome_of_mono fun _ _ hf h => fromHtml_mono p hf html css h

/-- **C84.** Whatever is done with a view, it has one outcome. -/
theorem C84_one_outcome (p : Platform) (a : App) (fs : List Frame) : OneOutcome fun fuel => a.run p fuel fs :=
  oneOutcome_of_mono fun _ _ hf h => run_fuel_mono p hf fs a h

/-- Both cases occur: a view is opened with fuel from 100 on and not without any, and a template that contains itself is
never opened. -/
example : (∃ a, ∀ fuel ≥ 100, openApp wholePlatform fuel wholeDoc (Sheet.meaning wholeItems) = .ok a) ∧
    (∀ fuel, openApp wholePlatform fuel selfDoc (Sheet.meaning wholeItems) = .error .endless) ∧
    ∀ (a : App) (f : Frame) v, a.screen.view.update wholePlatform.inline f.value = .ok v → a.run wholePlatform 0 [f] = .error .endless := by
  obtain ⟨a, h, -⟩ := whole_opens
  refine ⟨⟨a, h⟩, C73_self_reference_counterexample _ _, fun a f v hv => ?_⟩
  simp only [App.run, App.update, hv, styleView, styleTree, Trouble.halt]

end Verif
