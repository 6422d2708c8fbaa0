import Verif.Props.Spelled
import Verif.Props.OutdoneExamples
/-!
# C112: examples
-/
namespace Verif

def pxWord (n : Rat) : ComputedValue := .dimension ⟨n, .px⟩

/-- `p { margin: 1px 2px; width: 10px; inset: 4px }`. -/
def shortRules : List Style := [⟨[[.type "p"]], [declare .Margin [pxWord 1, pxWord 2], declare .Width [pxWord 10], declare .Inset [pxWord 4]]⟩]

/-- The same written out. -/
def longRules : List Style := [⟨[[.type "p"]], [declare .MarginTop [pxWord 1], declare .MarginRight [pxWord 2], declare .MarginBottom [pxWord 1], declare .MarginLeft [pxWord 2],
  declare .Width [pxWord 10], declare .Top [pxWord 4], declare .Right [pxWord 4], declare .Bottom [pxWord 4], declare .Left [pxWord 4]]⟩]

theorem shortRules_writtenOut : List.Forall₂ Style.WrittenOut shortRules longRules :=
  .cons ⟨rfl, .out (.box .margin (.two _ _)) (.same (.out (.inset _) .nil))⟩ .nil

/-- The conditions of C112 are met by a rule with two shorthands, and the program runs. -/
theorem C112_example : List.Forall₂ Style.WrittenOut shortRules longRules ∧ ∃ r,
    played wholePlatform 100 100 lateDoc ⟨shortRules, fun _ => none⟩ [⟨orderId, {}, .null⟩] = .ok r ∧
      played wholePlatform 100 100 lateDoc ⟨longRules, fun _ => none⟩ [⟨orderId, {}, .null⟩] = .ok r ∧ (r.2.1 2).width = .length 10 ∧
      (r.2.1 2).margin.top = .length 1 ∧ (r.2.1 2).margin.left = .length 2 := by
  refine ⟨shortRules_writtenOut, ?_⟩
  obtain ⟨r, h1, h2⟩ := played_run lateDoc ⟨shortRules, fun _ => none⟩ [⟨orderId, {}, .null⟩]
    (fun l => decide (l.width = .length 10) && (decide (l.margin.top = .length 1) && decide (l.margin.left = .length 2))) 2 (by decide +kernel)
  simp only [Bool.and_eq_true, decide_eq_true_eq] at h2
  exact ⟨r, h1, (C112_shorthands (css := ⟨shortRules, fun _ => none⟩) (css' := ⟨longRules, fun _ => none⟩) shortRules_writtenOut rfl _).trans h1, h2⟩

end Verif
