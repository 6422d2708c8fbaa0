import Verif.View.Inlined
import Verif.Props.SpelledExamples
/-!
# C115: variables replaced by their values
-/
namespace Verif

variable {p : Platform}

/-- **C115.** A variable that a rule defines as words can be replaced by these words in the declarations after it: opening fails alike or succeeds,
and every series of updates fails alike or has the same outputs and ends with the same view. (`2 ≤ fuel'`: the stack has room for looking up a variable.) -/
theorem C115_inlined_variables {fuel fuel' : Nat} {document : Html} {css css' : Css} (hm : List.Forall₂ Style.Inlined css.styles css'.styles)
    (ha : css'.animations = css.animations) (hf : 2 ≤ fuel') (fs : List Frame) : played p fuel fuel' document css' fs = played p fuel fuel' document css fs := by
  obtain ⟨f, rfl⟩ : ∃ f, fuel' = f + 2 := ⟨fuel' - 2, by omega⟩
  exact played_parts (.blocks (hm.imp fun _ _ h => ⟨h.selectors, fun vars m => h.declaration.block f (fun _ _ h => by cases h) m⟩)) ha fs

/-- `p { --w: 1px 2px; margin: var(--w) 3px; --w: 10px; width: var(--w) }`. -/
def variableRules : List Style := [⟨[[.type "p"]], [.variable "w" [.explicit (pxWord 1), .explicit (pxWord 2)],
  .property .Margin [[.var "w", .explicit (pxWord 3)]], .variable "w" [.explicit (pxWord 10)], .property .Width [[.var "w"]]]⟩]

/-- The same with the values in place. -/
def inlinedRules : List Style := [⟨[[.type "p"]], [.variable "w" [.explicit (pxWord 1), .explicit (pxWord 2)],
  .property .Margin [[.explicit (pxWord 1), .explicit (pxWord 2), .explicit (pxWord 3)]], .variable "w" [.explicit (pxWord 10)], .property .Width [[.explicit (pxWord 10)]]]⟩]

theorem variableRules_inlined : List.Forall₂ Style.Inlined variableRules inlinedRules :=
  .cons ⟨rfl, .words (words := [pxWord 1, pxWord 2]) (.property (.cons (.var (words := [pxWord 1, pxWord 2]) rfl (.same .nil)) .nil)
    (.words (words := [pxWord 10]) (.property (.cons (.var (words := [pxWord 10]) rfl .nil) .nil) .nil)))⟩ .nil

/-- The conditions of C115 are met by a rule that uses a variable twice with different values, and the program runs. -/
theorem C115_example : List.Forall₂ Style.Inlined variableRules inlinedRules ∧ ∃ r,
    played wholePlatform 100 100 lateDoc ⟨variableRules, fun _ => none⟩ [⟨orderId, {}, .null⟩] = .ok r ∧
      played wholePlatform 100 100 lateDoc ⟨inlinedRules, fun _ => none⟩ [⟨orderId, {}, .null⟩] = .ok r ∧ (r.2.1 2).width = .length 10 ∧
      (r.2.1 2).margin.bottom = .length 3 ∧ (r.2.1 2).margin.left = .length 2 := by
  refine ⟨variableRules_inlined, ?_⟩
  obtain ⟨r, h1, h2⟩ := played_run lateDoc ⟨variableRules, fun _ => none⟩ [⟨orderId, {}, .null⟩]
    (fun l => decide (l.width = .length 10) && (decide (l.margin.bottom = .length 3) && decide (l.margin.left = .length 2))) 2 (by decide +kernel)
  simp only [Bool.and_eq_true, decide_eq_true_eq] at h2
  exact ⟨r, h1, (C115_inlined_variables (css := ⟨variableRules, fun _ => none⟩) (css' := ⟨inlinedRules, fun _ => none⟩) variableRules_inlined rfl (by decide) _).trans h1, h2⟩

end Verif
