import Verif.View.Redefined
import Verif.Props.Inlined
/-!
# C116: variables that are defined again before they are used
-/
namespace Verif

variable {p : Platform}

/-- **C116.** A definition of a variable that the rule defines again before any variable is used makes no difference: opening fails alike or succeeds,
and every series of updates fails alike or has the same outputs and ends with the same view. -/
theorem C116_redefined_variables {fuel fuel' : Nat} {document : Html} {css css' : Css} (hm : List.Forall₂ Style.Redefined css.styles css'.styles)
    (ha : css'.animations = css.animations) (fs : List Frame) : played p fuel fuel' document css' fs = played p fuel fuel' document css fs :=
  played_parts (.blocks (hm.imp fun _ _ h => ⟨h.selectors, h.declaration.block fuel'⟩)) ha fs

/-- `p { --w: 1px; height: 2px; --w: 10px; width: var(--w) }`. -/
def againRules : List Style := [⟨[[.type "p"]], [.variable "w" [.explicit (pxWord 1)], .property .Height [pxValue 2], .variable "w" [.explicit (pxWord 10)],
  .property .Width [[.var "w"]]]⟩]

/-- `p { height: 2px; --w: 10px; width: var(--w) }`. -/
def onceRules : List Style := [⟨[[.type "p"]], [.property .Height [pxValue 2], .variable "w" [.explicit (pxWord 10)], .property .Width [[.var "w"]]]⟩]

theorem againRules_redefined : List.Forall₂ Style.Redefined againRules onceRules := by
  refine .cons ⟨rfl, .drop (mid := [.property .Height [pxValue 2]]) (b := [.property .Width [[.var "w"]]]) ?_ (.same (.same (.same .nil)))⟩ .nil
  intro d hd
  rw [List.mem_singleton.1 hd]
  refine .inl fun v hv d hd => ?_
  rw [List.mem_singleton.1 hv] at hd
  rw [List.mem_singleton.1 hd]
  exact .explicit _

/-- The conditions of C116 are met by a rule that defines a variable twice, and the program runs. -/
theorem C116_example : List.Forall₂ Style.Redefined againRules onceRules ∧ ∃ r,
    played wholePlatform 100 100 lateDoc ⟨againRules, fun _ => none⟩ [⟨orderId, {}, .null⟩] = .ok r ∧
      played wholePlatform 100 100 lateDoc ⟨onceRules, fun _ => none⟩ [⟨orderId, {}, .null⟩] = .ok r ∧ (r.2.1 2).width = .length 10 ∧ (r.2.1 2).height = .length 2 := by
  refine ⟨againRules_redefined, ?_⟩
  obtain ⟨r, h1, h2⟩ := played_run lateDoc ⟨againRules, fun _ => none⟩ [⟨orderId, {}, .null⟩]
    (fun l => decide (l.width = .length 10) && decide (l.height = .length 2)) 2 (by decide +kernel)
  simp only [Bool.and_eq_true, decide_eq_true_eq] at h2
  exact ⟨r, h1, (C116_redefined_variables (css := ⟨againRules, fun _ => none⟩) (css' := ⟨onceRules, fun _ => none⟩) againRules_redefined rfl _).trans h1, h2⟩

end Verif
