import Verif.View.Joined
import Verif.Props.OutdoneExamples
/-!
# C113: neighbouring rules with the same selectors
-/
namespace Verif

variable {p : Platform}

/-- **C113.** Neighbouring rules with the same selectors can be joined: opening fails alike or succeeds, and every series of updates fails alike or
has the same outputs and ends with the same view. -/
theorem C113_joined_rules {fuel fuel' : Nat} {document : Html} {css css' : Css} (hm : Joined css.styles css'.styles) (ha : css'.animations = css.animations)
    (fs : List Frame) : played p fuel fuel' document css' fs = played p fuel fuel' document css fs :=
  played_parts (hm.parts fuel') ha fs

/-- The conditions of C113 are met by two rules for paragraphs, and the program runs. -/
theorem C113_example : Joined outdoneRules [⟨[[.type "p"]], [.property .Width [pxValue 3], .property .Height [pxValue 2], .property .Width [pxValue 10]]⟩] ∧ ∃ r,
    played wholePlatform 100 100 lateDoc ⟨outdoneRules, fun _ => none⟩ [⟨orderId, {}, .null⟩] = .ok r ∧
      played wholePlatform 100 100 lateDoc ⟨[⟨[[.type "p"]], [.property .Width [pxValue 3], .property .Height [pxValue 2], .property .Width [pxValue 10]]⟩], fun _ => none⟩
        [⟨orderId, {}, .null⟩] = .ok r ∧ (r.2.1 2).width = .length 10 ∧ (r.2.1 2).height = .length 2 := by
  have hj : Joined outdoneRules [⟨[[.type "p"]], [.property .Width [pxValue 3], .property .Height [pxValue 2], .property .Width [pxValue 10]]⟩] :=
    .join (a := [.property .Width [pxValue 3], .property .Height [pxValue 2]]) (b := [.property .Width [pxValue 10]]) (.same .nil)
  refine ⟨hj, ?_⟩
  obtain ⟨-, r, h1, -, h2⟩ := C111_example
  exact ⟨r, h1, (C113_joined_rules (css := ⟨outdoneRules, fun _ => none⟩)
    (css' := ⟨[⟨[[.type "p"]], [.property .Width [pxValue 3], .property .Height [pxValue 2], .property .Width [pxValue 10]]⟩], fun _ => none⟩) hj rfl _).trans h1, h2⟩

end Verif
