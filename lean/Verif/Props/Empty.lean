import Verif.View.Empty
import Verif.Props.OutdoneExamples
import Verif.Props.WordingsExamples
/-!
# C114: rules without declarations
-/
namespace Verif

variable {p : Platform}

/-- **C114.** Rules without declarations (and without `+`) make no difference: opening fails alike or succeeds, and every series of updates fails alike
or has the same outputs and ends with the same view. -/
theorem C114_empty_rules {fuel fuel' : Nat} {document : Html} {css css' : Css} (hm : WithMore (fun s => s.declaration = [] ∧ s.NoPlus) css.styles css'.styles)
    (ha : css'.animations = css.animations) (fs : List Frame) : played p fuel fuel' document css' fs = played p fuel fuel' document css fs :=
  played_parts (empty_parts fuel' hm) ha fs

/-- The conditions of C114 are met by two rules with an empty one between them, and the program runs. -/
theorem C114_example : WithMore (fun s => s.declaration = [] ∧ s.NoPlus) trimmedRules [trimmedRules[0], ⟨[[.type "p", .pseudoClass "hover"]], []⟩, trimmedRules[1]] ∧ ∃ r,
    played wholePlatform 100 100 lateDoc ⟨trimmedRules, fun _ => none⟩ [⟨orderId, {}, .null⟩] = .ok r ∧
      played wholePlatform 100 100 lateDoc ⟨[trimmedRules[0], ⟨[[.type "p", .pseudoClass "hover"]], []⟩, trimmedRules[1]], fun _ => none⟩ [⟨orderId, {}, .null⟩] = .ok r ∧
      (r.2.1 2).width = .length 10 ∧ (r.2.1 2).height = .length 2 := by
  have hm : WithMore (fun s => s.declaration = [] ∧ s.NoPlus) trimmedRules [trimmedRules[0], ⟨[[.type "p", .pseudoClass "hover"]], []⟩, trimmedRules[1]] :=
    .same (.more ⟨rfl, by simp [Style.NoPlus]⟩ (.same .nil))
  refine ⟨hm, ?_⟩
  obtain ⟨-, r, -, h1, h2⟩ := C111_example
  exact ⟨r, h1, (C114_empty_rules (css := ⟨trimmedRules, fun _ => none⟩)
    (css' := ⟨[trimmedRules[0], ⟨[[.type "p", .pseudoClass "hover"]], []⟩, trimmedRules[1]], fun _ => none⟩) hm rfl _).trans h1, h2⟩

/-- Why the rules may have no `+`: with overflow checks the empty rule `a + b, b` keeps `<a/><b/><c/>` from opening. -/
theorem C114_plus_counterexample : (∃ a, openApp wholePlatform 100 siblingsDoc ⟨[], fun _ => none⟩ = .ok a) ∧
    openApp wholePlatform 100 siblingsDoc ⟨[⟨[[.type "a", .combinator '+', .type "b"], [.type "b"]], []⟩], fun _ => none⟩ = .error .panic := by
  have h : (match openApp wholePlatform 100 siblingsDoc ⟨[], fun _ => none⟩ with | .ok _ => true | _ => false) = true := by decide +kernel
  split at h
  case h_2 => cases h
  rename_i a ha
  exact ⟨⟨a, ha⟩, C108_plus_counterexample.2⟩

end Verif
