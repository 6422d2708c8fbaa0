import Verif.Props.Outdone
import Verif.Props.Copies
/-!
# C111: examples
-/
namespace Verif

def pxValue (n : Rat) : Shorthand := [.explicit (.dimension ⟨n, .px⟩)]

/-- `p { width: 3px; height: 2px }` and `p { width: 10px }`. -/
def outdoneRules : List Style := [⟨[[.type "p"]], [.property .Width [pxValue 3], .property .Height [pxValue 2]]⟩, ⟨[[.type "p"]], [.property .Width [pxValue 10]]⟩]

/-- `p { height: 2px }` and `p { width: 10px }`. -/
def trimmedRules : List Style := [⟨[[.type "p"]], [.property .Height [pxValue 2]]⟩, ⟨[[.type "p"]], [.property .Width [pxValue 10]]⟩]

theorem outdoneRules_trimmed : Trimmed outdoneRules trimmedRules := by
  have hw : ∀ n, ∀ v ∈ [pxValue n], v.Word := by
    intro n v hv
    rw [List.mem_singleton.1 hv]
    exact ⟨_, rfl⟩
  exact .drop (sel := [[.type "p"]]) (a := []) (.inr ⟨_, List.mem_cons_self, rfl, _, List.mem_cons_self, rfl, by decide, Nat.le_refl _, hw 10, hw 3⟩) (.same .nil)

theorem played_run (doc : Html) (css : Css) (fs : List Frame) (P : LayoutStyle → Bool) (n : NodeId) (h : (match openApp wholePlatform 100 doc css with
    | .ok a => match a.evalRun wholePlatform 100 fs with
      | some (.ok (a', _)) => P (a'.layouts n)
      | _ => false
    | _ => false) = true) : ∃ r, played wholePlatform 100 100 doc css fs = .ok r ∧ P (r.2.1 n) = true := by
  split at h
  case h_2 => cases h
  rename_i a ha
  split at h
  case h_2 => cases h
  rename_i a' o hra
  refine ⟨(a'.screen, a'.layouts, o), ?_, h⟩
  unfold played
  rw [ha]
  simp only
  rw [App.evalRun_sound _ hra]

/-- The conditions of C111 are met by a rule with a width that a later rule sets again, and the program runs. -/
theorem C111_example : Trimmed outdoneRules trimmedRules ∧ ∃ r,
    played wholePlatform 100 100 lateDoc ⟨outdoneRules, fun _ => none⟩ [⟨orderId, {}, .null⟩] = .ok r ∧
      played wholePlatform 100 100 lateDoc ⟨trimmedRules, fun _ => none⟩ [⟨orderId, {}, .null⟩] = .ok r ∧ (r.2.1 2).width = .length 10 ∧ (r.2.1 2).height = .length 2 := by
  refine ⟨outdoneRules_trimmed, ?_⟩
  obtain ⟨r, h1, h2⟩ := played_run lateDoc ⟨outdoneRules, fun _ => none⟩ [⟨orderId, {}, .null⟩]
    (fun l => decide (l.width = .length 10) && decide (l.height = .length 2)) 2 (by decide +kernel)
  simp only [Bool.and_eq_true, decide_eq_true_eq] at h2
  exact ⟨r, h1, (C111_outdone_declarations (css := ⟨outdoneRules, fun _ => none⟩) (css' := ⟨trimmedRules, fun _ => none⟩) outdoneRules_trimmed rfl _).trans h1, h2⟩

/-- Why the later declaration needs at least as many values: of `width: 3px, 5px` the second value stays when `width: 10px` comes later, and is what
counts if the hash map comes in that order. -/
theorem C111_list_counterexample : ∃ r r',
    played wholePlatform 100 100 lateDoc ⟨[⟨[[.type "p"]], [.property .Width [pxValue 3, pxValue 5], .property .Width [pxValue 10]]⟩], fun _ => none⟩
      [⟨orderReverse, {}, .null⟩] = .ok r ∧
    played wholePlatform 100 100 lateDoc ⟨[⟨[[.type "p"]], [.property .Width [pxValue 10]]⟩], fun _ => none⟩ [⟨orderReverse, {}, .null⟩] = .ok r' ∧
    (r.2.1 2).width = .length 5 ∧ (r'.2.1 2).width = .length 10 := by
  obtain ⟨r, h1, h2⟩ := played_run lateDoc ⟨[⟨[[.type "p"]], [.property .Width [pxValue 3, pxValue 5], .property .Width [pxValue 10]]⟩], fun _ => none⟩
    [⟨orderReverse, {}, .null⟩] (fun l => decide (l.width = .length 5)) 2 (by decide +kernel)
  obtain ⟨r', g1, g2⟩ := played_run lateDoc ⟨[⟨[[.type "p"]], [.property .Width [pxValue 10]]⟩], fun _ => none⟩
    [⟨orderReverse, {}, .null⟩] (fun l => decide (l.width = .length 10)) 2 (by decide +kernel)
  exact ⟨r, r', h1, g1, of_decide_eq_true h2, of_decide_eq_true g2⟩

/-- Why single words are needed: `width: 7px 8px` sets nothing, and `width: 3px` before it stays. -/
theorem C111_words_counterexample : ∃ r r',
    played wholePlatform 100 100 lateDoc ⟨[⟨[[.type "p"]], [.property .Width [pxValue 3], .property .Width [pxValue 7 ++ pxValue 8]]⟩], fun _ => none⟩
      [⟨orderId, {}, .null⟩] = .ok r ∧
    played wholePlatform 100 100 lateDoc ⟨[⟨[[.type "p"]], [.property .Width [pxValue 7 ++ pxValue 8]]⟩], fun _ => none⟩ [⟨orderId, {}, .null⟩] = .ok r' ∧
    (r.2.1 2).width = .length 3 ∧ (r'.2.1 2).width = .auto := by
  obtain ⟨r, h1, h2⟩ := played_run lateDoc ⟨[⟨[[.type "p"]], [.property .Width [pxValue 3], .property .Width [pxValue 7 ++ pxValue 8]]⟩], fun _ => none⟩
    [⟨orderId, {}, .null⟩] (fun l => decide (l.width = .length 3)) 2 (by decide +kernel)
  obtain ⟨r', g1, g2⟩ := played_run lateDoc ⟨[⟨[[.type "p"]], [.property .Width [pxValue 7 ++ pxValue 8]]⟩], fun _ => none⟩
    [⟨orderId, {}, .null⟩] (fun l => decide (l.width = .auto)) 2 (by decide +kernel)
  exact ⟨r, r', h1, g1, of_decide_eq_true h2, of_decide_eq_true g2⟩

end Verif
