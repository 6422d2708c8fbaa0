import Verif.Props.Wordings
import Verif.Props.SwapsExamples
/-!
# C108: examples
-/
namespace Verif

/-- `body > p.big { height: 3px }` and `a.x, p, b { width: 10px }`. -/
def saidRules : List Style := [⟨[[.type "body", .combinator '>', .type "p", .class "big"]], [.property .Height [[.explicit (.dimension ⟨3, .px⟩)]]]⟩,
  ⟨[[.type "a", .class "x"], [.type "p"], [.type "b"]], [.property .Width [[.explicit (.dimension ⟨10, .px⟩)]]]⟩]

/-- `*body > p.big.big` with the parts in another order, and `p, b, .x a, p`. -/
def saidOtherwise : List Style := [⟨[[.all, .type "body", .combinator '>', .class "big", .type "p", .class "big"]], [.property .Height [[.explicit (.dimension ⟨3, .px⟩)]]]⟩,
  ⟨[[.type "p"], [.type "b"], [.class "x", .type "a"], [.type "p"]], [.property .Width [[.explicit (.dimension ⟨10, .px⟩)]]]⟩]

theorem saidRules_reworded : List.Forall₂ Style.Reworded saidRules saidOtherwise := by
  refine .cons ⟨rfl, .inl (.cons ?_ .nil)⟩ (.cons ⟨rfl, .inr ⟨?_, ?_, ?_⟩⟩ .nil)
  · refine .trans (.all _) (.same _ (.same _ (.same _ (.trans (.swap _ (by simp) (by simp)) ?_))))
    exact .trans (.twice _ (by simp)) (.same _ (.swap _ (by simp) (by simp)))
  · intro c hc
    simp only [List.mem_cons, List.not_mem_nil, or_false] at hc
    rcases hc with rfl | rfl | rfl <;> simp
  · intro c hc
    simp only [List.mem_cons, List.not_mem_nil, or_false] at hc
    rcases hc with rfl | rfl | rfl
    · exact ⟨_, List.mem_cons_of_mem _ (List.mem_cons_of_mem _ List.mem_cons_self), .swap _ (by simp) (by simp)⟩
    · exact ⟨_, List.mem_cons_self, .refl _⟩
    · exact ⟨_, List.mem_cons_of_mem _ List.mem_cons_self, .refl _⟩
  · intro c hc
    simp only [List.mem_cons, List.not_mem_nil, or_false] at hc
    rcases hc with rfl | rfl | rfl | rfl
    · exact ⟨_, List.mem_cons_of_mem _ List.mem_cons_self, .refl _⟩
    · exact ⟨_, List.mem_cons_of_mem _ (List.mem_cons_of_mem _ List.mem_cons_self), .refl _⟩
    · exact ⟨_, List.mem_cons_self, .swap _ (by simp) (by simp)⟩
    · exact ⟨_, List.mem_cons_of_mem _ List.mem_cons_self, .refl _⟩

/-- The conditions of C108 are met by two rules in other words that both match in the end, and the program runs. -/
theorem C108_example : List.Forall₂ Style.Reworded saidRules saidOtherwise ∧ ∃ r,
    played wholePlatform 100 100 lookDoc ⟨saidRules, fun _ => none⟩ (lookFrames ++ [lookLast]) = .ok r ∧
      played wholePlatform 100 100 lookDoc ⟨saidOtherwise, fun _ => none⟩ (lookFrames ++ [lookLast]) = .ok r ∧
      (r.2.1 2).width = .length 10 ∧ (r.2.1 2).height = .length 3 := by
  refine ⟨saidRules_reworded, ?_⟩
  have h : (match openApp wholePlatform 100 lookDoc ⟨saidRules, fun _ => none⟩ with
    | .ok a => match a.evalRun wholePlatform 100 (lookFrames ++ [lookLast]) with
      | some (.ok (a', _)) => decide ((a'.layouts 2).width = .length 10) && decide ((a'.layouts 2).height = .length 3)
      | _ => false
    | _ => false) = true := by decide +kernel
  split at h
  case h_2 => cases h
  rename_i a ha
  split at h
  case h_2 => cases h
  rename_i a' o hra
  simp only [Bool.and_eq_true, decide_eq_true_eq] at h
  have hp : played wholePlatform 100 100 lookDoc ⟨saidRules, fun _ => none⟩ (lookFrames ++ [lookLast]) = .ok (a'.screen, a'.layouts, o) := by
    unfold played
    rw [ha]
    simp only
    rw [App.evalRun_sound _ hra]
  exact ⟨_, hp, (C108_reworded_rules (css := ⟨saidRules, fun _ => none⟩) (css' := ⟨saidOtherwise, fun _ => none⟩) saidRules_reworded rfl _).trans hp, h.1, h.2⟩

/-- Why C108 wants the selectors of a rule with `+` in the same order: with overflow checks `b, a + b` can be opened, and `a + b, b`
cannot, in `<a/><b/><c/>`. -/
theorem C108_plus_counterexample :
    (∃ a, openApp wholePlatform 100 siblingsDoc ⟨[⟨[[.type "b"], [.type "a", .combinator '+', .type "b"]], []⟩], fun _ => none⟩ = .ok a) ∧
    openApp wholePlatform 100 siblingsDoc ⟨[⟨[[.type "a", .combinator '+', .type "b"], [.type "b"]], []⟩], fun _ => none⟩ = .error .panic := by
  have h : (match openApp wholePlatform 100 siblingsDoc ⟨[⟨[[.type "b"], [.type "a", .combinator '+', .type "b"]], []⟩], fun _ => none⟩,
      openApp wholePlatform 100 siblingsDoc ⟨[⟨[[.type "a", .combinator '+', .type "b"], [.type "b"]], []⟩], fun _ => none⟩ with
    | .ok _, .error f => decide (f = .panic)
    | _, _ => false) = true := by decide +kernel
  split at h
  case h_2 => cases h
  rename_i a f ha hf
  exact ⟨⟨a, ha⟩, by rw [hf, of_decide_eq_true h]⟩

end Verif
