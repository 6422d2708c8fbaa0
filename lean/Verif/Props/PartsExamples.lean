import Verif.Props.Parts
import Verif.Props.SwapsExamples
/-!
# C109: examples
-/
namespace Verif

/-- `.big, p:hover { --h: 3px; height: var(--h) }` and `body > p, b { width: 10px }`. -/
def listedRules : List Style := [⟨[[.class "big"], [.type "p", .pseudoClass "hover"]], [.variable "h" [.explicit (.dimension ⟨3, .px⟩)], .property .Height [[.var "h"]]]⟩,
  ⟨[[.type "body", .combinator '>', .type "p"], [.type "b"]], [.property .Width [[.explicit (.dimension ⟨10, .px⟩)]]]⟩]

/-- A rule for each selector. -/
def singleRules : List Style := [
  ⟨[[.class "big"]], [.variable "h" [.explicit (.dimension ⟨3, .px⟩)], .property .Height [[.var "h"]]]⟩,
  ⟨[[.type "p", .pseudoClass "hover"]], [.variable "h" [.explicit (.dimension ⟨3, .px⟩)], .property .Height [[.var "h"]]]⟩,
  ⟨[[.type "body", .combinator '>', .type "p"]], [.property .Width [[.explicit (.dimension ⟨10, .px⟩)]]]⟩,
  ⟨[[.type "b"]], [.property .Width [[.explicit (.dimension ⟨10, .px⟩)]]]⟩]

theorem listedRules_apart : TakenApart listedRules singleRules := by
  refine .apart (parts := [_, _]) ⟨[.variable "h" [.explicit (.dimension ⟨3, .px⟩)]], [.property .Height [[.var "h"]]], rfl, by simp, by simp⟩ (by simp) (by simp) ?_
  refine .apart (parts := [_, _]) ⟨[], [.property .Width [[.explicit (.dimension ⟨10, .px⟩)]]], rfl, by simp, by simp⟩ (by simp) (by simp) .nil

theorem listedRules_noPlus : ∀ s ∈ listedRules, s.NoPlus := by
  intro s hs
  simp only [listedRules, List.mem_cons, List.not_mem_nil, or_false] at hs
  rcases hs with rfl | rfl <;> simp [Style.NoPlus]

theorem listedRules_steady {a : App} (ha : openApp wholePlatform 100 lookDoc ⟨listedRules, fun _ => none⟩ = .ok a) :
    Css.Steady ⟨listedRules, fun _ => none⟩ a.screen.view := by
  have h5 : (match renderView (docEnv wholePlatform.translate wholePlatform.inline lookDoc) 100 (docBody lookDoc) with
    | .error _ => false
    | .ok (_, _, σ) => σ.regs.all (fun r => match r.2.params with | .tag _ _ => false | _ => true)) = true := by decide +kernel
  obtain ⟨σ, hop⟩ := openApp_opened ha
  obtain ⟨σ0, hσ, hk⟩ := reached_kept (.opened hop.view)
  refine ⟨listedRules_noPlus, fun path b n hb => ?_, fun s hs hch m e k _ _ _ => ?_⟩
  · rw [hσ, List.all_eq_true] at h5
    rw [hk.good.bindings, mem_lookupRegs] at hb
    have := h5 _ hb
    constructor <;> (intro he; simp [he] at this)
  · simp only [listedRules, List.mem_cons, List.not_mem_nil, or_false] at hs
    rcases hs with rfl | rfl
    · simp [Style.HasChild] at hch
    · rintro ⟨c, hc, x, hx, hxk⟩
      simp only [List.mem_cons, List.not_mem_nil, or_false] at hc
      rcases hc with rfl | rfl <;> simp only [List.mem_cons, List.not_mem_nil, or_false] at hx
      · rcases hx with rfl | rfl | rfl <;> exact hxk
      · subst hx; exact hxk

/-- The conditions of C109 are met by two rules with two selectors each, one of them with a class that is bound and a variable; the program
runs, and both rules match in the end. -/
theorem C109_example : TakenApart listedRules singleRules ∧ ∃ r,
    played wholePlatform 100 100 lookDoc ⟨listedRules, fun _ => none⟩ (lookFrames ++ [lookLast]) = .ok r ∧
      played wholePlatform 100 100 lookDoc ⟨singleRules, fun _ => none⟩ (lookFrames ++ [lookLast]) = .ok r ∧
      (r.2.1 2).width = .length 10 ∧ (r.2.1 2).height = .length 3 := by
  refine ⟨listedRules_apart, ?_⟩
  have h : (match openApp wholePlatform 100 lookDoc ⟨listedRules, fun _ => none⟩ with
    | .ok a => match a.evalRun wholePlatform 100 (lookFrames ++ [lookLast]) with
      | some (.ok (a', _)) => decide ((a'.layouts 2).width = .length 10) && decide ((a'.layouts 2).height = .length 3)
      | _ => false
    | _ => false) = true := by decide +kernel
  split at h
  case h_2 => cases h
  rename_i a ha
  split at h
  case h_2 => cases h
  rename_i a' o hra
  simp only [Bool.and_eq_true, decide_eq_true_eq] at h
  have hp : played wholePlatform 100 100 lookDoc ⟨listedRules, fun _ => none⟩ (lookFrames ++ [lookLast]) = .ok (a'.screen, a'.layouts, o) := by
    unfold played
    rw [ha]
    simp only
    rw [App.evalRun_sound _ hra]
  exact ⟨_, hp, (C109_rule_per_selector_partial (css := ⟨listedRules, fun _ => none⟩) (css' := ⟨singleRules, fun _ => none⟩) listedRules_apart rfl listedRules_noPlus
    (fun a h => listedRules_steady h) _).trans hp, h.1, h.2⟩

/-- `<body><div @class="{c}"><p class="child" @title="{t}"/></div></body>`: nodes 2 and 3. -/
def titleDoc : Html := .mk "" [] none [.mk "body" [] none [.mk "div" [.attribute "class" [.binder (path1 "c")]] none
  [.mk "p" [.none "class" "child", .attribute "title" [.binder (path1 "t")]] none []]]]

def heightOf3 : List Declaration := [.property .Height [[.explicit (.dimension ⟨3, .px⟩)]]]
def titleFrames : List Frame := [⟨orderId, {}, .obj [("c", .str "open"), ("t", .str "y")]⟩]

/-- Why C109 excepts what C42 excepts: `[title=x], .open > .child { height: 3px }` sets the height of the `p` once the class of the `div` around
it is `open`, and `[title=x] { height: 3px } .open > .child { height: 3px }` does not. -/
theorem C109_counterexample :
    (∃ r r', played wholePlatform 100 100 titleDoc ⟨[⟨[[.attribute "title" .equal "x"], [.class "open", .combinator '>', .class "child"]], heightOf3⟩], fun _ => none⟩ titleFrames = .ok r ∧
      played wholePlatform 100 100 titleDoc ⟨[⟨[[.attribute "title" .equal "x"]], heightOf3⟩, ⟨[[.class "open", .combinator '>', .class "child"]], heightOf3⟩], fun _ => none⟩ titleFrames = .ok r' ∧
      (r.2.1 3).height = .length 3 ∧ (r'.2.1 3).height = .auto) := by
  have run : ∀ (css : Css) (P : LayoutStyle → Bool), (match openApp wholePlatform 100 titleDoc css with
    | .ok a => match a.evalRun wholePlatform 100 titleFrames with
      | some (.ok (a', _)) => P (a'.layouts 3)
      | _ => false
    | _ => false) = true → ∃ r, played wholePlatform 100 100 titleDoc css titleFrames = .ok r ∧ P (r.2.1 3) = true := by
    intro css P h
    split at h
    case h_2 => cases h
    rename_i a ha
    split at h
    case h_2 => cases h
    rename_i a' o hra
    refine ⟨(a'.screen, a'.layouts, o), ?_, h⟩
    unfold played
    rw [ha]
    simp only
    rw [App.evalRun_sound _ hra]
  obtain ⟨r, h1, h2⟩ := run ⟨[⟨[[.attribute "title" .equal "x"], [.class "open", .combinator '>', .class "child"]], heightOf3⟩], fun _ => none⟩
    (fun l => decide (l.height = .length 3)) (by decide +kernel)
  obtain ⟨r', g1, g2⟩ := run ⟨[⟨[[.attribute "title" .equal "x"]], heightOf3⟩, ⟨[[.class "open", .combinator '>', .class "child"]], heightOf3⟩], fun _ => none⟩
    (fun l => decide (l.height = .auto)) (by decide +kernel)
  exact ⟨r, r', h1, g1, of_decide_eq_true h2, of_decide_eq_true g2⟩

end Verif
