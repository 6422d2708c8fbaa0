import Verif.Props.Narrower
import Verif.Props.PartsExamples
/-!
# C110: examples
-/
namespace Verif

/-- `.big { height: 3px }` and `p, b { width: 10px }`. -/
def wideRules : List Style := [⟨[[.class "big"]], [.property .Height [[.explicit (.dimension ⟨3, .px⟩)]]]⟩,
  ⟨[[.type "p"], [.type "b"]], [.property .Width [[.explicit (.dimension ⟨10, .px⟩)]]]⟩]

/-- `p.big:hover, .big` and `p, div > p, b, p.x > b:hover`. -/
def narrowRules : List Style := [⟨[[.type "p", .class "big", .pseudoClass "hover"], [.class "big"]], [.property .Height [[.explicit (.dimension ⟨3, .px⟩)]]]⟩,
  ⟨[[.type "p"], [.type "div", .combinator '>', .type "p"], [.type "b"], [.type "p", .combinator '>', .type "b", .pseudoClass "hover"]],
    [.property .Width [[.explicit (.dimension ⟨10, .px⟩)]]]⟩]

theorem Complex.Narrower.refl (c : Complex) : c.Narrower c := by
  refine ⟨[], c, rfl, .inl rfl, ?_⟩
  induction c with
  | nil => exact .nil
  | cons x c ih => exact .same ih

theorem wideRules_cover : List.Forall₂ Style.Covers wideRules narrowRules := by
  refine .cons ⟨rfl, by simp, ?_⟩ (.cons ⟨rfl, by simp, ?_⟩ .nil)
  · intro c' hc
    simp only [List.mem_cons, List.not_mem_nil, or_false] at hc
    rcases hc with rfl | rfl
    · exact ⟨_, List.mem_cons_self, [], _, rfl, .inl rfl, .more (by simp) (.same (.more (by simp) .nil))⟩
    · exact ⟨_, List.mem_cons_self, .refl _⟩
  · intro c' hc
    simp only [List.mem_cons, List.not_mem_nil, or_false] at hc
    rcases hc with rfl | rfl | rfl | rfl
    · exact ⟨_, List.mem_cons_self, .refl _⟩
    · exact ⟨_, List.mem_cons_self, [.type "div", .combinator '>'], [.type "p"], rfl, .inr ⟨[.type "div"], rfl⟩, .same .nil⟩
    · exact ⟨_, List.mem_cons_of_mem _ List.mem_cons_self, .refl _⟩
    · exact ⟨_, List.mem_cons_of_mem _ List.mem_cons_self, [.type "p", .combinator '>'], _, rfl, .inr ⟨[.type "p"], rfl⟩, .same (.more (by simp) .nil)⟩

theorem narrowRules_noPlus : ∀ s ∈ narrowRules, s.NoPlus := by
  intro s hs
  simp only [narrowRules, List.mem_cons, List.not_mem_nil, or_false] at hs
  rcases hs with rfl | rfl <;> simp [Style.NoPlus]

theorem narrowRules_steady {a : App} (ha : openApp wholePlatform 100 lookDoc ⟨wideRules, fun _ => none⟩ = .ok a) :
    Css.Steady ⟨narrowRules, fun _ => none⟩ a.screen.view := by
  have h5 : (match renderView (docEnv wholePlatform.translate wholePlatform.inline lookDoc) 100 (docBody lookDoc) with
    | .error _ => false
    | .ok (_, _, σ) => σ.regs.all (fun r => match r.2.params with | .tag _ _ => false | _ => true)) = true := by decide +kernel
  obtain ⟨σ, hop⟩ := openApp_opened ha
  obtain ⟨σ0, hσ, hk⟩ := reached_kept (.opened hop.view)
  refine ⟨narrowRules_noPlus, fun path b n hb => ?_, fun s hs hch m e k _ _ _ => ?_⟩
  · rw [hσ, List.all_eq_true] at h5
    rw [hk.good.bindings, mem_lookupRegs] at hb
    have := h5 _ hb
    constructor <;> (intro he; simp [he] at this)
  · simp only [narrowRules, List.mem_cons, List.not_mem_nil, or_false] at hs
    rcases hs with rfl | rfl
    · simp [Style.HasChild] at hch
    · rintro ⟨c, hc, x, hx, hxk⟩
      simp only [List.mem_cons, List.not_mem_nil, or_false] at hc
      rcases hc with rfl | rfl | rfl | rfl <;> simp only [List.mem_cons, List.not_mem_nil, or_false] at hx
      · subst hx; exact hxk
      · rcases hx with rfl | rfl | rfl <;> exact hxk
      · subst hx; exact hxk
      · rcases hx with rfl | rfl | rfl | rfl <;> exact hxk

/-- The conditions of C110 are met by two rules with narrower selectors put in, and the program runs. -/
theorem C110_example : List.Forall₂ Style.Covers wideRules narrowRules ∧ ∃ r,
    played wholePlatform 100 100 lookDoc ⟨wideRules, fun _ => none⟩ (lookFrames ++ [lookLast]) = .ok r ∧
      played wholePlatform 100 100 lookDoc ⟨narrowRules, fun _ => none⟩ (lookFrames ++ [lookLast]) = .ok r ∧
      (r.2.1 2).width = .length 10 ∧ (r.2.1 2).height = .length 3 := by
  refine ⟨wideRules_cover, ?_⟩
  have h : (match openApp wholePlatform 100 lookDoc ⟨wideRules, fun _ => none⟩ with
    | .ok a => match a.evalRun wholePlatform 100 (lookFrames ++ [lookLast]) with
      | some (.ok (a', _)) => decide ((a'.layouts 2).width = .length 10) && decide ((a'.layouts 2).height = .length 3)
      | _ => false
    | _ => false) = true := by decide +kernel
  split at h
  case h_2 => cases h
  rename_i a ha
  split at h
  case h_2 => cases h
  rename_i a' o hra
  simp only [Bool.and_eq_true, decide_eq_true_eq] at h
  have hp : played wholePlatform 100 100 lookDoc ⟨wideRules, fun _ => none⟩ (lookFrames ++ [lookLast]) = .ok (a'.screen, a'.layouts, o) := by
    unfold played
    rw [ha]
    simp only
    rw [App.evalRun_sound _ hra]
  exact ⟨_, hp, (C110_covered_selectors_partial (css := ⟨wideRules, fun _ => none⟩) (css' := ⟨narrowRules, fun _ => none⟩) wideRules_cover rfl narrowRules_noPlus
    (fun a h => narrowRules_steady h) _).trans hp, h.1, h.2⟩

/-- Why C110 excepts what C42 excepts: `.open > .child` sets nothing where only the class of the parent is bound, and with the narrower
`.open > .child[title=x]` next to it it does where `title` is bound. -/
theorem C110_counterexample :
    (∃ r r', played wholePlatform 100 100 titleDoc ⟨[⟨[[.class "open", .combinator '>', .class "child"]], heightOf3⟩], fun _ => none⟩ titleFrames = .ok r ∧
      played wholePlatform 100 100 titleDoc ⟨[⟨[[.class "open", .combinator '>', .class "child"],
        [.class "open", .combinator '>', .class "child", .attribute "title" .equal "x"]], heightOf3⟩], fun _ => none⟩ titleFrames = .ok r' ∧
      (r.2.1 3).height = .auto ∧ (r'.2.1 3).height = .length 3) := by
  have run : ∀ (css : Css) (P : LayoutStyle → Bool), (match openApp wholePlatform 100 titleDoc css with
    | .ok a => match a.evalRun wholePlatform 100 titleFrames with
      | some (.ok (a', _)) => P (a'.layouts 3)
      | _ => false
    | _ => false) = true → ∃ r, played wholePlatform 100 100 titleDoc css titleFrames = .ok r ∧ P (r.2.1 3) = true := by
    intro css P h
    split at h
    case h_2 => cases h
    rename_i a ha
    split at h
    case h_2 => cases h
    rename_i a' o hra
    refine ⟨(a'.screen, a'.layouts, o), ?_, h⟩
    unfold played
    rw [ha]
    simp only
    rw [App.evalRun_sound _ hra]
  obtain ⟨r, h1, h2⟩ := run ⟨[⟨[[.class "open", .combinator '>', .class "child"]], heightOf3⟩], fun _ => none⟩
    (fun l => decide (l.height = .auto)) (by decide +kernel)
  obtain ⟨r', g1, g2⟩ := run ⟨[⟨[[.class "open", .combinator '>', .class "child"],
        [.class "open", .combinator '>', .class "child", .attribute "title" .equal "x"]], heightOf3⟩], fun _ => none⟩
    (fun l => decide (l.height = .length 3)) (by decide +kernel)
  exact ⟨r, r', h1, g1, of_decide_eq_true h2, of_decide_eq_true g2⟩

end Verif
