import Verif.View.Parts
/-!
# C109: a rule for each selector
-/
namespace Verif

variable {p : Platform}

/-- **C109 (part).** A rule whose declarations begin with its variables can be written as several rules, each with some of its selectors,
in place of it: opening fails alike or succeeds, and every series of updates fails alike or has the same outputs and ends with the same view. Missing: as in
`C42_rules_exact_partial`. -/
theorem C109_rule_per_selector_partial {fuel fuel' : Nat} {document : Html} {css css' : Css} (hm : TakenApart css.styles css'.styles)
    (ha : css'.animations = css.animations) (hp : ∀ s ∈ css.styles, s.NoPlus) (hs : ∀ a, openApp p fuel document css = .ok a → css.Steady a.screen.view) (fs : List Frame) :
    played p fuel fuel' document css' fs = played p fuel fuel' document css fs := by
  have hp' : ∀ s ∈ css'.styles, s.NoPlus := fun x hx c hc => by
    obtain ⟨s, h1, h2⟩ := hm.from x hx
    exact hp s h1 c (h2 c hc)
  exact played_alike ha (fun t root body n hw hn => takenApart_effect hw hn hm hp hp') hp hp' (fun a h => ⟨hs a h, (hs a h).apart hm⟩) fs

end Verif
