import Verif.View.Narrower
/-!
# C110: selectors that another one covers
-/
namespace Verif

variable {p : Platform}

/-- **C110 (part).** Selectors that are narrower than others of the same rule make no difference: opening fails alike or succeeds, and every series of
updates fails alike or has the same outputs and ends with the same view. Missing: as in `C42_rules_exact_partial`. -/
theorem C110_covered_selectors_partial {fuel fuel' : Nat} {document : Html} {css css' : Css} (hm : List.Forall₂ Style.Covers css.styles css'.styles)
    (ha : css'.animations = css.animations) (hp : ∀ s ∈ css'.styles, s.NoPlus) (hs : ∀ a, openApp p fuel document css = .ok a → css'.Steady a.screen.view) (fs : List Frame) :
    played p fuel fuel' document css' fs = played p fuel fuel' document css fs := by
  have hf : ∀ s ∈ css.styles, ∃ s' ∈ css'.styles, ∀ c ∈ s.selectors, c ∈ s'.selectors := fun s hs => by
    obtain ⟨s', h1, h2⟩ := forall₂_left hm s hs
    exact ⟨s', h1, h2.more⟩
  have hp0 : ∀ s ∈ css.styles, s.NoPlus := fun s hs c hc => by
    obtain ⟨s', h1, h2⟩ := hf s hs
    exact hp s' h1 c (h2 c hc)
  exact played_alike ha (fun t root body n hw hn rest vars m => by rw [covers_effect hw hn hm hp0 hp]) hp0 hp (fun a h => ⟨(hs a h).fewer hf, hs a h⟩) fs

end Verif
