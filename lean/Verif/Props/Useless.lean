import Verif.View.Useless
/-!
# C102: rules that cannot match make no difference
-/
namespace Verif

variable {p : Platform}

/-- **C102.** Rules that can never match make no difference, wherever they are put into a stylesheet: opening fails
alike or succeeds, and every series of updates fails alike or has the same outputs and ends with the same view. -/
theorem C102_useless_rules {fuel fuel' : Nat} {document : Html} {css css' : Css} {a : App} (ho : openApp p fuel document ⟨[], fun _ => none⟩ = .ok a)
    (hm : WithMore (Style.Useless a.screen.view) css.styles css'.styles) (ha : css'.animations = css.animations) (fs : List Frame) :
    played p fuel fuel' document css' fs = played p fuel fuel' document css fs := by
  have h := openApp_extended ho hm ha
  unfold played
  cases hA : openApp p fuel document css with
  | error e =>
    rw [hA] at h
    generalize openApp p fuel document css' = B at h
    cases h; rfl
  | ok b =>
    rw [hA] at h
    have hl := Living.opened hA
    generalize openApp p fuel document css' = B at h
    cases h with
    | ok h =>
      rename_i b'
      have hr := App.More.run (fuel' := fuel') ho fs hl h
      simp only
      revert hr
      generalize b.run p fuel' fs = A
      generalize b'.run p fuel' fs = B
      intro hr
      cases hr with
      | error e => rfl
      | ok hr =>
        rename_i x y
        obtain ⟨x1, x2⟩ := x
        obtain ⟨y1, y2⟩ := y
        obtain ⟨h4, h5⟩ := hr
        simp only at h4 h5 ⊢
        rw [h5, h4.screen, h4.layouts]

end Verif
