import Verif.View.Spelled
/-!
# C112: shorthands written out
-/
namespace Verif

variable {p : Platform}

/-- **C112.** It makes no difference whether rules use shorthands or have them written out: opening fails alike or succeeds, and every series of
updates fails alike or has the same outputs and ends with the same view. -/
theorem C112_shorthands {fuel fuel' : Nat} {document : Html} {css css' : Css} (hm : List.Forall₂ Style.WrittenOut css.styles css'.styles)
    (ha : css'.animations = css.animations) (fs : List Frame) : played p fuel fuel' document css' fs = played p fuel fuel' document css fs :=
  played_parts (.blocks (hm.imp fun _ _ h => ⟨h.selectors, h.declaration.block fuel'⟩)) ha fs

end Verif
