import Verif.View.Outdone
/-!
# C111: declarations that a later one overrides
-/
namespace Verif

variable {p : Platform}

/-- **C111.** A declaration that is followed by one that outdoes it, in the same rule or in a later one with the same selectors, makes no
difference: opening fails alike or succeeds, and every series of updates fails alike or has the same outputs and ends with the same view. -/
theorem C111_outdone_declarations {fuel fuel' : Nat} {document : Html} {css css' : Css} (hm : Trimmed css.styles css'.styles) (ha : css'.animations = css.animations)
    (fs : List Frame) : played p fuel fuel' document css' fs = played p fuel fuel' document css fs :=
  played_parts (hm.parts fuel') ha fs

end Verif
