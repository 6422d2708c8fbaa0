import Verif.Spec.Rounding
import Verif.Spec.Styling
import Verif.Spec.Sheet
import Verif.Float.Lengths
/-!
# Specification vocabulary for C97: lengths, percentages and times in 32-bit numbers
-/
namespace Verif

/-- No `f32` is nearer to `x` than `y`. -/
def NearestF32 (x y : Rat) : Prop := IsF32 y ∧ ∀ z, IsF32 z → |y - x| ≤ |z - x|

/-- The surroundings of an element: the font size of the element it is in, and the viewport. -/
def Sizes.around (em vw vh : Rat) (color : Rgba) : Sizes := ⟨16, em, color, vw, vh⟩

/-- Units that are a part of the viewport. -/
def Units.ofViewport : Units → Bool
  | .vw | .vh | .vmin | .vmax => true
  | _ => false

end Verif
