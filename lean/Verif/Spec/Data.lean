import Verif.Spec.Whole
import Verif.Spec.Shape
/-!
# Specification vocabulary for C101: two programs given different data
-/
namespace Verif

/-- No pipe is given a whole array: a transformer sees everything in it, mentioned in the document or not. -/
def NoPipedArrays (s : Shape) (bindings : Bindings) : Prop :=
  ∀ path item v x, s.read v path = some (.arr item, x) → ∀ b ∈ bindings (ptr path), b.pipe = []

/-- The same update with another value: what the document mentions is the same in both. -/
structure Frame.SameData (s : Shape) (f f' : Frame) : Prop where
  order : f'.order = f.order
  input : f'.input = f.input
  fits : Fits s f.value
  fits' : Fits s f'.value
  agree : Agree s f.value f'.value

end Verif
