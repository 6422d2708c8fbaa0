import Verif.Spec.Rounding
import Verif.Spec.Animation
import Verif.Spec.Layout
import Verif.Float.Model
/-!
# Specification vocabulary for C91-C94: runs in rounded arithmetic
-/
namespace Verif

variable (r : Rat → Rat)

/-- Frames of the given lengths, one after the other: the progress seen in each of them. -/
def Animator.framesIn (fuel : Nat) : Animator → List Rat → Except Trouble (Animator × List (Option Progress))
  | a, [] => .ok (a, [])
  | a, time :: times =>
    match a.updateIn r fuel time with
    | .error e => .error e
    | .ok (a, p) =>
      match Animator.framesIn fuel a times with
      | .error e => .error e
      | .ok (a, ps) => .ok (a, p :: ps)

/-- What a clock shows that starts at `start`: the lengths of the frames added up one by one, each sum rounded. -/
def clockIn (start : Rat) (times : List Rat) : Rat := times.foldl (fun clock time => r (clock + time)) start

/-- Frames of a transition: the length and the style of each, and the styles it displays. -/
def Transition.framesIn (fuel : Nat) : Transition → List (Rat × ComputedStyle) → Except Trouble (Transition × List ComputedStyle)
  | t, [] => .ok (t, [])
  | t, (time, style) :: rest =>
    match t.playIn r fuel time style with
    | .error e => .error e
    | .ok (t, shown) =>
      match Transition.framesIn fuel (t.init shown) rest with
      | .error e => .error e
      | .ok (t, l) => .ok (t, shown :: l)

/-- The numbers in the value are `f32`. -/
def ComputedValue.F32 : ComputedValue → Prop
  | .number x => IsF32 x
  | .percentage x => IsF32 x
  | .dimension d => IsF32 d.value
  | _ => True

/-- What may happen to the scrolling of an element, in rounded arithmetic. -/
def scrollStepIn (s : Option Scrolling) : ScrollEvent → Option Scrolling
  | .frame layout => Scrolling.ensureIn r layout s
  | .wheel w => s.map fun s => s.offsetIn r w

end Verif
