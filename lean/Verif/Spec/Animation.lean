import Verif.Css.Animation
/-!
# Specification vocabulary for animations and transitions (C51-C56)
-/
namespace Verif

/-- Frames of the given lengths, one after the other: the progress seen in each of them. -/
def Animator.frames (fuel : Nat) : Animator → List Rat → Except Trouble (Animator × List (Option Progress))
  | a, [] => .ok (a, [])
  | a, time :: times =>
    match a.update fuel time with
    | .error e => .error e
    | .ok (a, p) =>
      match Animator.frames fuel a times with
      | .error e => .error e
      | .ok (a, ps) => .ok (a, p :: ps)

/-- The time an animation has been playing after `i + 1` frames, the delay taken off. -/
def elapsed (a : Animator) (times : List Rat) (i : Nat) : Rat :=
  (if a.running then (times.take (i + 1)).sum else 0) - a.delay

/-- The time that counts: a finite animation stops after its iterations. -/
def playedTime (a : Animator) (t : Rat) : Rat :=
  match a.iterations with
  | .number n => min t (n * a.duration)
  | .infinite => t

/-- The number of iterations is not negative. -/
def Animator.Forward (a : Animator) : Prop := ∀ n, a.iterations = .number n → 0 ≤ n

/-- `v` lies between `a` and `b`: numbers, percentages and lengths of one unit between the two, colours
channel by channel, anything else is one of the two. -/
def Between (a b v : ComputedValue) : Prop :=
  v = a ∨ v = b ∨
  (∃ x y z, a = .number x ∧ b = .number y ∧ v = .number z ∧ min x y ≤ z ∧ z ≤ max x y) ∨
  (∃ x y z, a = .percentage x ∧ b = .percentage y ∧ v = .percentage z ∧ min x y ≤ z ∧ z ≤ max x y) ∨
  (∃ x z, a = .percentage x ∧ b = .zero ∧ v = .percentage z ∧ min x 0 ≤ z ∧ z ≤ max x 0) ∨
  (∃ y z, a = .zero ∧ b = .percentage y ∧ v = .percentage z ∧ min 0 y ≤ z ∧ z ≤ max 0 y) ∨
  (∃ x y z unit, a = .dimension ⟨x, unit⟩ ∧ b = .dimension ⟨y, unit⟩ ∧ v = .dimension ⟨z, unit⟩ ∧ min x y ≤ z ∧ z ≤ max x y) ∨
  (∃ x y z : Rgba, a = .color x ∧ b = .color y ∧ v = .color z ∧
    min x.r y.r ≤ z.r ∧ z.r ≤ max x.r y.r ∧ min x.g y.g ≤ z.g ∧ z.g ≤ max x.g y.g ∧
    min x.b y.b ≤ z.b ∧ z.b ≤ max x.b y.b ∧ min x.a y.a ≤ z.a ∧ z.a ≤ max x.a y.a)

/-- A colour of bytes. -/
def Rgba.Bytes (c : Rgba) : Prop := c.r ≤ 255 ∧ c.g ≤ 255 ∧ c.b ≤ 255 ∧ c.a ≤ 255

/-- A value whose colours are colours of bytes. -/
def ComputedValue.Bytes (v : ComputedValue) : Prop := ∀ c, v = .color c → c.Bytes

/-- The two values can be interpolated; all other pairs switch. -/
def Smooth : ComputedValue → ComputedValue → Prop
  | .number _, .number _ => True
  | .percentage _, .percentage _ => True
  | .percentage _, .zero => True
  | .zero, .percentage _ => True
  | .dimension x, .dimension y => x.unit = y.unit
  | .color _, .color _ => True
  | _, _ => False

/-- The value a keyframe animation has for a property exactly at a percentage: that of the last keyframe
written for the percentage, if it sets the property; at 0% and 100% otherwise the value of the element, or
the initial one. `styleOf` is the style of a keyframe. -/
def keyframeValue (styleOf : Keyframe → ComputedStyle) (keyframes : List Keyframe) (style : ComputedStyle) (d : Descriptor) (step : Nat) :
    Option ComputedValue :=
  match ((keyframes.filter (·.step == step)).getLast?).bind fun k => (styleOf k).get d with
  | some v => some v
  | none => if step = 0 ∨ step = 100 then some ((style.get d).getD (initialValue d.key)) else none

/-- Frames of a transition: the length and the style of each, and the styles it displays. -/
def Transition.frames (fuel : Nat) : Transition → List (Rat × ComputedStyle) → Except Trouble (Transition × List ComputedStyle)
  | t, [] => .ok (t, [])
  | t, (time, style) :: rest =>
    match t.play fuel time style with
    | .error e => .error e
    | .ok (t, shown) =>
      match Transition.frames fuel (t.init shown) rest with
      | .error e => .error e
      | .ok (t, l) => .ok (t, shown :: l)

/-- The property has exactly one value in the style. -/
def Single (style : ComputedStyle) (key : PropertyKey) (v : ComputedValue) : Prop :=
  style.get ⟨key, 0⟩ = some v ∧ style.get ⟨key, 1⟩ = none

end Verif
