import Verif.Css.Compute
import Verif.Css.Initial
import Mathlib.Data.List.Dedup
/-!
# Animations and transitions (`src/animation.rs`, `src/styles/compute_animation_tracks.rs`)

Times are `Rat`. A duration of zero makes the code divide zero by zero: `Progress.nan`.
-/
namespace Verif

/-- Why a step of styling does not come to an end with a result of the model. -/
inductive Trouble where
  /-- a loop or recursion that goes on longer than the fuel -/
  | endless
  /-- a panic -/
  | panic
  /-- a number that is not a number, which the model has no value for -/
  | nan
  /-- an error value -/
  | error
deriving DecidableEq, Repr

/-- The result of `t / duration`. -/
inductive Progress where
  | value (x : Rat)
  | nan
deriving DecidableEq, Repr

/-- `animation.rs` 163-166: `while t > self.duration { t -= self.duration }`. -/
def wrapTime (duration : Rat) : Nat → Rat → Except Trouble Rat
  | 0, _ => .error .endless
  | fuel + 1, t => if t > duration then wrapTime duration fuel (t - duration) else .ok t

/-- `animation.rs` 151-169 `Animator::update`: the animator afterwards and the progress, if it has begun. -/
def Animator.update (fuel : Nat) (a : Animator) (time : Rat) : Except Trouble (Animator × Option Progress) :=
  let a := if a.running ∧ a.duration > 0 then { a with time := a.time + time } else a
  let t := a.time - a.delay
  if t < 0 then .ok (a, none)
  else
    let t := match a.iterations with
      | .number n => min t (n * a.duration)
      | .infinite => t
    match wrapTime a.duration fuel t with
    | .error e => .error e
    | .ok t => .ok (a, some (if a.duration = 0 then .nan else .value (t / a.duration)))

/-- `animation.rs` 243-249 `color`, one channel. -/
def mixChannel (x y : Nat) (t : Rat) : Nat := asU8 (max ((x : Rat) + ((y : Rat) - x) * t) 0)

/-- `animation.rs` 243-249 `color`. -/
def mixColor (x y : Rgba) (t : Rat) : Rgba :=
  ⟨mixChannel x.r y.r t, mixChannel x.g y.g t, mixChannel x.b y.b t, mixChannel x.a y.a t⟩

/-- `animation.rs` 172-198 `animate` (with `number`, `percentage`, `dimension`, 251-269). -/
def animate (a b : ComputedValue) (t : Rat) : ComputedValue :=
  if t = 0 then a
  else if t = 1 then b
  else
    match a, b with
    | .number x, .number y => .number (x + (y - x) * t)
    | .percentage x, .percentage y => .percentage (x + (y - x) * t)
    | .percentage x, .zero => if x + (0 - x) * t = 0 then .zero else .percentage (x + (0 - x) * t)
    | .zero, .percentage y => .percentage (0 + (y - 0) * t)
    | .dimension x, .dimension y =>
      if x.unit ≠ y.unit then .dimension (if t < 1 / 2 then x else y) else .dimension ⟨x.value + (y.value - x.value) * t, x.unit⟩
    | .color x, .color y => .color (mixColor x y t)
    | a, b => if t < 1 / 2 then a else b

/-- `animate` when `t` is not a number: neither end, numbers become not a number, `NaN.max(0.0)` is 0, and
`t < 0.5` is false. -/
def animateNan (a b : ComputedValue) : Except Trouble ComputedValue :=
  match a, b with
  | .number _, .number _ => .error .nan
  | .percentage _, .percentage _ => .error .nan
  | .percentage _, .zero => .error .nan
  | .zero, .percentage _ => .error .nan
  | .dimension x, .dimension y => if x.unit ≠ y.unit then .ok (.dimension y) else .error .nan
  | .color _, .color _ => .ok (.color ⟨0, 0, 0, 0⟩)
  | _, b => .ok b

/-- `animate` for any progress. -/
def animateAt (a b : ComputedValue) : Progress → Except Trouble ComputedValue
  | .value t => .ok (animate a b t)
  | .nan => animateNan a b

/-! ## Keyframes -/

/-- `css/model.rs` 22-25 `AnimationTrack`; the map of frames as its entries in order of the steps. -/
structure Track where
  descriptor : Descriptor
  frames : List (Nat × ComputedValue)

/-- `BTreeMap::insert` on the entries in order. -/
def insertStep {α} (step : Nat) (v : α) : List (Nat × α) → List (Nat × α)
  | [] => [(step, v)]
  | (s, w) :: l => if step < s then (step, v) :: (s, w) :: l else if step = s then (step, v) :: l else (s, w) :: insertStep step v l

/-- `BTreeMap::get`. -/
def stepAt {α} (l : List (Nat × α)) (step : Nat) : Option α := (l.find? (·.1 == step)).map (·.2)

/-- `compute_animation_tracks.rs` 18-34: the style of a keyframe; variables are not defined there. -/
def keyframeStyle (vars : Variables) (fuel : Nat) : List Declaration → ComputedStyle → Option ComputedStyle
  | [], style => some style
  | .variable _ _ :: block, style => keyframeStyle vars fuel block style
  | .property key values :: block, style =>
    match computeValues vars fuel key 0 values style with
    | none => none
    | some style => keyframeStyle vars fuel block style

/-- `compute_animation_tracks.rs` 15-37: the styles of the keyframes by step, and the animated properties. -/
def keyframeStyles (vars : Variables) (fuel : Nat) :
    List Keyframe → List (Nat × ComputedStyle) → List Descriptor → Option (List (Nat × ComputedStyle) × List Descriptor)
  | [], styles, animated => some (styles, animated)
  | k :: ks, styles, animated =>
    match keyframeStyle vars fuel k.declaration [] with
    | none => none
    | some style => keyframeStyles vars fuel ks (insertStep k.step style styles) (animated ++ style.map (·.1))

/-- `compute_animation_tracks.rs` 38-57: the first and the last keyframe get a value for every animated
property: the one of the element, or the initial one. -/
def completeFrame (style : ComputedStyle) (animated : List Descriptor) (frame : ComputedStyle) : ComputedStyle :=
  animated.foldl (fun frame d => if (frame.get d).isSome then frame else
    frame.insert d (match style.get d with | some v => v | none => initialValue d.key)) frame

/-- `compute_animation_tracks.rs` 10-72 `compute_animation_tracks`. The last loop, which distributes the values
over the tracks, is written as one filter per track; the order of the tracks is that of a hash map, see
`FrameOrder`. -/
def computeTracks (vars : Variables) (fuel : Nat) (animation : Animation) (style : ComputedStyle) : Option (List Track) :=
  match keyframeStyles vars fuel animation.keyframes [] [] with
  | none => none
  | some (styles, animated) =>
    let animated := animated.dedup
    let styles := insertStep 0 (completeFrame style animated ((stepAt styles 0).getD [])) styles
    let styles := insertStep 100 (completeFrame style animated ((stepAt styles 100).getD [])) styles
    some (animated.map fun d => ⟨d, styles.filterMap fun x => (x.2.get d).map fun v => (x.1, v)⟩)

/-- `animation.rs` 126-136: the steps around `t`. -/
def bracket (t : Nat) : List Nat → Nat → Nat → Nat × Nat
  | [], a, b => (a, b)
  | s :: ss, a, b =>
    let a := if t ≥ s then s else a
    if t ≤ s then (a, s) else bracket t ss a b

/-- `animation.rs` 126-147 `play_track`: the value at step `t`; a missing frame is a panic. -/
def trackValue (frames : List (Nat × ComputedValue)) (t : Nat) : Except Trouble ComputedValue :=
  let ab := bracket t (frames.map (·.1)) 0 0
  if ab.2 > ab.1 then
    match stepAt frames ab.1, stepAt frames ab.2 with
    | some x, some y => .ok (animate x y (((t : Rat) - ab.1) / ((ab.2 : Rat) - ab.1)))
    | _, _ => .error .panic
  else
    match stepAt frames ab.1 with
    | some x => .ok x
    | none => .error .panic

/-- `(time * 100.0) as u32`. -/
def stepOf : Progress → Nat
  | .value x => min (x * 100).floor.toNat 4294967295
  | .nan => 0

/-- `animation.rs` 120-122: all tracks. -/
def playTracks (t : Nat) : List Track → ComputedStyle → Except Trouble ComputedStyle
  | [], style => .ok style
  | track :: tracks, style =>
    match trackValue track.frames t with
    | .error e => .error e
    | .ok v => playTracks t tracks (style.insert track.descriptor v)

/-- `animation.rs` 117-124 `Animator::play`. -/
def Animator.play (fuel : Nat) (a : Animator) (time : Rat) (tracks : List Track) (style : ComputedStyle) :
    Except Trouble (Animator × ComputedStyle) :=
  match a.update fuel time with
  | .error e => .error e
  | .ok (a, none) => .ok (a, style)
  | .ok (a, some p) =>
    match playTracks (stepOf p) tracks style with
    | .error e => .error e
    | .ok style => .ok (a, style)

/-! ## Transitions -/

/-- `animation.rs` 54-77: the loop of `Transition::play`; without a range it goes round without doing
anything. -/
def Transition.loop (key : PropertyKey) (p : Progress) : Nat → Nat → Transition → ComputedStyle → Except Trouble (Transition × ComputedStyle)
  | 0, _, _, _ => .error .endless
  | fuel + 1, index, t, style =>
    match style.get ⟨key, index⟩ with
    | none => .ok (t, style)
    | some value =>
      match t.range with
      | none => Transition.loop key p fuel index t style
      | some (a, b) =>
        match animateAt a b p with
        | .error e => .error e
        | .ok current =>
          let t := if b ≠ value then { t with range := some (current, value), animator := { t.animator with time := 0 } } else t
          let style := if current ≠ value then style.insert ⟨key, index⟩ current else style
          Transition.loop key p fuel (index + 1) t style

/-- `animation.rs` 45-77 `Transition::play`. -/
def Transition.play (fuel : Nat) (t : Transition) (time : Rat) (style : ComputedStyle) : Except Trouble (Transition × ComputedStyle) :=
  match t.key with
  | none => .ok (t, style)
  | some key =>
    match t.animator.update fuel time with
    | .error e => .error e
    | .ok (a, none) => .ok ({ t with animator := a }, style)
    | .ok (a, some p) => Transition.loop key p fuel 0 { t with animator := a } style

/-- `animation.rs` 33-42: the loop of `init_after_style_applied`, which keeps the last value; there are at most
as many values as entries in the style. -/
def initLoop (key : PropertyKey) (style : ComputedStyle) : Nat → Nat → Option (ComputedValue × ComputedValue) → Option (ComputedValue × ComputedValue)
  | 0, _, range => range
  | n + 1, index, range =>
    match style.get ⟨key, index⟩ with
    | none => range
    | some v => initLoop key style n (index + 1) (some (v, v))

/-- `animation.rs` 25-43 `init_after_style_applied`. -/
def Transition.init (t : Transition) (style : ComputedStyle) : Transition :=
  if t.range.isSome then t
  else
    match t.key with
    | none => t
    | some key => { t with range := initLoop key style style.length 0 none }

end Verif
