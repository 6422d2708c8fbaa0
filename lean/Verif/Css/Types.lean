import Verif.Css.PropertyKey
/-!
# CSS data (`src/css/model.rs` 4-206, `src/animation.rs` 8-22, 81-110, 201-241)

`f32` is idealised as `Rat`; `u8` colour channels are `Nat` (bounded by the functions that make them).
-/
namespace Verif

/-- `css/model.rs` 53-68 `Matcher`. -/
inductive Matcher where
  | exist | equal | include | dashMatch | prefix | substring | suffix
deriving DecidableEq, Repr

/-- `css/model.rs` 38-48 `Simple`. -/
inductive Simple where
  | all
  | id (name : String)
  | class (name : String)
  | type (name : String)
  | attribute (name : String) (m : Matcher) (value : String)
  | root
  | pseudoClass (name : String)
  | pseudoElement (name : String)
  | combinator (c : Char)
deriving DecidableEq, Repr

/-- `css/model.rs` 30-32 `Complex`: its `selectors`, left to right as written. -/
abbrev Complex := List Simple

/-- `css/model.rs` 162-170 `Units`. -/
inductive Units where
  | vh | vw | vmax | vmin | px | em | rem
deriving DecidableEq, Repr

/-- `css/model.rs` 150-153 `Dim`. -/
structure Dim where
  value : Rat
  unit : Units
deriving DecidableEq, Repr

/-- `element.rs` 188 `Rgba = [u8; 4]`. -/
structure Rgba where
  r : Nat
  g : Nat
  b : Nat
  a : Nat
deriving DecidableEq, Repr

/-- `css/model.rs` 122-132 `ComputedValue`. -/
inductive ComputedValue where
  | keyword (name : String)
  | zero
  | percentage (value : Rat)
  | time (value : Rat)
  | dimension (value : Dim)
  | number (value : Rat)
  | color (value : Rgba)
  | str (value : String)
  | error
deriving DecidableEq, Repr

/-- `css/model.rs` 111-118 `Definition`, with `Function` (189-192) inlined. -/
inductive Definition where
  | var (name : String)
  | function (name : String) (arguments : List Definition)
  | explicit (value : ComputedValue)

/-- `css/model.rs` 108 `Shorthand`. -/
abbrev Shorthand := List Definition

/-- `css/model.rs` 87-106 `Declaration` (with `Variable` and `Property`). -/
inductive Declaration where
  | variable (key : String) (shorthand : Shorthand)
  | property (key : PropertyKey) (values : List Shorthand)

/-- `css/model.rs` 80-84 `Style`. -/
structure Style where
  selectors : List Complex
  declaration : List Declaration

/-- `css/model.rs` 135-138 `PropertyDescriptor`. -/
structure Descriptor where
  key : PropertyKey
  index : Nat
deriving DecidableEq, Repr

/-- `css/model.rs` 16-19 `Keyframe`. -/
structure Keyframe where
  step : Nat
  declaration : List Declaration

/-- `css/model.rs` 10-13 `Animation`. -/
structure Animation where
  name : String
  keyframes : List Keyframe

/-- `css/model.rs` 4-7 `Css`; the map of animations is never iterated. -/
structure Css where
  styles : List Style
  animations : String → Option Animation

/-- `animation.rs` 201-206. -/
inductive AnimationDirection where
  | normal | reverse | alternate | alternateReverse
deriving DecidableEq, Repr

/-- `animation.rs` 209-214. -/
inductive AnimationFillMode where
  | none | forwards | backwards | both
deriving DecidableEq, Repr

/-- `animation.rs` 217-227 (the two constructors never built are left out). -/
inductive TimingFunction where
  | ease | easeIn | easeOut | easeInOut | linear | stepStart | stepEnd
deriving DecidableEq, Repr

/-- `animation.rs` 238-241. -/
inductive AnimationIterations where
  | number (n : Rat)
  | infinite
deriving DecidableEq, Repr

/-- `animation.rs` 81-110 `Animator` and its `Default`. -/
structure Animator where
  name : String := ""
  delay : Rat := 0
  direction : AnimationDirection := .normal
  duration : Rat := 0
  fillMode : AnimationFillMode := .none
  timing : TimingFunction := .linear
  iterations : AnimationIterations := .number 1
  running : Bool := true
  time : Rat := 0
deriving DecidableEq, Repr

/-- `animation.rs` 8-22 `Transition` and its `Default`. -/
structure Transition where
  key : Option PropertyKey := none
  animator : Animator := {}
  range : Option (ComputedValue × ComputedValue) := none
deriving DecidableEq, Repr

end Verif
