import Verif.Css.Animation
import Verif.View.Layout
/-!
# Animations, transitions and scrolling in rounded arithmetic

The functions of `Css/Animation.lean` and `View/Layout.lean` once more, with the result of every operation on `f32` rounded by
`r`. With `r = id` they are those functions (theorems at the end of this file).
-/
namespace Verif

variable (r : Rat → Rat)

/-- `animation.rs` 163-166, rounded. -/
def wrapTimeIn (duration : Rat) : Nat → Rat → Except Trouble Rat
  | 0, _ => .error .endless
  | fuel + 1, t => if t > duration then wrapTimeIn duration fuel (r (t - duration)) else .ok t

/-- `animation.rs` 151-169 `Animator::update`, rounded. -/
def Animator.updateIn (fuel : Nat) (a : Animator) (time : Rat) : Except Trouble (Animator × Option Progress) :=
  let a := if a.running ∧ a.duration > 0 then { a with time := r (a.time + time) } else a
  let t := r (a.time - a.delay)
  if t < 0 then .ok (a, none)
  else
    let t := match a.iterations with
      | .number n => min t (r (n * a.duration))
      | .infinite => t
    match wrapTimeIn r a.duration fuel t with
    | .error e => .error e
    | .ok t => .ok (a, some (if a.duration = 0 then .nan else .value (r (t / a.duration))))

/-- `a + (b - a) * t`, rounded. -/
def mixIn (x y t : Rat) : Rat := r (x + r (r (y - x) * t))

/-- `animation.rs` 243-249 `color`, one channel, rounded. -/
def mixChannelIn (x y : Nat) (t : Rat) : Nat := asU8 (max (mixIn r x y t) 0)

/-- `animation.rs` 243-249 `color`, rounded. -/
def mixColorIn (x y : Rgba) (t : Rat) : Rgba :=
  ⟨mixChannelIn r x.r y.r t, mixChannelIn r x.g y.g t, mixChannelIn r x.b y.b t, mixChannelIn r x.a y.a t⟩

/-- `animation.rs` 172-198 `animate` (with `number`, `percentage`, `dimension`, 251-269), rounded. -/
def animateIn (a b : ComputedValue) (t : Rat) : ComputedValue :=
  if t = 0 then a
  else if t = 1 then b
  else
    match a, b with
    | .number x, .number y => .number (mixIn r x y t)
    | .percentage x, .percentage y => .percentage (mixIn r x y t)
    | .percentage x, .zero => if mixIn r x 0 t = 0 then .zero else .percentage (mixIn r x 0 t)
    | .zero, .percentage y => .percentage (mixIn r 0 y t)
    | .dimension x, .dimension y =>
      if x.unit ≠ y.unit then .dimension (if t < 1 / 2 then x else y) else .dimension ⟨mixIn r x.value y.value t, x.unit⟩
    | .color x, .color y => .color (mixColorIn r x y t)
    | a, b => if t < 1 / 2 then a else b

/-- `animate` for any progress, rounded. -/
def animateAtIn (a b : ComputedValue) : Progress → Except Trouble ComputedValue
  | .value t => .ok (animateIn r a b t)
  | .nan => animateNan a b

/-- `(time * 100.0) as u32`, rounded. -/
def stepIn : Progress → Nat
  | .value x => min (r (x * 100)).floor.toNat 4294967295
  | .nan => 0

/-- `animation.rs` 126-147 `play_track`, rounded (the steps are small integers, exact in `f32`). -/
def trackValueIn (frames : List (Nat × ComputedValue)) (t : Nat) : Except Trouble ComputedValue :=
  let ab := bracket t (frames.map (·.1)) 0 0
  if ab.2 > ab.1 then
    match stepAt frames ab.1, stepAt frames ab.2 with
    | some x, some y => .ok (animateIn r x y (r (((t : Rat) - ab.1) / ((ab.2 : Rat) - ab.1))))
    | _, _ => .error .panic
  else
    match stepAt frames ab.1 with
    | some x => .ok x
    | none => .error .panic

/-- `animation.rs` 120-122: all tracks, rounded. -/
def playTracksIn (t : Nat) : List Track → ComputedStyle → Except Trouble ComputedStyle
  | [], style => .ok style
  | track :: tracks, style =>
    match trackValueIn r track.frames t with
    | .error e => .error e
    | .ok v => playTracksIn t tracks (style.insert track.descriptor v)

/-- `animation.rs` 117-124 `Animator::play`, rounded. -/
def Animator.playIn (fuel : Nat) (a : Animator) (time : Rat) (tracks : List Track) (style : ComputedStyle) :
    Except Trouble (Animator × ComputedStyle) :=
  match a.updateIn r fuel time with
  | .error e => .error e
  | .ok (a, none) => .ok (a, style)
  | .ok (a, some p) =>
    match playTracksIn r (stepIn r p) tracks style with
    | .error e => .error e
    | .ok style => .ok (a, style)

/-- `animation.rs` 54-77: the loop of `Transition::play`, rounded. -/
def Transition.loopIn (key : PropertyKey) (p : Progress) : Nat → Nat → Transition → ComputedStyle → Except Trouble (Transition × ComputedStyle)
  | 0, _, _, _ => .error .endless
  | fuel + 1, index, t, style =>
    match style.get ⟨key, index⟩ with
    | none => .ok (t, style)
    | some value =>
      match t.range with
      | none => Transition.loopIn key p fuel index t style
      | some (a, b) =>
        match animateAtIn r a b p with
        | .error e => .error e
        | .ok current =>
          let t := if b ≠ value then { t with range := some (current, value), animator := { t.animator with time := 0 } } else t
          let style := if current ≠ value then style.insert ⟨key, index⟩ current else style
          Transition.loopIn key p fuel (index + 1) t style

/-- `animation.rs` 45-77 `Transition::play`, rounded. -/
def Transition.playIn (fuel : Nat) (t : Transition) (time : Rat) (style : ComputedStyle) : Except Trouble (Transition × ComputedStyle) :=
  match t.key with
  | none => .ok (t, style)
  | some key =>
    match t.animator.updateIn r fuel time with
    | .error e => .error e
    | .ok (a, none) => .ok ({ t with animator := a }, style)
    | .ok (a, some p) => Transition.loopIn r key p fuel 0 { t with animator := a } style

/-- `scrolling.rs` 12-32 `Scrolling::ensure`, rounded. -/
def Scrolling.ensureIn (layout : Layout) (current : Option Scrolling) : Option Scrolling :=
  let (x, y) := match current with | some c => (c.x, c.y) | none => (0, 0)
  if layout.contentWidth > layout.width ∨ layout.contentHeight > layout.height then
    let scrollX := r (layout.contentWidth - layout.width)
    let scrollY := r (layout.contentHeight - layout.height)
    some { x := min x scrollX, y := min y scrollY, scrollX := scrollX, scrollY := scrollY }
  else none

/-- `scrolling.rs` 34-44 `Scrolling::offset`, rounded. -/
def Scrolling.offsetIn (s : Scrolling) (wheel : Rat × Rat) : Scrolling :=
  let s := if wheel.1 ≠ 0 then { s with x := max (min (r (s.x + signum wheel.1 * 50)) s.scrollX) 0 } else s
  if wheel.2 ≠ 0 then { s with y := max (min (r (s.y - signum wheel.2 * 50)) s.scrollY) 0 } else s

/-! ## With exact arithmetic -/

theorem wrapTimeIn_id (d : Rat) (fuel : Nat) (t : Rat) : wrapTimeIn id d fuel t = wrapTime d fuel t := by
  induction fuel generalizing t with
  | zero => rfl
  | succ n ih => simp only [wrapTimeIn, wrapTime, id_eq, ih]

/-- Without rounding it is `Animator.update`. -/
theorem updateIn_id : Animator.updateIn id = Animator.update := by
  funext fuel a time
  have h : wrapTimeIn id = wrapTime := by funext d fuel t; exact wrapTimeIn_id d fuel t
  unfold Animator.updateIn Animator.update
  rw [h]; rfl

/-- Without rounding it is `animate`. -/
theorem animateIn_id : animateIn id = animate := by
  funext a b t
  unfold animateIn animate
  split
  · rfl
  split
  · rfl
  cases a <;> cases b <;> rfl

theorem trackValueIn_id : trackValueIn id = trackValue := by
  funext frames t
  unfold trackValueIn trackValue
  rw [animateIn_id]; rfl

theorem playTracksIn_id : playTracksIn id = playTracks := by
  funext t tracks style
  induction tracks generalizing style with
  | nil => rfl
  | cons x xs ih =>
    simp only [playTracksIn, playTracks, trackValueIn_id]
    cases trackValue x.frames t with
    | error e => rfl
    | ok v => exact ih _

/-- Without rounding it is `Animator.play`. -/
theorem playIn_id : Animator.playIn id = Animator.play := by
  funext fuel a time tracks style
  unfold Animator.playIn Animator.play
  rw [updateIn_id, playTracksIn_id]
  rfl

theorem loopIn_id (key : PropertyKey) (p : Progress) (fuel index : Nat) (t : Transition) (style : ComputedStyle) :
    Transition.loopIn id key p fuel index t style = Transition.loop key p fuel index t style := by
  have h : animateAtIn id = animateAt := by
    funext a b p
    cases p <;> simp [animateAtIn, animateAt, animateIn_id]
  induction fuel generalizing index t style with
  | zero => rfl
  | succ n ih =>
    simp only [Transition.loopIn, Transition.loop, h, ih]
    cases style.get ⟨key, index⟩ with
    | none => rfl
    | some value =>
      cases t.range with
      | none => rfl
      | some ab => rfl

/-- Without rounding it is `Transition.play`. -/
theorem transitionIn_id : Transition.playIn id = Transition.play := by
  funext fuel t time style
  unfold Transition.playIn Transition.play
  simp only [updateIn_id, loopIn_id]
  cases t.key <;> rfl

/-- Without rounding they are those of the model. -/
theorem scrollingIn_id : Scrolling.ensureIn id = Scrolling.ensure ∧ Scrolling.offsetIn id = Scrolling.offset := ⟨rfl, rfl⟩

end Verif
