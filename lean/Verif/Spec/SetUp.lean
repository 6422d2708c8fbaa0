import Verif.Spec.Transitions
/-!
# Specification vocabulary for C88: how animations and transitions are set up
-/
namespace Verif

/-- What the words for the speed along the way mean. -/
def timingWords : List (String × TimingFunction) :=
  [("linear", .linear), ("ease", .ease), ("ease-in", .easeIn), ("ease-out", .easeOut), ("ease-in-out", .easeInOut), ("step-start", .stepStart), ("step-end", .stepEnd)]

/-- The words of the properties of animations that take words, and what they say of an animation. -/
def animationWords : List (PropertyKey × List (String × (Animator → Prop))) :=
  [(.AnimationDirection, [("normal", (·.direction = .normal)), ("reverse", (·.direction = .reverse)), ("alternate", (·.direction = .alternate)),
      ("alternate-reverse", (·.direction = .alternateReverse))]),
   (.AnimationFillMode, [("none", (·.fillMode = .none)), ("forwards", (·.fillMode = .forwards)), ("backwards", (·.fillMode = .backwards)), ("both", (·.fillMode = .both))]),
   (.AnimationPlayState, [("running", (·.running = true)), ("paused", (·.running = false))]),
   (.AnimationIterationCount, [("infinite", (·.iterations = .infinite))]),
   (.AnimationTimingFunction, timingWords.map fun w => (w.1, (·.timing = w.2)))]

/-- The parameters of an animation that properties set, each as "the same in both". -/
def animationParameters : List (PropertyKey × (Animator → Animator → Prop)) :=
  [(.AnimationName, fun x y => x.name = y.name), (.AnimationDuration, fun x y => x.duration = y.duration), (.AnimationDelay, fun x y => x.delay = y.delay),
   (.AnimationIterationCount, fun x y => x.iterations = y.iterations), (.AnimationPlayState, fun x y => x.running = y.running),
   (.AnimationDirection, fun x y => x.direction = y.direction), (.AnimationFillMode, fun x y => x.fillMode = y.fillMode),
   (.AnimationTimingFunction, fun x y => x.timing = y.timing)]

/-- An animation for which nothing is set: without name, 0 seconds long and without delay, played once, running. -/
def Animator.initial : Animator :=
  { name := "", duration := 0, delay := 0, iterations := .number 1, running := true, direction := .normal, fillMode := .none, timing := .linear, time := 0 }

/-- Transition number `i` of the element `n`, as the program has it between updates. -/
def App.transitionAt (a : App) (n : NodeId) (i : Nat) : Option Transition :=
  (a.screen.view.stage.tree.ctx n).bind fun e => e.transitions[i]?

/-- In the last update the stylesheet, the inline style and the running animations tell the element that `d` is `val`, and no transition is
on the way for it. -/
def Tells (p : Platform) (css : Css) (fuel : Nat) (a : App) (fs : List Frame) (last : Frame) (v : View) (n : NodeId) (e : Element) (d : Descriptor) (val : ComputedValue) : Prop :=
  (∀ t ∈ e.transitions, t.key ≠ some d.key) ∧ ∃ vars : Variables, (∀ name l, vars name = some l ↔ css.Gives v.stage.tree v.body name l n) ∧
    css.Animates vars (fun i => a.playing p fuel n i (fs ++ [last])) 0 e.animators (css.Says v.stage.tree v.body n) d val

/-- No keyframe of the animations of the element is about the property. -/
def Css.NoKeyframe (css : Css) (e : Element) (key : PropertyKey) : Prop :=
  ∀ x ∈ e.animators, ∀ an, css.animations x.name = some an → ∀ k ∈ an.keyframes, ∀ y ∈ k.declaration, ¬ y.IsFor key

end Verif
