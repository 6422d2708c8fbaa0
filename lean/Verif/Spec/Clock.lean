import Verif.Spec.Look
import Verif.Spec.Animation
import Verif.View.StyledAt
/-!
# Specification vocabulary for C81: the clocks of a program's animations
-/
namespace Verif

/-- Animation number `i` of the element `n`, as the program has it between updates. -/
def App.animator (a : App) (n : NodeId) (i : Nat) : Option Animator :=
  (a.screen.view.stage.tree.ctx n).bind fun e => e.animators[i]?

/-- How long animation number `i` of the element `n` has been playing: 0 if there is none. -/
def App.clock (a : App) (n : NodeId) (i : Nat) : Rat := (a.animator n i).elim 0 (·.time)

/-- Animation number `i` of the element `n` plays in the next update: the element is displayed in it and not a text, the
stylesheet knows the animation, which runs and takes time. -/
def App.Plays (p : Platform) (a : App) (value : Json) (n : NodeId) (i : Nat) : Prop :=
  ∃ v x e, a.screen.view.update p.inline value = .ok v ∧ Styles v.stage.tree v.body n ∧ v.stage.tree.ctx n = some e ∧ e.text = none ∧
    a.animator n i = some x ∧ x.running = true ∧ 0 < x.duration ∧ (a.css.animations x.name).isSome

open Classical in
/-- The sum of the times of those updates of a run in which the animation plays. -/
noncomputable def App.playing (p : Platform) (fuel : Nat) (n : NodeId) (i : Nat) : App → List Frame → Rat
  | _, [] => 0
  | a, f :: fs =>
    (if a.Plays p f.value n i then f.input.time else 0) +
      match a.update p fuel f.order f.input f.value with
      | .ok (a, _) => a.playing p fuel n i fs
      | .error _ => 0

/-- The declarations set the property to `v`: the last of them that sets it sets it to `v`. -/
def LastSets (vars : Variables) (block : List Declaration) (d : Descriptor) (v : ComputedValue) : Prop :=
  ∃ pre x post, block = pre ++ x :: post ∧ x.Sets vars d v ∧ ∀ y ∈ post, ∀ w, ¬ y.Sets vars d w

/-- The property is animated: some keyframe sets it. -/
def Animation.Moves (an : Animation) (vars : Variables) (d : Descriptor) : Prop :=
  ∃ k ∈ an.keyframes, ∃ x ∈ k.declaration, ∃ w, x.Sets vars d w

/-- What is said of the properties of an element. -/
abbrev Said : Type := Descriptor → ComputedValue → Prop

/-- The value of an animated property at a percentage `s`: what the last keyframe written for it says; at 0% and at 100%, if
that says nothing, what is said of the element without the animation, or else the initial value. -/
def Animation.FrameSays (an : Animation) (said : Said) (vars : Variables) (d : Descriptor) (s : Nat) (v : ComputedValue) : Prop :=
  (∃ k, (an.keyframes.filter (·.step == s)).getLast? = some k ∧ LastSets vars k.declaration d v) ∨
  ((∀ k, (an.keyframes.filter (·.step == s)).getLast? = some k → ∀ x ∈ k.declaration, ∀ w, ¬ x.Sets vars d w) ∧ (s = 0 ∨ s = 100) ∧
    (said d v ∨ (∀ w, ¬ said d w) ∧ v = initialValue d.key))

/-- What an element looks like when its animation has come to `y`, from 0 to 1: counted in whole percents, animated
properties have the value of that percentage, or one between those of the nearest percentages that have one; all others
have the values that are said of the element. -/
def Animation.Displays (an : Animation) (said : Said) (vars : Variables) (y : Rat) (d : Descriptor) (v : ComputedValue) : Prop :=
  ∃ step : Nat, (step : Rat) ≤ 100 * y ∧ 100 * y < step + 1 ∧
    (¬ an.Moves vars d ∧ said d v ∨
     an.Moves vars d ∧ an.FrameSays said vars d step v ∨
     an.Moves vars d ∧ ∃ (before after : Nat) (from_ to_ : ComputedValue), before < step ∧ step < after ∧
       an.FrameSays said vars d before from_ ∧ an.FrameSays said vars d after to_ ∧
       (∀ s, before < s → s < after → ∀ w, ¬ an.FrameSays said vars d s w) ∧
       v = animate from_ to_ (((step : Rat) - before) / ((after : Rat) - before)))

/-- The progress of an animation whose clock shows `T`: what is left, after whole iterations, of the time without the
delay, as a part of the duration. The end of an iteration counts as 1. -/
def Animator.ProgressAt (x : Animator) (T y : Rat) : Prop :=
  0 ≤ y ∧ y ≤ 1 ∧ ∃ k : Nat, playedTime x (T - x.delay) = (k + y) * x.duration ∧ (0 < k → 0 < y)

/-- What an element looks like with some animations, number `i` and the following ones; the clock of number `j` shows `T j`. Each adds
to what the ones before it have made of the element: nothing if the stylesheet has no keyframes of that name or before
its delay has passed, else what its keyframes say at its progress. -/
def Css.Animates (css : Css) (vars : Variables) (T : Nat → Rat) : Nat → List Animator → Said → Said
  | _, [], said => said
  | i, x :: xs, said => css.Animates vars T (i + 1) xs fun d v =>
      match css.animations x.name with
      | none => said d v
      | some an => T i < x.delay ∧ said d v ∨ x.delay ≤ T i ∧ ∃ y, x.ProgressAt (T i) y ∧ an.Displays said vars y d v

/-- A displayed element: `e` is what the program has of it when the bindings of the last update are done. The program was opened as
`a` and has made the updates `fs` and then `last`; `v` is the view when the bindings of the last one are updated, `a'`
the program when it is done. All animations take time. -/
structure Animated (p : Platform) (document : Html) (css : Css) (fuel : Nat) (a : App) (fs : List Frame) (last : Frame) (v : View) (a' : App) (n : NodeId) (e : Element) : Prop where
  program : ∃ fuel0 a1 outs out, openApp p fuel0 document css = .ok a ∧ a.run p fuel fs = .ok (a1, outs) ∧
    a1.screen.view.update p.inline last.value = .ok v ∧ a1.update p fuel last.order last.input last.value = .ok (a', out)
  fair : last.order.Fair
  supported : css.Supported
  undisturbed : css.Undisturbed v.vm.bindings
  spaces : ∀ s ∈ css.styles, ∀ c ∈ s.selectors, ∀ y ∈ c, y.PlainIn v.stage.tree
  reached : Styles v.stage.tree v.body n
  there : v.stage.tree.ctx n = some e
  element : e.text = none
  inline : ∀ y ∈ e.style, y.Singular
  animations : ∀ x ∈ e.animators, ∀ an, css.animations x.name = some an → 0 < x.duration ∧ x.Forward ∧ ∀ k ∈ an.keyframes, ∀ y ∈ k.declaration, y.Singular

/-- The element has the value, as C77 says it. -/
def ShowsAt (v : View) (last : Frame) (a' : App) (n : NodeId) (d : Descriptor) (val : ComputedValue) : Prop :=
  ∃ q parent e', a'.screen.view.stage.tree.par n = some q ∧ a'.screen.view.stage.tree.ctx q = some parent ∧ a'.screen.view.stage.tree.ctx n = some e' ∧
    ((assignment (sizesAt v.body last.input.viewport n parent) d.key val).1.slot = some d.key →
      (assignment (sizesAt v.body last.input.viewport n parent) d.key val).1.read d.index (a'.layouts n, e') =
        some (assignment (sizesAt v.body last.input.viewport n parent) d.key val).1)

end Verif
