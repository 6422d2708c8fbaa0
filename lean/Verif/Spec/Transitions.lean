import Verif.Spec.Clock
/-!
# Specification vocabulary for C83: transitions of a program
-/
namespace Verif

/-- In its update `last`, after the updates `fs`, the program displays the element `n`, whose transition number `i`, and no other
one, is for the property `key`: a transition of `duration` seconds without delay. The stylesheet and the animations of
the element give the property the value `told`, and no second one. -/
def Turns (p : Platform) (document : Html) (css : Css) (fuel : Nat) (a : App) (fs : List Frame) (last : Frame) (n : NodeId) (i : Nat) (key : PropertyKey) (duration : Rat)
    (told : ComputedValue) : Prop :=
  ∃ v a' e t vars, Animated p document css fuel a fs last v a' n e ∧ e.transitions[i]? = some t ∧ t.Plain key ∧ t.animator.duration = duration ∧
    (∀ (j : Nat) u, e.transitions[j]? = some u → j ≠ i → u.key ≠ some key) ∧ (∀ name l, vars name = some l ↔ css.Gives v.stage.tree v.body name l n) ∧
    css.Animates vars (fun j => a.playing p fuel n j (fs ++ [last])) 0 e.animators (css.Says v.stage.tree v.body n) ⟨key, 0⟩ told ∧
    ∀ w, ¬ css.Animates vars (fun j => a.playing p fuel n j (fs ++ [last])) 0 e.animators (css.Says v.stage.tree v.body n) ⟨key, 1⟩ w

/-- After the updates `fs` and then `last` the element has the value. -/
def ShownAfter (p : Platform) (fuel : Nat) (a : App) (fs : List Frame) (last : Frame) (n : NodeId) (d : Descriptor) (val : ComputedValue) : Prop :=
  ∃ a1 outs v a' out, a.run p fuel fs = .ok (a1, outs) ∧ a1.screen.view.update p.inline last.value = .ok v ∧
    a1.update p fuel last.order last.input last.value = .ok (a', out) ∧ ShowsAt v last a' n d val

/-- The time of some updates. -/
def timeOf (fs : List Frame) : Rat := (fs.map (·.input.time)).sum

end Verif
