import Verif.Spec.Styling
import Verif.Spec.Rules
/-!
# Frames that come to an end (C67)
-/
namespace Verif

/-- The same frame with another bound for loops and recursion. -/
def FrameEnv.bounded (env : FrameEnv) (fuel : Nat) : FrameEnv := { env with fuel := fuel }

/-- The declaration, if it is one of a variable, mentions only variables of smaller rank. -/
def Declaration.Ranked (rank : String → Nat) : Declaration → Prop
  | .variable name l => ∀ m, Mentions m l → rank m < rank name
  | .property _ _ => True

/-- Nothing that makes styling hang or panic: no variable is defined, directly or not, by itself; no rule has
the combinator `+`; animations and transitions have a positive duration, and a transition has seen a value of
its property before or there is none to come in this frame. -/
structure Tame (env : FrameEnv) (t : Tree) : Prop where
  acyclic : ∃ rank, (∀ n, ∀ r ∈ env.rules n, ∀ x ∈ r.rule.declaration, x.Ranked rank) ∧ ∀ n e, t.ctx n = some e → ∀ x ∈ e.style, x.Ranked rank
  noPlus : ∀ n, ∀ r ∈ env.rules n, r.rule.NoPlus
  animators : ∀ n e, t.ctx n = some e → ∀ a ∈ e.animators, (env.animations a.name).isSome → 0 < a.duration
  transitions : ∀ n e, t.ctx n = some e → ∀ x ∈ e.transitions, ∀ key, x.key = some key →
    0 < x.animator.duration ∧ (x.range.isSome ∨ Silent env t n e key)

end Verif
