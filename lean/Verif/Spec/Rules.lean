import Verif.Css.Matching
import Verif.Spec.Css
/-!
# Specification vocabulary for C42: which rules are used
-/
namespace Verif

/-- Displayed: connected to the root. -/
inductive Displayed (t : Tree) (root : NodeId) : NodeId → Prop
  | root : Displayed t root root
  | child {p c} : Displayed t root p → c ∈ t.kids p → Displayed t root c

/-- A rule tests attribute `k` somewhere in its selectors (`#x` tests `id`, `.x` tests `class`). -/
def Style.Tests (s : Style) (k : String) : Prop :=
  ∃ c ∈ s.selectors, ∃ x ∈ c, match x with
    | .attribute name _ _ => name = k
    | .class _ => k = "class"
    | .id _ => k = "id"
    | _ => False

/-- The template binds attribute `k` of node `n`, by `@k` or by `#k`. -/
def BindsAttr (bindings : Bindings) (n : NodeId) (k : String) : Prop :=
  ∃ path b, b ∈ bindings path ∧ (b.params = .tag n k ∨ ∃ i, b.params = .attribute n k i)

/-- The rule matches the node now. -/
def matchesNow (checks : Bool) (pc : PseudoMatcher) (t : Tree) (n : NodeId) (s : Style) : Bool :=
  match matchStyle checks pc t s n with
  | .ok true => true
  | _ => false

/-- No adjacent sibling combinator in the rule. -/
def Style.NoPlus (s : Style) : Prop := ∀ c ∈ s.selectors, .combinator '+' ∉ c

/-- The rule has a child combinator. -/
def Style.HasChild (s : Style) : Prop := ∃ c ∈ s.selectors, .combinator '>' ∈ c

end Verif
