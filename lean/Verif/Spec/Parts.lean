import Verif.Spec.Whole
import Verif.Spec.Rules
import Verif.Spec.Copies
/-!
# Specification vocabulary for C109: a rule for each selector
-/
namespace Verif

/-- `l'` is `l` with rules taken apart, into rules with the same declarations that have the same selectors together. -/
inductive TakenApart : List Style → List Style → Prop
  | nil : TakenApart [] []
  | same {s l l'} : TakenApart l l' → TakenApart (s :: l) (s :: l')
  | apart {s l l'} (parts : List Style) : s.VariablesFirst → (∀ x ∈ parts, x.declaration = s.declaration) →
      (∀ c, c ∈ s.selectors ↔ ∃ x ∈ parts, c ∈ x.selectors) → TakenApart l l' → TakenApart (s :: l) (parts ++ l')

/-- Rules without `+` in a view where no `#class` or `#id` is used and rules with `>` test no attribute that is bound on an element with
children: the conditions of C42, for the whole program. -/
structure Css.Steady (css : Css) (v : View) : Prop where
  noPlus : ∀ s ∈ css.styles, s.NoPlus
  tags : ∀ path b n, b ∈ v.vm.bindings path → b.params ≠ .tag n "class" ∧ b.params ≠ .tag n "id"
  parents : ∀ s ∈ css.styles, s.HasChild → ∀ m e k, v.stage.tree.ctx m = some e → m = v.root ∨ e.children ≠ [] →
    BindsAttr v.vm.bindings m k → ¬ s.Tests k

end Verif
