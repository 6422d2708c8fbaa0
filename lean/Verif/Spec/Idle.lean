import Verif.View.Whole
/-!
# Specification vocabulary for C85: a program left alone
-/
namespace Verif

/-- Some selector of the stylesheet asks for the pseudo class. -/
def Css.Mentions (css : Css) (name : String) : Prop := ∃ s ∈ css.styles, ∃ c ∈ s.selectors, Simple.pseudoClass name ∈ c

/-- The pseudo classes the stylesheet asks for hold of the same elements in both trees. -/
def Css.SeesSame (css : Css) (t t' : Tree) : Prop :=
  ∀ n e e', t.ctx n = some e → t'.ctx n = some e' → ∀ name, css.Mentions name → viewPseudo e' name = viewPseudo e name

/-- The layout engine reads nothing but what it is for: the layout styles, the children, the texts and their fonts. -/
def Platform.Reads (p : Platform) : Prop := ∀ s s' : Styled, s'.content = s.content → p.solve s' = p.solve s

/-- After `f`, nothing new: the same value and viewport and no events, at whatever time and in whatever order hash maps are
iterated. -/
structure Frame.Idle (f g : Frame) : Prop where
  value : g.value = f.value
  viewport : g.input.viewport = f.input.viewport
  events : g.input.events = []
  fair : g.order.Fair

end Verif
