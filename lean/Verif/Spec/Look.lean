import Verif.Spec.Whole
import Verif.Spec.Rules
import Verif.Spec.Css
import Verif.Spec.Styling
/-!
# Specification vocabulary for C77: from the stylesheet to the look of an element
-/
namespace Verif

/-- The next part of a selector, from left to right: a combinator begins a new compound. -/
def Selector.extend : Selector → Simple → Selector
  | l, .combinator c => .combine l c []
  | .compound parts, x => .compound (parts ++ [x])
  | .combine l c parts, x => .combine l c (parts ++ [x])

/-- The selector that is written as `c`. -/
def selectorOf (c : Complex) : Selector := c.foldl Selector.extend (.compound [])

/-- A rule is for a node: one of its selectors matches it, as CSS defines it. -/
def Style.Selects (s : Style) (t : Tree) (n : NodeId) : Prop := ∃ c ∈ s.selectors, (selectorOf c).Matches viewPseudo t n

open Classical in
/-- All declarations for a node: those of the rules of the stylesheet that are for it, in stylesheet order, then its inline
style. -/
noncomputable def Css.declarationsFor (css : Css) (t : Tree) (n : NodeId) : List Declaration :=
  ((css.styles.filter fun s => decide (s.Selects t n)).map (·.declaration)).flatten ++ (t.ctx n).elim [] (·.style)

/-- `l` is the value of a variable at the node: the last one declared for it, or else that of its parent. -/
inductive Css.Gives (css : Css) (t : Tree) (body : NodeId) (name : String) (l : Shorthand) : NodeId → Prop
  | here {n} : (givenTo name (css.declarationsFor t n)).getLast? = some l → css.Gives t body name l n
  | up {n p} : n ≠ body → givenTo name (css.declarationsFor t n) = [] → t.par n = some p → css.Gives t body name l p → css.Gives t body name l n

/-- The stylesheet and the inline style say that the property is `v`: the last declaration for the node that sets it sets
it to `v`, where a variable has the value it has at the parent, or a value declared before for the node itself. -/
def Css.Says (css : Css) (t : Tree) (body n : NodeId) (d : Descriptor) (v : ComputedValue) : Prop :=
  ∃ vars i, (∀ name l, vars name = some l ↔ n ≠ body ∧ ∃ p, t.par n = some p ∧ css.Gives t body name l p) ∧
    SetsAt vars (css.declarationsFor t n) i d v ∧ ∀ j w, i < j → ¬ SetsAt vars (css.declarationsFor t n) j d w

/-- Selectors the crate reads as CSS does, with no combinator but `>`, and no list of values for a property that takes
one value. -/
def Css.Supported (css : Css) : Prop :=
  ∀ s ∈ css.styles, (∀ c ∈ s.selectors, ∀ x ∈ c, x.Faithful ∨ x = .combinator '>') ∧ ∀ x ∈ s.declaration, x.Singular

/-- The bindings change no attribute that decides once and for all which rules are for an element: neither `class` nor
`id` is a bound tag (`#class`, `#id`), and rules with `>` test no bound attribute. -/
def Css.Undisturbed (css : Css) (bindings : Bindings) : Prop :=
  (∀ path b, b ∈ bindings path → ∀ n, b.params ≠ .tag n "class" ∧ b.params ≠ .tag n "id") ∧
    ∀ s ∈ css.styles, s.HasChild → ∀ m k, BindsAttr bindings m k → ¬ s.Tests k

/-- The last update of a run of the program: `v` is the view when the bindings have been updated, `a'` the program when
the update is done. -/
structure LastUpdate (p : Platform) (document : Html) (css : Css) (last : Frame) (v : View) (a' : App) : Prop where
  program : ∃ fuel fuel' a fs a1 outs out, openApp p fuel document css = .ok a ∧ a.run p fuel' fs = .ok (a1, outs) ∧
    a1.screen.view.update p.inline last.value = .ok v ∧ a1.update p fuel' last.order last.input last.value = .ok (a', out)
  fair : last.order.Fair
  supported : css.Supported
  undisturbed : css.Undisturbed v.vm.bindings
  spaces : ∀ s ∈ css.styles, ∀ c ∈ s.selectors, ∀ x ∈ c, x.PlainIn v.stage.tree

/-- A displayed element without animations and transitions, in the last update. The stylesheet and the element's inline
style say that `d` is `val`. -/
structure Presents (p : Platform) (document : Html) (css : Css) (last : Frame) (v : View) (a' : App) (n : NodeId) (d : Descriptor)
    (val : ComputedValue) : Prop extends LastUpdate p document css last v a' where
  reached : Styles v.stage.tree v.body n
  still : ∃ e, v.stage.tree.ctx n = some e ∧ e.text = none ∧ e.animators = [] ∧ e.transitions = [] ∧ ∀ x ∈ e.style, x.Singular
  declared : css.Says v.stage.tree v.body n d val

/-- Nothing that is declared for the node is about the property. -/
def Css.SilentAt (css : Css) (t : Tree) (n : NodeId) (key : PropertyKey) : Prop := ∀ x ∈ css.declarationsFor t n, ¬ x.IsFor key

/-- No rule of the stylesheet starts an animation or a transition. -/
def Css.NeverMoves (css : Css) : Prop := ∀ s ∈ css.styles, ∀ x ∈ s.declaration, x.Still

/-- The inline style of a template node is fixed; it starts no animation or transition and has no list of values for a
property that takes one. -/
def Html.PlainStyle (inline : String → Option (List Declaration)) (h : Html) : Prop :=
  ∀ b ∈ h.bindings, match b with
    | .none key value => key = "style" → ∀ ds, inline value = some ds → ∀ x ∈ ds, x.Still ∧ x.Singular
    | .attribute key _ => key ≠ "style"
    | _ => True

/-- All inline styles of a document, in its body and its templates, are plain. -/
def PlainDocument (p : Platform) (document : Html) : Prop :=
  (docBody document).PlainStyle p.inline ∧ EveryNode (docEnv p.translate p.inline document) (Html.PlainStyle p.inline) (docBody document)

end Verif
