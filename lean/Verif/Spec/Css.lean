import Verif.View.Tree
/-!
# What CSS says about selectors (C39-C42)

Selectors Level 3 for the parts the crate has.  `pc e c` is the state of element `e` behind the pseudo
class `c`.
-/
namespace Verif

/-- White space in the sense of CSS and HTML. -/
def CssSpace (c : Char) : Prop := c = ' ' ∨ c = '\t' ∨ c = '\n' ∨ c = '\r' ∨ c = '\x0c'

/-- `w` is one of the words of `text` separated by white space. -/
def IsWord (text w : String) : Prop :=
  w ≠ "" ∧ (∀ c ∈ w.toList, ¬ CssSpace c) ∧
  ∃ pre post, text.toList = pre ++ w.toList ++ post ∧
    (pre = [] ∨ ∃ l c, pre = l ++ [c] ∧ CssSpace c) ∧ (post = [] ∨ ∃ c l, post = c :: l ∧ CssSpace c)

/-- The attribute selectors `[a]`, `[a=v]`, `[a~=v]`, `[a|=v]`, `[a^=v]`, `[a*=v]`, `[a$=v]`. -/
def AttrHolds (attr : String) (value : String) : Matcher → Prop
  | .exist => True
  | .equal => attr = value
  | .include => IsWord attr value
  | .dashMatch => attr = value ∨ ∃ rest, attr = value ++ "-" ++ rest
  | .prefix => value ≠ "" ∧ ∃ rest, attr = value ++ rest
  | .substring => value ≠ "" ∧ ∃ before rest, attr = before ++ value ++ rest
  | .suffix => value ≠ "" ∧ ∃ before, attr = before ++ value

/-- The states behind pseudo classes: under the pointer, pressed, checked, focused.  No other pseudo
class holds. -/
inductive InState (e : Element) : String → Prop
  | hover : e.state.hover = true → InState e "hover"
  | active : e.state.active = true → InState e "active"
  | checked : e.state.checked = true → InState e "checked"
  | focus : e.state.focus = true → InState e "focus"

/-- A simple selector holds for node `n` with element `e`. -/
def SimpleHolds (pc : Element → String → Bool) (t : Tree) (n : NodeId) (e : Element) : Simple → Prop
  | .all => True
  | .type name => e.tag = name
  | .id ident => e.attrs "id" = some ident
  | .class ident => ∃ classes, e.attrs "class" = some classes ∧ IsWord classes ident
  | .attribute name m value => ∃ attr, e.attrs name = some attr ∧ AttrHolds attr value m
  | .root => t.par n = none
  | .pseudoClass name => pc e name = true
  | .pseudoElement _ => False
  | .combinator _ => False

/-- A selector: compounds joined by combinators, the last compound outermost. -/
inductive Selector where
  | compound (parts : List Simple)
  | combine (left : Selector) (combinator : Char) (parts : List Simple)

/-- The selector as written, from left to right. -/
def Selector.written : Selector → List Simple
  | .compound parts => parts
  | .combine l c parts => l.written ++ .combinator c :: parts

/-- All parts of a compound hold. -/
def CompoundHolds (pc : Element → String → Bool) (t : Tree) (parts : List Simple) (n : NodeId) : Prop :=
  ∃ e, t.ctx n = some e ∧ ∀ s ∈ parts, SimpleHolds pc t n e s

/-- `m` is an ancestor of `n`. -/
inductive Ancestor (t : Tree) : NodeId → NodeId → Prop
  | parent {m n} : t.par n = some m → Ancestor t m n
  | above {m p n} : t.par n = some p → Ancestor t m p → Ancestor t m n

/-- `m` is the sibling right before `n`. -/
def Previous (t : Tree) (m n : NodeId) : Prop :=
  ∃ p pre post, t.par n = some p ∧ t.kids p = pre ++ m :: n :: post

/-- `m` is a sibling before `n`. -/
def Earlier (t : Tree) (m n : NodeId) : Prop :=
  ∃ p pre mid post, t.par n = some p ∧ t.kids p = pre ++ m :: mid ++ n :: post

/-- The node `n` matches the selector. -/
def Selector.Matches (pc : Element → String → Bool) (t : Tree) : Selector → NodeId → Prop
  | .compound parts, n => CompoundHolds pc t parts n
  | .combine left c parts, n => CompoundHolds pc t parts n ∧
    if c = '>' then ∃ m, t.par n = some m ∧ left.Matches pc t m
    else if c = '+' then ∃ m, Previous t m n ∧ left.Matches pc t m
    else if c = '~' then ∃ m, Earlier t m n ∧ left.Matches pc t m
    else if c = ' ' then ∃ m, Ancestor t m n ∧ left.Matches pc t m
    else False

/-- The compounds of a selector. -/
def Selector.compounds : Selector → List (List Simple)
  | .compound parts => [parts]
  | .combine l _ parts => l.compounds ++ [parts]

/-- The combinators of a selector. -/
def Selector.combinators : Selector → List Char
  | .compound _ => []
  | .combine l c _ => l.combinators ++ [c]

/-- The parts the crate reads as CSS does: no `:root`, no `|=`, and values that are not empty and, for
words, have no white space. -/
def Simple.Faithful : Simple → Prop
  | .all => True
  | .type _ => True
  | .id _ => True
  | .class w => w ≠ "" ∧ ∀ c ∈ w.toList, ¬ CssSpace c
  | .attribute _ m v =>
    match m with
    | .exist => True
    | .equal => True
    | .include => v ≠ "" ∧ ∀ c ∈ v.toList, ¬ CssSpace c
    | .dashMatch => False
    | _ => v ≠ ""
  | .root => False
  | .pseudoClass _ => True
  | .pseudoElement _ => True
  | .combinator _ => False

/-- In the attribute `k` of elements the only white space is the blank. -/
def Tree.PlainAt (t : Tree) (k : String) : Prop :=
  ∀ n e v, t.ctx n = some e → e.attrs k = some v → ∀ c ∈ v.toList, CssSpace c → c = ' '

/-- The attribute a part looks for words in has no white space but the blank. -/
def Simple.PlainIn (t : Tree) : Simple → Prop
  | .class _ => t.PlainAt "class"
  | .attribute k .include _ => t.PlainAt k
  | _ => True

end Verif
