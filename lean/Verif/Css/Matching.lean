import Verif.View.Tree
/-!
# Selector matching (`src/css/matching.rs`, `src/view.rs` 320-355, 521-542)
-/
namespace Verif

/-- `str::split(" ")` (trusted), on characters. -/
def splitSpace : List Char → List (List Char)
  | [] => [[]]
  | c :: cs =>
    if c = ' ' then [] :: splitSpace cs
    else match splitSpace cs with
      | [] => [[c]]
      | w :: ws => (c :: w) :: ws

/-- `matching.rs` 164-166 `match_class`, and 107 for `~=`. -/
def hasWord (text word : String) : Bool := (splitSpace text.toList).any (· == word.toList)

/-- `matching.rs` 104-112: the operators of an attribute selector.  `starts_with`, `contains` and
`ends_with` on the characters of the strings. -/
def matchAttr (attr : String) (m : Matcher) (value : String) : Bool :=
  match m with
  | .exist => true
  | .equal => attr == value
  | .include => hasWord attr value
  | .dashMatch => attr == value || attr == "-" ++ value
  | .prefix => decide (value.toList <+: attr.toList)
  | .substring => decide (value.toList <:+: attr.toList)
  | .suffix => decide (value.toList <:+ attr.toList)

/-- `PseudoClassMatcher` (`matching.rs` 167-169). -/
abbrev PseudoMatcher := Element → String → Bool

/-- `view.rs` 521-542: the pseudo classes of a view. -/
def viewPseudo : PseudoMatcher := fun e c =>
  if c = "hover" then e.state.hover
  else if c = "active" then e.state.active
  else if c = "checked" then e.state.checked
  else if c = "focus" then e.state.focus
  else false

/-- `view.rs` 321-326: every pseudo class holds. -/
def anyPseudo : PseudoMatcher := fun _ _ => true

/-- `matching.rs` 75-120 `match_simple_selector`. -/
def matchSimple (pc : PseudoMatcher) (e : Element) : Simple → Bool
  | .all => true
  | .type name => e.tag == name
  | .id ident => match e.attrs "id" with | some id => id == ident | none => false
  | .class ident => match e.attrs "class" with | some classes => hasWord classes ident | none => false
  | .attribute name m value => match e.attrs name with | some attr => matchAttr attr m value | none => false
  | .root => e.tag == ":root"
  | .pseudoClass name => pc e name
  | .pseudoElement _ => false
  | .combinator _ => false

/-- `matching.rs` 47-72 `find_next_target`.  `checks` says whether the build has overflow checks: then
`child - 1` panics for `child = 0`; otherwise it is an index no list has. -/
def nextTarget (checks : Bool) (t : Tree) (target : NodeId) (combinator : Char) :
    Except Fail (Option NodeId) :=
  if combinator = '>' then .ok (t.par target)
  else if combinator = '+' then
    match t.par target with
    | none => .ok none
    | some parent =>
      match ((t.kids parent).drop 1).findIdx? (· == target) with
      | none => .ok none
      | some 0 => if checks then .error .panic else .ok none
      | some (child + 1) => .ok (t.kids parent)[child]?
  else .ok none

/-- `matching.rs` 29-44: the loop over the components from right to left. -/
def matchLoop (checks : Bool) (pc : PseudoMatcher) (t : Tree) :
    List Simple → NodeId → Element → Except Fail Bool
  | [], _, _ => .ok true
  | .combinator c :: ss, n, _ =>
    match nextTarget checks t n c with
    | .error f => .error f
    | .ok none => .ok false
    | .ok (some m) =>
      match t.ctx m with
      | none => .error .panic
      | some e => matchLoop checks pc t ss m e
  | s :: ss, n, e => if matchSimple pc e s then matchLoop checks pc t ss n e else .ok false

/-- `matching.rs` 20-45 `match_complex_selector`. -/
def matchComplex (checks : Bool) (pc : PseudoMatcher) (t : Tree) (sel : Complex) (n : NodeId) :
    Except Fail Bool :=
  match t.ctx n with
  | none => .error .panic
  | some e => matchLoop checks pc t sel.reverse n e

/-- `matching.rs` 15-18: `any`. -/
def matchAny (checks : Bool) (pc : PseudoMatcher) (t : Tree) (n : NodeId) : List Complex → Except Fail Bool
  | [] => .ok false
  | s :: ss =>
    match matchComplex checks pc t s n with
    | .error f => .error f
    | .ok true => .ok true
    | .ok false => matchAny checks pc t n ss

/-- `matching.rs` 8-18 `match_style`. -/
def matchStyle (checks : Bool) (pc : PseudoMatcher) (t : Tree) (style : Style) (n : NodeId) :
    Except Fail Bool := matchAny checks pc t n style.selectors

/-- `matching.rs` 123-130. -/
def Style.hasIdSelector (s : Style) : Bool :=
  s.selectors.any fun c => c.any fun x => match x with | .id _ => true | _ => false

/-- `matching.rs` 132-139. -/
def Style.hasClassSelector (s : Style) : Bool :=
  s.selectors.any fun c => c.any fun x => match x with | .class _ => true | _ => false

/-- `matching.rs` 141-151. -/
def Style.hasAttrsSelector (s : Style) (attrs : List String) : Bool :=
  s.selectors.any fun c => c.any fun x => match x with | .attribute name _ _ => attrs.contains name | _ => false

/-- `matching.rs` 153-160. -/
def Style.hasPseudoSelector (s : Style) : Bool :=
  s.selectors.any fun c => c.any fun x => match x with | .pseudoClass _ => true | _ => false

/-- `view.rs` 332-335: whether a rule can be decided once for an element. -/
def isStatic (hints : StyleHints) (style : Style) : Bool :=
  !hints.hasDynamicProperties
    || (!style.hasAttrsSelector hints.dynamicAttrs
      && (!hints.hasDynamicClasses || !style.hasClassSelector)
      && (!hints.hasDynamicId || !style.hasIdSelector))

/-- `view.rs` 328-349: the rules kept for one element.  The code stores them in `element.styles` of every
element below the body (350-353); here they are a function of the freshly rendered tree. -/
def classify (checks : Bool) (t : Tree) (n : NodeId) (e : Element) : List Style → Except Fail (List ElementStyle)
  | [] => .ok []
  | style :: rest =>
    match matchStyle checks anyPseudo t style n with
    | .error f => .error f
    | .ok matches_ =>
      match classify checks t n e rest with
      | .error f => .error f
      | .ok l =>
        if matches_ then
          if isStatic e.hints style && !style.hasPseudoSelector then .ok (.static style :: l)
          else .ok (.dynamic style :: l)
        else if isStatic e.hints style then .ok l
        else .ok (.dynamic style :: l)

/-- `styles/mod.rs` 74-87: the rules whose declarations are used for an element now. -/
def applied (checks : Bool) (pc : PseudoMatcher) (t : Tree) (n : NodeId) :
    List ElementStyle → Except Fail (List Style)
  | [] => .ok []
  | .static s :: l =>
    match applied checks pc t n l with
    | .error f => .error f
    | .ok r => .ok (s :: r)
  | .dynamic s :: l =>
    match matchStyle checks pc t s n with
    | .error f => .error f
    | .ok m =>
      match applied checks pc t n l with
      | .error f => .error f
      | .ok r => .ok (if m then s :: r else r)

end Verif
