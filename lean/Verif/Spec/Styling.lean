import Verif.View.Styling
import Verif.Spec.Cascade
/-!
# What a styled tree looks like (C45, C47-C50)
-/
namespace Verif

/-- `m` is `n` or below it. -/
inductive InSubtree (t : Tree) (n : NodeId) : NodeId → Prop
  | here : InSubtree t n n
  | deeper {p m} : t.par m = some p → InSubtree t n p → InSubtree t n m

/-- The nodes styling gets to: the body, and the children of elements it gets to, except for images, inputs and
the like. -/
inductive Styles (t : Tree) (body : NodeId) : NodeId → Prop
  | body : Styles t body body
  | child {p c e} : Styles t body p → t.ctx p = some e → e.text = none → e.tag ∉ leafTags → c ∈ t.kids p → Styles t body c

/-- The declarations that apply to an element now: those of its matching rules in order, then its inline style. -/
def declarations (env : FrameEnv) (t : Tree) (n : NodeId) (e : Element) : List Declaration :=
  match applied env.checks viewPseudo t n (env.rules n) with
  | .ok rules => (rules.map (·.declaration)).flatten ++ e.style
  | .error _ => []

/-- The declarations in the keyframes of the animations an element has. -/
def keyframeDeclarations (env : FrameEnv) (e : Element) : List Declaration :=
  (e.animators.map fun a => match env.animations a.name with
    | some animation => (animation.keyframes.map (·.declaration)).flatten
    | none => []).flatten

/-- `l` is the value of a variable for the children of `n`: the last one given at `n`, or else at the nearest
ancestor (up to the body) that gives it one. -/
inductive Given (env : FrameEnv) (t : Tree) (body : NodeId) (name : String) (l : Shorthand) : NodeId → Prop
  | here {n e} : t.ctx n = some e → (givenTo name (declarations env t n e)).getLast? = some l → Given env t body name l n
  | up {n e p} : n ≠ body → t.ctx n = some e → givenTo name (declarations env t n e) = [] → t.par n = some p →
      Given env t body name l p → Given env t body name l n

/-- The properties that take a list of values, one per background, transition or animation, and their
shorthands. -/
def listProperties : List PropertyKey :=
  [.Background, .BackgroundColor, .BackgroundImage, .BackgroundPosition, .BackgroundPositionX, .BackgroundPositionY,
   .Transition, .TransitionProperty, .TransitionDuration, .TransitionDelay, .TransitionTimingFunction,
   .Animation, .AnimationName, .AnimationDelay, .AnimationDirection, .AnimationDuration, .AnimationFillMode, .AnimationIterationCount,
   .AnimationPlayState, .AnimationTimingFunction]

/-- A list of values separated by commas is only given to a property that takes one. -/
def Declaration.Singular : Declaration → Prop
  | .variable _ _ => True
  | .property key values => values.length ≤ 1 ∨ key ∈ listProperties

/-- The rule kept for an element. -/
def ElementStyle.rule : ElementStyle → Style
  | .static s => s
  | .dynamic s => s

/-- Two frames that differ only in the order in which hash maps are iterated. -/
structure FrameEnv.SameBut (env env' : FrameEnv) : Prop where
  checks : env'.checks = env.checks
  rules : env'.rules = env.rules
  animations : env'.animations = env.animations
  time : env'.time = env.time
  fuel : env'.fuel = env.fuel
  fair : env.order.Fair
  fair' : env'.order.Fair

/-- The inherited properties. -/
inductive Heritage where
  | color | fontFamily | fontSize | fontStyle | fontWeight | pointerEvents

/-- The CSS property. -/
def Heritage.key : Heritage → PropertyKey
  | .color => .Color
  | .fontFamily => .FontFamily
  | .fontSize => .FontSize
  | .fontStyle => .FontStyle
  | .fontWeight => .FontWeight
  | .pointerEvents => .PointerEvents

/-- Two elements have the same value of an inherited property. -/
def Heritage.Same (e e' : Element) : Heritage → Prop
  | .color => e.color = e'.color
  | .fontFamily => e.font.family = e'.font.family
  | .fontSize => e.font.size = e'.font.size
  | .fontStyle => e.font.style = e'.font.style
  | .fontWeight => e.font.weight = e'.font.weight
  | .pointerEvents => e.pointerEvents = e'.pointerEvents

/-- A declaration that sets the property, with whatever values of variables. -/
def Declaration.IsFor (x : Declaration) (key : PropertyKey) : Prop := ∃ vars index v, x.Sets vars ⟨key, index⟩ v

/-- The declarations of an element and of the keyframes of its animations have nothing for a property. -/
def Silent (env : FrameEnv) (t : Tree) (n : NodeId) (e : Element) (key : PropertyKey) : Prop :=
  ∀ x, x ∈ declarations env t n e ∨ x ∈ keyframeDeclarations env e → ¬ x.IsFor key

/-- A way down from `a` to `n` on which nothing says anything about a property. -/
inductive SilentPath (env : FrameEnv) (t : Tree) (key : PropertyKey) (a : NodeId) : NodeId → Prop
  | here : SilentPath env t key a a
  | step {p n e} : SilentPath env t key a p → t.par n = some p → t.ctx n = some e → e.text.isSome ∨ Silent env t n e key → SilentPath env t key a n

/-- What CSS says a length in some unit is in pixels, for an element whose parent has font size `em`, in a
viewport `vw` by `vh` pixels; one rem is 16 pixels. -/
def pixels (em vw vh : Rat) : Units → Rat → Rat
  | .px, v => v
  | .em, v => v * em
  | .rem, v => v * 16
  | .vw, v => v * (vw / 100)
  | .vh, v => v * (vh / 100)
  | .vmin, v => v * (min vw vh / 100)
  | .vmax, v => v * (max vw vh / 100)

/-- The layout properties that take a length, a percentage or `auto`, and where they are kept. -/
def autoLengths : List (PropertyKey × (LayoutStyle → LengthPA)) :=
  [(.Width, (·.width)), (.Height, (·.height)), (.MinWidth, (·.minWidth)), (.MinHeight, (·.minHeight)), (.MaxWidth, (·.maxWidth)), (.MaxHeight, (·.maxHeight)),
   (.FlexBasis, (·.flexBasis)), (.MarginTop, (·.margin.top)), (.MarginRight, (·.margin.right)), (.MarginBottom, (·.margin.bottom)), (.MarginLeft, (·.margin.left)),
   (.Top, (·.inset.top)), (.Right, (·.inset.right)), (.Bottom, (·.inset.bottom)), (.Left, (·.inset.left))]

/-- The layout properties that take a length or a percentage, and where they are kept. -/
def plainLengths : List (PropertyKey × (LayoutStyle → LengthP)) :=
  [(.PaddingTop, (·.padding.top)), (.PaddingRight, (·.padding.right)), (.PaddingBottom, (·.padding.bottom)), (.PaddingLeft, (·.padding.left)),
   (.ColumnGap, (·.gapWidth)), (.RowGap, (·.gapHeight))]

/-- The widths of borders. -/
def borderWidths : List (PropertyKey × Side) :=
  [(.BorderTopWidth, .top), (.BorderRightWidth, .right), (.BorderBottomWidth, .bottom), (.BorderLeftWidth, .left)]

/-- What a user sees of an element's style, without layout. -/
structure Look where
  backgrounds : List Background
  borders : Borders
  color : Rgba
  font : FontFace
  selfOpacity : Rat
  pointerEvents : PointerEvents

/-- The look of an element. -/
def Element.look (e : Element) : Look := ⟨e.backgrounds, e.borders, e.color, e.font, e.selfOpacity, e.pointerEvents⟩

/-- Two elements that only differ in what earlier frames of styling left behind. -/
structure SameButStyle (e e' : Element) : Prop where
  form : e.SameForm e'
  state : e'.state = e.state
  style : e'.style = e.style
  animators : e'.animators = e.animators
  transitions : e'.transitions = e.transitions

/-- In `s'` the displayed nodes from `n` on are the styled nodes of `s`: a text inherits from its parent as it
is in `s'`; an element is styled with that parent, and its children are styled with its font size, its colour and
the variables it passes on. -/
inductive StyledFrom (env : FrameEnv) (s s' : Styled) : NodeId → Sizes → Variables → Prop
  | text {n sizes vars p parent e} : s.tree.par n = some p → s'.tree.ctx p = some parent → s.tree.ctx n = some e → e.text.isSome →
      s'.tree.ctx n = some (parent.inherit e) → s'.layouts n = s.layouts n → StyledFrom env s s' n sizes vars
  | element {n sizes vars p parent e l e' vars'} : s.tree.par n = some p → s'.tree.ctx p = some parent → s.tree.ctx n = some e →
      e.text = none → styleElement env s.tree n parent sizes vars (s.layouts n) e = .ok ((l, e'), vars') →
      s'.tree.ctx n = some e' → s'.layouts n = l →
      (e'.tag ∉ leafTags → ∀ c ∈ s.tree.kids n, StyledFrom env s s' c (sizes.under e') vars') →
      StyledFrom env s s' n sizes vars

end Verif
