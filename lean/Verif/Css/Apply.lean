import Verif.Css.Compute
/-!
# Applying computed values (`src/styles/apply.rs`, `src/styles/default.rs` 10-30, 82-113, `src/styles/inherit.rs`)

An arm of the big match of `apply` is split in two: what the value means (`arms`, `Assign`) and where it is
written (`Assign.write`).
-/
namespace Verif

/-! ## `taffy::Style` -/

/-- `taffy::LengthPercentage`. -/
inductive LengthP where
  | length (v : Rat)
  | percent (v : Rat)
deriving DecidableEq, Repr

/-- `taffy::LengthPercentageAuto` and `taffy::Dimension`, which have the same three cases. -/
inductive LengthPA where
  | length (v : Rat)
  | percent (v : Rat)
  | auto
deriving DecidableEq, Repr

/-- `taffy::BoxSizing`. -/
inductive BoxSizing where
  | borderBox | contentBox
deriving DecidableEq, Repr

/-- `taffy::Display` (without `None`, which is never set). -/
inductive Display where
  | block | flex | grid
deriving DecidableEq, Repr

/-- `taffy::Overflow`. -/
inductive Overflow where
  | visible | clip | hidden | scroll
deriving DecidableEq, Repr

/-- `taffy::Position`. -/
inductive Position where
  | relative | absolute
deriving DecidableEq, Repr

/-- `taffy::AlignItems`. -/
inductive AlignItems where
  | start | «end» | flexStart | flexEnd | center | baseline | stretch
deriving DecidableEq, Repr

/-- `taffy::AlignContent`. -/
inductive AlignContent where
  | start | «end» | flexStart | flexEnd | center | stretch | spaceBetween | spaceEvenly | spaceAround
deriving DecidableEq, Repr

/-- `taffy::FlexDirection`. -/
inductive FlexDirection where
  | row | rowReverse | column | columnReverse
deriving DecidableEq, Repr

/-- `taffy::FlexWrap`. -/
inductive FlexWrap where
  | wrap | noWrap | wrapReverse
deriving DecidableEq, Repr

/-- The sides of a box. -/
inductive Side where
  | top | right | bottom | left
deriving DecidableEq, Repr

/-- `taffy::Rect`. -/
structure Rect (α : Type) where
  top : α
  right : α
  bottom : α
  left : α
deriving DecidableEq, Repr

/-- A field of a rectangle. -/
def Rect.get {α} (r : Rect α) : Side → α
  | .top => r.top
  | .right => r.right
  | .bottom => r.bottom
  | .left => r.left

/-- Assignment to a field of a rectangle. -/
def Rect.set {α} (r : Rect α) : Side → α → Rect α
  | .top, v => { r with top := v }
  | .right, v => { r with right := v }
  | .bottom, v => { r with bottom := v }
  | .left, v => { r with left := v }

/-- The fields of `taffy::Style` that `apply` writes, with the values of `default_layout`
(`default.rs` 82-113; `box_sizing` is taffy's default). The other fields never change. -/
structure LayoutStyle where
  boxSizing : BoxSizing := .borderBox
  display : Display := .block
  overflowX : Overflow := .visible
  overflowY : Overflow := .visible
  position : Position := .relative
  inset : Rect LengthPA := ⟨.auto, .auto, .auto, .auto⟩
  margin : Rect LengthPA := ⟨.length 0, .length 0, .length 0, .length 0⟩
  padding : Rect LengthP := ⟨.length 0, .length 0, .length 0, .length 0⟩
  border : Rect LengthP := ⟨.length 0, .length 0, .length 0, .length 0⟩
  width : LengthPA := .auto
  height : LengthPA := .auto
  minWidth : LengthPA := .auto
  minHeight : LengthPA := .auto
  maxWidth : LengthPA := .auto
  maxHeight : LengthPA := .auto
  gapWidth : LengthP := .length 0
  gapHeight : LengthP := .length 0
  alignItems : Option AlignItems := none
  alignSelf : Option AlignItems := none
  justifyItems : Option AlignItems := none
  justifySelf : Option AlignItems := none
  alignContent : Option AlignContent := none
  justifyContent : Option AlignContent := none
  flexDirection : FlexDirection := .row
  flexWrap : FlexWrap := .noWrap
  flexGrow : Rat := 0
  flexShrink : Rat := 1
  flexBasis : LengthPA := .auto
deriving DecidableEq, Repr

/-! ## What values mean -/

/-- `styles/mod.rs` 181-187 `Sizes`. -/
structure Sizes where
  rootFontSize : Rat
  parentFontSize : Rat
  parentColor : Rgba
  viewportWidth : Rat
  viewportHeight : Rat

/-- `apply.rs` 313-324 `resolve_font_weight`; `as u16` of a number from 1 to 1000. -/
def resolveFontWeight : ComputedValue → Option Nat
  | .number v => if 1 ≤ v ∧ v ≤ 1000 then some v.floor.toNat else none
  | .keyword k => if k = "normal" then some 400 else if k = "bold" then some 700 else none
  | _ => none

/-- `apply.rs` 326-342 `resolve_color`. -/
def resolveColor (sizes : Sizes) : ComputedValue → Option Rgba
  | .color c => some c
  | .keyword k =>
    if k = "black" then some ⟨0, 0, 0, 255⟩
    else if k = "white" then some ⟨255, 255, 255, 255⟩
    else if k = "red" then some ⟨255, 0, 0, 255⟩
    else if k = "blue" then some ⟨0, 0, 255, 255⟩
    else if k = "green" then some ⟨0, 255, 0, 255⟩
    else if k = "transparent" then some ⟨0, 0, 0, 0⟩
    else if k = "currentcolor" ∨ k = "currentColor" then some sizes.parentColor
    else none
  | _ => none

/-- `apply.rs` 344-362 `resolve_timing`. -/
def resolveTiming : ComputedValue → Option TimingFunction
  | .keyword k =>
    if k = "ease" then some .ease
    else if k = "ease-in" then some .easeIn
    else if k = "ease-out" then some .easeOut
    else if k = "ease-in-out" then some .easeInOut
    else if k = "linear" then some .linear
    else if k = "step-start" then some .stepStart
    else if k = "step-end" then some .stepEnd
    else none
  | _ => none

/-- `apply.rs` 417-430 `resolve_iterations`. -/
def resolveIterations : ComputedValue → Option AnimationIterations
  | .keyword k => if k = "infinite" then some .infinite else none
  | .number n => some (.number n)
  | _ => none

/-- `apply.rs` 432-438 `resolve_string`. -/
def resolveString : ComputedValue → Option String
  | .str v => some v
  | _ => none

/-- `apply.rs` 440-448 `resolve_alpha`. -/
def resolveAlpha : ComputedValue → Option Rat
  | .zero => some 0
  | .number v => some v
  | .percentage v => some v
  | _ => none

/-- `apply.rs` 475-488 `parse_dimension_length`. -/
def dimLength (sizes : Sizes) (d : Dim) : Rat :=
  match d.unit with
  | .px => d.value
  | .em => sizes.parentFontSize * d.value
  | .rem => sizes.rootFontSize * d.value
  | .vw => sizes.viewportWidth * d.value / 100
  | .vh => sizes.viewportHeight * d.value / 100
  | .vmax => max sizes.viewportWidth sizes.viewportHeight * d.value / 100
  | .vmin => min sizes.viewportWidth sizes.viewportHeight * d.value / 100

/-- `apply.rs` 450-463 `resolve_length`. -/
def resolveLength (sizes : Sizes) (base : Rat) : ComputedValue → Option Rat
  | .zero => some 0
  | .dimension d => some (dimLength sizes d)
  | .percentage p => some (p * base)
  | .number v => some v
  | _ => none

/-- `apply.rs` 465-473 `dimension_length`. -/
def dimensionLength (sizes : Sizes) : ComputedValue → Option Rat
  | .zero => some 0
  | .dimension d => some (dimLength sizes d)
  | .number v => some v
  | _ => none

/-- `apply.rs` 490-502 `dimension` and 529-544 `lengthp_auto`. -/
def lengthpAuto (sizes : Sizes) : ComputedValue → Option LengthPA
  | .zero => some (.length 0)
  | .dimension d => some (.length (dimLength sizes d))
  | .percentage p => some (.percent p)
  | .keyword k => if k = "auto" then some .auto else none
  | _ => none

/-- `apply.rs` 504-514 `length`. -/
def lengthOf (sizes : Sizes) : ComputedValue → Option Length
  | .dimension d => some (.number (dimLength sizes d))
  | .percentage p => some (.percent p)
  | _ => none

/-- `apply.rs` 516-527 `lengthp`. -/
def lengthp (sizes : Sizes) : ComputedValue → Option LengthP
  | .zero => some (.length 0)
  | .dimension d => some (.length (dimLength sizes d))
  | .percentage p => some (.percent p)
  | _ => none

/-- An arm for keywords only. -/
def keywordIn {α} (table : List (String × α)) : ComputedValue → Option α
  | .keyword k => (table.find? (·.1 == k)).map (·.2)
  | _ => none

/-- An arm for numbers only. -/
def numberOnly : ComputedValue → Option Rat
  | .number v => some v
  | _ => none

/-- An arm for times only. -/
def timeOnly : ComputedValue → Option Rat
  | .time v => some v
  | _ => none

/-- An arm for any keyword. -/
def anyKeyword : ComputedValue → Option String
  | .keyword k => some k
  | _ => none

/-- `apply.rs` 546-556 `resolve_overflow`. -/
def overflowWords : List (String × Overflow) :=
  [("visible", .visible), ("hidden", .hidden), ("clip", .clip), ("scroll", .scroll), ("auto", .scroll)]

/-- `apply.rs` 558-571 `map_align_items`. -/
def alignItemsWords : List (String × Option AlignItems) :=
  [("normal", none), ("start", some .start), ("end", some .end), ("flex-start", some .flexStart), ("flex-end", some .flexEnd),
   ("center", some .center), ("baseline", some .baseline), ("stretch", some .stretch)]

/-- `apply.rs` 573-588 `map_align_content`. -/
def alignContentWords : List (String × Option AlignContent) :=
  [("normal", none), ("start", some .start), ("end", some .end), ("flex-start", some .flexStart), ("flex-end", some .flexEnd),
   ("center", some .center), ("stretch", some .stretch), ("space-between", some .spaceBetween), ("space-evenly", some .spaceEvenly),
   ("space-around", some .spaceAround)]

/-! ## Where they are written -/

/-- The corners of a box, in the order of `borders.radius`. -/
inductive Corner where
  | topLeft | topRight | bottomRight | bottomLeft
deriving DecidableEq, Repr

/-- `element.borders.<side>`. -/
def Borders.side (b : Borders) : Side → Border
  | .top => b.top
  | .right => b.right
  | .bottom => b.bottom
  | .left => b.left

/-- Update of `element.borders.<side>`. -/
def Borders.update (b : Borders) (f : Border → Border) : Side → Borders
  | .top => { b with top := f b.top }
  | .right => { b with right := f b.right }
  | .bottom => { b with bottom := f b.bottom }
  | .left => { b with left := f b.left }

/-- `element.borders.radius[i]`. -/
def Borders.radius (b : Borders) : Corner → Length
  | .topLeft => b.radiusTL
  | .topRight => b.radiusTR
  | .bottomRight => b.radiusBR
  | .bottomLeft => b.radiusBL

/-- Assignment to `element.borders.radius[i]`. -/
def Borders.setRadius (b : Borders) (v : Length) : Corner → Borders
  | .topLeft => { b with radiusTL := v }
  | .topRight => { b with radiusTR := v }
  | .bottomRight => { b with radiusBR := v }
  | .bottomLeft => { b with radiusBL := v }

/-- Assignments to plain fields of an element (`apply.rs` 27, 54-153). -/
inductive ElementAssign where
  | opacity (v : Rat) | color (v : Rgba) | fontSize (v : Rat) | fontWeight (v : Nat) | fontFamily (v : String) | fontStyle (v : String)
  | textAlign (v : TextAlign) | pointerEvents (v : PointerEvents) | pointer (v : Pointer) | visible (v : Bool)
deriving DecidableEq

/-- The assignment. -/
def ElementAssign.write (e : Element) : ElementAssign → Element
  | .opacity v => { e with selfOpacity := v }
  | .color v => { e with color := v }
  | .fontSize v => { e with font := { e.font with size := v } }
  | .fontWeight v => { e with font := { e.font with weight := v } }
  | .fontFamily v => { e with font := { e.font with family := v } }
  | .fontStyle v => { e with font := { e.font with style := v } }
  | .textAlign v => { e with font := { e.font with align := v } }
  | .pointerEvents v => { e with pointerEvents := v }
  | .pointer v => { e with pointer := v }
  | .visible v => { e with visible := v }

/-- Assignments to a background (`apply.rs` 28-53); `pad` is the effect of `get_background_mut` alone. -/
inductive BackgroundAssign where
  | color (v : Rgba) | image (v : Option String) | x (v : Rat) | y (v : Rat) | pad
deriving DecidableEq

/-- The assignment. -/
def BackgroundAssign.write (b : Background) : BackgroundAssign → Background
  | .color v => { b with color := v }
  | .image v => { b with image := v }
  | .x v => { b with srcX := v }
  | .y v => { b with srcY := v }
  | .pad => b

/-- Assignments to a transition (`apply.rs` 247-263). -/
inductive TransitionAssign where
  | key (v : PropertyKey) | duration (v : Rat) | delay (v : Rat) | timing (v : TimingFunction)
deriving DecidableEq

/-- The assignment. -/
def TransitionAssign.write (t : Transition) : TransitionAssign → Transition
  | .key v => { t with key := some v }
  | .duration v => { t with animator := { t.animator with duration := v } }
  | .delay v => { t with animator := { t.animator with delay := v } }
  | .timing v => { t with animator := { t.animator with timing := v } }

/-- Assignments to an animator (`apply.rs` 267-307). -/
inductive AnimatorAssign where
  | name (v : String) | delay (v : Rat) | direction (v : AnimationDirection) | duration (v : Rat) | fillMode (v : AnimationFillMode)
  | iterations (v : AnimationIterations) | running (v : Bool) | timing (v : TimingFunction)
deriving DecidableEq

/-- The assignment. -/
def AnimatorAssign.write (a : Animator) : AnimatorAssign → Animator
  | .name v => { a with name := v }
  | .delay v => { a with delay := v }
  | .direction v => { a with direction := v }
  | .duration v => { a with duration := v }
  | .fillMode v => { a with fillMode := v }
  | .iterations v => { a with iterations := v }
  | .running v => { a with running := v }
  | .timing v => { a with timing := v }

/-- Assignments to the layout style (`apply.rs` 157-243). -/
inductive LayoutAssign where
  | boxSizing (v : BoxSizing) | margin (s : Side) (v : LengthPA) | padding (s : Side) (v : LengthP) | display (v : Display)
  | overflowX (v : Overflow) | overflowY (v : Overflow) | position (v : Position) | inset (s : Side) (v : LengthPA)
  | width (v : LengthPA) | height (v : LengthPA) | minWidth (v : LengthPA) | minHeight (v : LengthPA) | maxWidth (v : LengthPA)
  | maxHeight (v : LengthPA) | alignContent (v : Option AlignContent) | alignItems (v : Option AlignItems)
  | alignSelf (v : Option AlignItems) | justifyContent (v : Option AlignContent) | justifyItems (v : Option AlignItems)
  | justifySelf (v : Option AlignItems) | flexDirection (v : FlexDirection) | flexWrap (v : FlexWrap) | flexBasis (v : LengthPA)
  | flexGrow (v : Rat) | flexShrink (v : Rat) | columnGap (v : LengthP) | rowGap (v : LengthP)
deriving DecidableEq

/-- The assignment. -/
def LayoutAssign.write (l : LayoutStyle) : LayoutAssign → LayoutStyle
  | .boxSizing v => { l with boxSizing := v }
  | .margin s v => { l with margin := l.margin.set s v }
  | .padding s v => { l with padding := l.padding.set s v }
  | .display v => { l with display := v }
  | .overflowX v => { l with overflowX := v }
  | .overflowY v => { l with overflowY := v }
  | .position v => { l with position := v }
  | .inset s v => { l with inset := l.inset.set s v }
  | .width v => { l with width := v }
  | .height v => { l with height := v }
  | .minWidth v => { l with minWidth := v }
  | .minHeight v => { l with minHeight := v }
  | .maxWidth v => { l with maxWidth := v }
  | .maxHeight v => { l with maxHeight := v }
  | .alignContent v => { l with alignContent := v }
  | .alignItems v => { l with alignItems := v }
  | .alignSelf v => { l with alignSelf := v }
  | .justifyContent v => { l with justifyContent := v }
  | .justifyItems v => { l with justifyItems := v }
  | .justifySelf v => { l with justifySelf := v }
  | .flexDirection v => { l with flexDirection := v }
  | .flexWrap v => { l with flexWrap := v }
  | .flexBasis v => { l with flexBasis := v }
  | .flexGrow v => { l with flexGrow := v }
  | .flexShrink v => { l with flexShrink := v }
  | .columnGap v => { l with gapWidth := v }
  | .rowGap v => { l with gapHeight := v }

/-- All assignments. -/
inductive Assign where
  | nothing
  | element (a : ElementAssign)
  | background (a : BackgroundAssign)
  | borderWidth (s : Side) (v : Rat)
  | borderColor (s : Side) (v : Rgba)
  | radius (c : Corner) (v : Length)
  | layout (a : LayoutAssign)
  | transition (a : TransitionAssign)
  | animator (a : AnimatorAssign)
deriving DecidableEq

/-- The assignment, for the value number `index` of its property. -/
def Assign.write (index : Nat) (l : LayoutStyle) (e : Element) : Assign → LayoutStyle × Element
  | .nothing => (l, e)
  | .element a => (l, a.write e)
  | .background a => (l, { e with backgrounds := updateAt e.backgrounds index {} fun b => a.write b })
  | .borderWidth s v =>
    ({ l with border := l.border.set s (.length v) }, { e with borders := e.borders.update (fun b => { b with width := v }) s })
  | .borderColor s v => (l, { e with borders := e.borders.update (fun b => { b with color := v }) s })
  | .radius c v => (l, { e with borders := e.borders.setRadius v c })
  | .layout a => (a.write l, e)
  | .transition a => (l, { e with transitions := updateAt e.transitions index {} fun t => a.write t })
  | .animator a => (l, { e with animators := updateAt e.animators index {} fun t => a.write t })

/-- An arm: what to do with a value, and whether it is an error. -/
def arm {α} (resolve : ComputedValue → Option α) (f : α → Assign) (v : ComputedValue) : Assign × Bool :=
  match resolve v with
  | some a => (f a, true)
  | none => (.nothing, false)

/-- An arm of the backgrounds that first makes the background and then looks at the value (`apply.rs` 28-31,
44-53). -/
def bgArm {α} (resolve : ComputedValue → Option α) (f : α → BackgroundAssign) (v : ComputedValue) : Assign × Bool :=
  match resolve v with
  | some a => (.background (f a), true)
  | none => (.background .pad, false)

/-- `apply.rs` 32-43: the image of a background. -/
def resolveImage : ComputedValue → Option (Option String)
  | .keyword k => if k = "none" then some none else none
  | .str v => some (some v)
  | _ => none

/-- The arms of `apply` (`apply.rs` 19-308), by property. -/
def arms (sizes : Sizes) : List (PropertyKey × (ComputedValue → Assign × Bool)) :=
  [(.Outline, fun _ => (.nothing, true)),
   (.Opacity, arm resolveAlpha fun v => .element (.opacity v)),
   (.BackgroundColor, bgArm (resolveColor sizes) fun v => .color v),
   (.BackgroundImage, arm resolveImage fun v => .background (.image v)),
   (.BackgroundPositionX, bgArm (resolveLength sizes 0) fun v => .x (-v)),
   (.BackgroundPositionY, bgArm (resolveLength sizes 0) fun v => .y (-v)),
   (.Color, arm (resolveColor sizes) fun v => .element (.color v)),
   (.FontSize, arm (resolveLength sizes sizes.parentFontSize) fun v => .element (.fontSize v)),
   (.FontWeight, arm resolveFontWeight fun v => .element (.fontWeight v)),
   (.FontFamily, arm resolveString fun v => .element (.fontFamily v)),
   (.FontStyle, arm (keywordIn [("normal", "normal"), ("italic", "italic"), ("oblique", "oblique")]) fun v => .element (.fontStyle v)),
   (.TextAlign, arm (keywordIn [("start", TextAlign.start), ("end", .end), ("left", .left), ("right", .right), ("center", .center),
      ("justify", .justify), ("justify-all", .justifyAll), ("match-parent", .matchParent)]) fun v => .element (.textAlign v)),
   (.PointerEvents, arm (keywordIn [("auto", PointerEvents.auto), ("none", .none)]) fun v => .element (.pointerEvents v)),
   (.Cursor, arm (keywordIn [("auto", Pointer.auto), ("default", .default), ("pointer", .pointer), ("context-menu", .contextMenu),
      ("help", .help), ("progress", .progress), ("wait", .wait), ("text", .text), ("not-allowed", .notAllowed)]) fun v => .element (.pointer v)),
   (.Visibility, arm (keywordIn [("visible", true), ("hidden", false)]) fun v => .element (.visible v)),
   (.BorderTopWidth, arm (dimensionLength sizes) fun v => .borderWidth .top v),
   (.BorderRightWidth, arm (dimensionLength sizes) fun v => .borderWidth .right v),
   (.BorderBottomWidth, arm (dimensionLength sizes) fun v => .borderWidth .bottom v),
   (.BorderLeftWidth, arm (dimensionLength sizes) fun v => .borderWidth .left v),
   (.BorderTopColor, arm (resolveColor sizes) fun v => .borderColor .top v),
   (.BorderRightColor, arm (resolveColor sizes) fun v => .borderColor .right v),
   (.BorderBottomColor, arm (resolveColor sizes) fun v => .borderColor .bottom v),
   (.BorderLeftColor, arm (resolveColor sizes) fun v => .borderColor .left v),
   (.BorderTopLeftRadius, arm (lengthOf sizes) fun v => .radius .topLeft v),
   (.BorderTopRightRadius, arm (lengthOf sizes) fun v => .radius .topRight v),
   (.BorderBottomRightRadius, arm (lengthOf sizes) fun v => .radius .bottomRight v),
   (.BorderBottomLeftRadius, arm (lengthOf sizes) fun v => .radius .bottomLeft v),
   (.BoxSizing, arm (keywordIn [("border-box", BoxSizing.borderBox), ("content-box", .contentBox)]) fun v => .layout (.boxSizing v)),
   (.MarginTop, arm (lengthpAuto sizes) fun v => .layout (.margin .top v)),
   (.MarginRight, arm (lengthpAuto sizes) fun v => .layout (.margin .right v)),
   (.MarginBottom, arm (lengthpAuto sizes) fun v => .layout (.margin .bottom v)),
   (.MarginLeft, arm (lengthpAuto sizes) fun v => .layout (.margin .left v)),
   (.PaddingTop, arm (lengthp sizes) fun v => .layout (.padding .top v)),
   (.PaddingRight, arm (lengthp sizes) fun v => .layout (.padding .right v)),
   (.PaddingBottom, arm (lengthp sizes) fun v => .layout (.padding .bottom v)),
   (.PaddingLeft, arm (lengthp sizes) fun v => .layout (.padding .left v)),
   (.Display, arm (keywordIn [("flow", Display.block), ("block", .block), ("flex", .flex), ("grid", .grid)]) fun v => .layout (.display v)),
   (.OverflowX, arm (keywordIn overflowWords) fun v => .layout (.overflowX v)),
   (.OverflowY, arm (keywordIn overflowWords) fun v => .layout (.overflowY v)),
   (.Position, arm (keywordIn [("relative", Position.relative), ("absolute", .absolute)]) fun v => .layout (.position v)),
   (.Left, arm (lengthpAuto sizes) fun v => .layout (.inset .left v)),
   (.Right, arm (lengthpAuto sizes) fun v => .layout (.inset .right v)),
   (.Top, arm (lengthpAuto sizes) fun v => .layout (.inset .top v)),
   (.Bottom, arm (lengthpAuto sizes) fun v => .layout (.inset .bottom v)),
   (.Width, arm (lengthpAuto sizes) fun v => .layout (.width v)),
   (.Height, arm (lengthpAuto sizes) fun v => .layout (.height v)),
   (.MinWidth, arm (lengthpAuto sizes) fun v => .layout (.minWidth v)),
   (.MinHeight, arm (lengthpAuto sizes) fun v => .layout (.minHeight v)),
   (.MaxWidth, arm (lengthpAuto sizes) fun v => .layout (.maxWidth v)),
   (.MaxHeight, arm (lengthpAuto sizes) fun v => .layout (.maxHeight v)),
   (.AlignContent, arm (keywordIn alignContentWords) fun v => .layout (.alignContent v)),
   (.AlignItems, arm (keywordIn alignItemsWords) fun v => .layout (.alignItems v)),
   (.AlignSelf, arm (keywordIn alignItemsWords) fun v => .layout (.alignSelf v)),
   (.JustifyContent, arm (keywordIn alignContentWords) fun v => .layout (.justifyContent v)),
   (.JustifyItems, arm (keywordIn alignItemsWords) fun v => .layout (.justifyItems v)),
   (.JustifySelf, arm (keywordIn alignItemsWords) fun v => .layout (.justifySelf v)),
   (.FlexDirection, arm (keywordIn [("row", FlexDirection.row), ("row-reverse", .rowReverse), ("column", .column),
      ("column-reverse", .columnReverse)]) fun v => .layout (.flexDirection v)),
   (.FlexWrap, arm (keywordIn [("wrap", FlexWrap.wrap), ("nowrap", .noWrap), ("wrap-reverse", .wrapReverse)]) fun v => .layout (.flexWrap v)),
   (.FlexBasis, arm (lengthpAuto sizes) fun v => .layout (.flexBasis v)),
   (.FlexGrow, arm numberOnly fun v => .layout (.flexGrow v)),
   (.FlexShrink, arm numberOnly fun v => .layout (.flexShrink v)),
   (.ColumnGap, arm (lengthp sizes) fun v => .layout (.columnGap v)),
   (.RowGap, arm (lengthp sizes) fun v => .layout (.rowGap v)),
   (.TransitionProperty, arm (fun v => (anyKeyword v).bind PropertyKey.parse) fun v => .transition (.key v)),
   (.TransitionDuration, arm timeOnly fun v => .transition (.duration v)),
   (.TransitionDelay, arm timeOnly fun v => .transition (.delay v)),
   (.TransitionTimingFunction, arm resolveTiming fun v => .transition (.timing v)),
   (.AnimationName, arm anyKeyword fun v => .animator (.name v)),
   (.AnimationDelay, arm timeOnly fun v => .animator (.delay v)),
   (.AnimationDirection, arm (keywordIn [("normal", AnimationDirection.normal), ("reverse", .reverse), ("alternate", .alternate),
      ("alternate-reverse", .alternateReverse)]) fun v => .animator (.direction v)),
   (.AnimationDuration, arm timeOnly fun v => .animator (.duration v)),
   (.AnimationFillMode, arm (keywordIn [("none", AnimationFillMode.none), ("forwards", .forwards), ("backwards", .backwards),
      ("both", .both)]) fun v => .animator (.fillMode v)),
   (.AnimationIterationCount, arm resolveIterations fun v => .animator (.iterations v)),
   (.AnimationPlayState, arm (keywordIn [("running", true), ("paused", false)]) fun v => .animator (.running v)),
   (.AnimationTimingFunction, arm resolveTiming fun v => .animator (.timing v))]

/-- `apply.rs` 11-310 `apply`: what is to be assigned, and whether it succeeds; a property without an arm is an
error. -/
def assignment (sizes : Sizes) (key : PropertyKey) (value : ComputedValue) : Assign × Bool :=
  match (arms sizes).find? (·.1 == key) with
  | some x => x.2 value
  | none => (.nothing, false)

/-- `apply.rs` 11-310 `apply`; the error is only logged (`styles/mod.rs` 116-123). -/
def applyValue (sizes : Sizes) (d : Descriptor) (value : ComputedValue) (s : LayoutStyle × Element) : LayoutStyle × Element :=
  (assignment sizes d.key value).1.write d.index s.1 s.2

/-- `styles/mod.rs` 116-123: all computed values, in the order in which the hash map is iterated. -/
def applyAll (sizes : Sizes) : ComputedStyle → LayoutStyle × Element → LayoutStyle × Element
  | [], s => s
  | (d, v) :: l, s => applyAll sizes l (applyValue sizes d v s)

/-- `default.rs` 10-31 `reset_element_style`. -/
def Element.reset (e : Element) : Element :=
  { e with backgrounds := [], borders := {}, color := ⟨0, 0, 0, 255⟩, font := {}, selfOpacity := 1 }

/-- `inherit.rs` 3-51 `inherit`. -/
def Element.inherit (parent e : Element) : Element :=
  { e with
    color := parent.color
    font := { e.font with family := parent.font.family, size := parent.font.size, style := parent.font.style,
                          weight := parent.font.weight, lineHeight := parent.font.lineHeight }
    pointerEvents := parent.pointerEvents }

end Verif
