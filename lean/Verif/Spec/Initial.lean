import Verif.Css.Apply
import Verif.Css.Initial
/-!
# Specification vocabulary for C98: initial values
-/
namespace Verif

/-- The properties the crate can display. -/
def displayedKeys : List PropertyKey :=
  [.Opacity, .BackgroundColor, .BackgroundImage, .BackgroundPositionX, .BackgroundPositionY, .Color, .FontSize, .FontWeight, .FontFamily, .FontStyle,
   .TextAlign, .PointerEvents, .Cursor, .Visibility, .BorderTopWidth, .BorderRightWidth, .BorderBottomWidth, .BorderLeftWidth, .BorderTopColor,
   .BorderRightColor, .BorderBottomColor, .BorderLeftColor, .BorderTopLeftRadius, .BorderTopRightRadius, .BorderBottomRightRadius,
   .BorderBottomLeftRadius, .BoxSizing, .MarginTop, .MarginRight, .MarginBottom, .MarginLeft, .PaddingTop, .PaddingRight, .PaddingBottom, .PaddingLeft,
   .Display, .OverflowX, .OverflowY, .Position, .Left, .Right, .Top, .Bottom, .Width, .Height, .MinWidth, .MinHeight, .MaxWidth, .MaxHeight,
   .AlignContent, .AlignItems, .AlignSelf, .JustifyContent, .JustifyItems, .JustifySelf, .FlexDirection, .FlexWrap, .FlexBasis, .FlexGrow, .FlexShrink,
   .ColumnGap, .RowGap]

/-- The properties that set up animations and transitions. -/
def playedKeys : List PropertyKey :=
  [.TransitionProperty, .TransitionDuration, .TransitionDelay, .TransitionTimingFunction, .AnimationName, .AnimationDelay, .AnimationDirection,
   .AnimationDuration, .AnimationFillMode, .AnimationIterationCount, .AnimationPlayState, .AnimationTimingFunction]

/-- An element for which nothing is declared: some of its style is that of the element it is in. -/
structure Undeclared (parent e : Element) : Prop where
  backgrounds : e.backgrounds = []
  borders : e.borders = {}
  color : e.color = parent.color
  family : e.font.family = parent.font.family
  size : e.font.size = parent.font.size
  style : e.font.style = parent.font.style
  weight : e.font.weight = parent.font.weight
  lineHeight : e.font.lineHeight = parent.font.lineHeight
  align : e.font.align = .start
  opacity : e.selfOpacity = 1
  pointerEvents : e.pointerEvents = parent.pointerEvents
  pointer : e.pointer = .auto
  visible : e.visible = true

/-- Two elements that are the same but for backgrounds, of which the second has only blank ones. -/
def SameBut (e e' : Element) : Prop := { e' with backgrounds := e.backgrounds } = e ∧ ∀ b ∈ e'.backgrounds, b = {}

/-- What CSS lets an element have from the element it is in, and the initial value of it, where that is not the same. -/
structure Neutral (parent : Element) (key : PropertyKey) : Prop where
  box : key ≠ .BoxSizing
  border : key ∈ [PropertyKey.BorderTopColor, .BorderRightColor, .BorderBottomColor, .BorderLeftColor] → parent.color = ⟨0, 0, 0, 0⟩
  size : key = .FontSize → parent.font.size = 16
  weight : key = .FontWeight → parent.font.weight = 400
  style : key = .FontStyle → parent.font.style = "normal"
  pointerEvents : key = .PointerEvents → parent.pointerEvents = .auto

end Verif
