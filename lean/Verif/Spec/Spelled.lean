import Verif.Spec.Useless
import Mathlib.Data.List.Forall2
/-!
# Specification vocabulary for C112: shorthands written out
-/
namespace Verif

/-- The values of four sides, clockwise from the top, that one to four values stand for. -/
inductive FourSides {α : Type} : List α → α → α → α → α → Prop
  | one (v) : FourSides [v] v v v v
  | two (v h) : FourSides [v, h] v h v h
  | three (t h b) : FourSides [t, h, b] t h b h
  | four (t r b l) : FourSides [t, r, b, l] t r b l

/-- Shorthands for four sides (or corners). -/
inductive BoxShorthand : PropertyKey → PropertyKey → PropertyKey → PropertyKey → PropertyKey → Prop
  | padding : BoxShorthand .Padding .PaddingTop .PaddingRight .PaddingBottom .PaddingLeft
  | margin : BoxShorthand .Margin .MarginTop .MarginRight .MarginBottom .MarginLeft
  | borderWidth : BoxShorthand .BorderWidth .BorderTopWidth .BorderRightWidth .BorderBottomWidth .BorderLeftWidth
  | borderColor : BoxShorthand .BorderColor .BorderTopColor .BorderRightColor .BorderBottomColor .BorderLeftColor
  | borderRadius : BoxShorthand .BorderRadius .BorderTopLeftRadius .BorderTopRightRadius .BorderBottomRightRadius .BorderBottomLeftRadius

/-- Shorthands for two axes. -/
inductive AxesShorthand : PropertyKey → PropertyKey → PropertyKey → Prop
  | overflow : AxesShorthand .Overflow .OverflowX .OverflowY
  | backgroundPosition : AxesShorthand .BackgroundPosition .BackgroundPositionX .BackgroundPositionY

/-- Shorthands for one side of the border. -/
inductive SideShorthand : PropertyKey → PropertyKey → PropertyKey → Prop
  | top : SideShorthand .BorderTop .BorderTopWidth .BorderTopColor
  | right : SideShorthand .BorderRight .BorderRightWidth .BorderRightColor
  | bottom : SideShorthand .BorderBottom .BorderBottomWidth .BorderBottomColor
  | left : SideShorthand .BorderLeft .BorderLeftWidth .BorderLeftColor

/-- `key: words;`. -/
def declare (key : PropertyKey) (words : List ComputedValue) : Declaration := .property key [words.map .explicit]

/-- What a shorthand stands for. -/
inductive StandsFor : Declaration → List Declaration → Prop
  | box {key a b c d words t r o l} : BoxShorthand key a b c d → FourSides words t r o l →
      StandsFor (declare key words) [declare a [t], declare b [r], declare c [o], declare d [l]]
  | axis {key x y} (v) : AxesShorthand key x y → StandsFor (declare key [v]) [declare x [v], declare y [v]]
  | axes {key x y} (v w) : AxesShorthand key x y → StandsFor (declare key [v, w]) [declare x [v], declare y [w]]
  | side {key width color} (w s c) : SideShorthand key width color → StandsFor (declare key [w, s, c]) [declare width [w], declare color [c]]
  | border (w s c) : StandsFor (declare .Border [w, s, c])
      [declare .BorderTop [w, s, c], declare .BorderRight [w, s, c], declare .BorderBottom [w, s, c], declare .BorderLeft [w, s, c]]
  | inset (v) : StandsFor (declare .Inset [v]) [declare .Top [v], declare .Right [v], declare .Bottom [v], declare .Left [v]]
  | insets (t r b l) : StandsFor (declare .Inset [t, r, b, l]) [declare .Top [t], declare .Right [r], declare .Bottom [b], declare .Left [l]]
  | gap (v) : StandsFor (declare .Gap [v]) [declare .RowGap [v], declare .ColumnGap [v]]
  | background (c) : StandsFor (declare .Background [c]) [declare .BackgroundImage [.keyword "none"], declare .BackgroundColor [c]]
  | transition (p d) : StandsFor (declare .Transition [p, d]) [declare .TransitionProperty [p], declare .TransitionDuration [d]]

/-- `l'` is `l` with shorthands written out. -/
inductive WrittenOut : List Declaration → List Declaration → Prop
  | nil : WrittenOut [] []
  | same {d l l'} : WrittenOut l l' → WrittenOut (d :: l) (d :: l')
  | out {d ds l l'} : StandsFor d ds → WrittenOut l l' → WrittenOut (d :: l) (ds ++ l')

/-- The same rule with shorthands written out. -/
structure Style.WrittenOut (s s' : Style) : Prop where
  selectors : s'.selectors = s.selectors
  declaration : Verif.WrittenOut s.declaration s'.declaration

end Verif
