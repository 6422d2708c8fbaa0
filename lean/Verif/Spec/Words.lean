import Verif.Css.Apply
/-!
# What CSS words mean (for C72)

Tables of the keywords of the supported properties: `(property, [(word, what stands in the styled element)])`.
-/
namespace Verif

/-- A place of the styled element, and what the words put there. -/
def put {α : Type} (get : LayoutStyle → Element → α) (table : List (String × α)) : List (String × (LayoutStyle → Element → Prop)) :=
  table.map fun x => (x.1, fun l e => get l e = x.2)

/-- How items are aligned in the cross axis or in their area. -/
def alignment : List (String × Option AlignItems) :=
  [("start", some .start), ("end", some .end), ("flex-start", some .flexStart), ("flex-end", some .flexEnd), ("center", some .center),
   ("baseline", some .baseline), ("stretch", some .stretch), ("normal", none)]

/-- How content is distributed. -/
def distribution : List (String × Option AlignContent) :=
  [("start", some .start), ("end", some .end), ("flex-start", some .flexStart), ("flex-end", some .flexEnd), ("center", some .center),
   ("stretch", some .stretch), ("space-between", some .spaceBetween), ("space-around", some .spaceAround), ("space-evenly", some .spaceEvenly),
   ("normal", none)]

/-- What happens to content that does not fit. -/
def overflowing : List (String × Overflow) :=
  [("visible", .visible), ("clip", .clip), ("hidden", .hidden), ("scroll", .scroll), ("auto", .scroll)]

/-- The words of the properties that take words. -/
def wordTable : List (PropertyKey × List (String × (LayoutStyle → Element → Prop))) :=
  [(.Display, put (fun l _ => l.display) [("block", .block), ("flex", .flex), ("grid", .grid), ("flow", .block)]),
   (.Position, put (fun l _ => l.position) [("relative", .relative), ("absolute", .absolute)]),
   (.BoxSizing, put (fun l _ => l.boxSizing) [("border-box", .borderBox), ("content-box", .contentBox)]),
   (.OverflowX, put (fun l _ => l.overflowX) overflowing),
   (.OverflowY, put (fun l _ => l.overflowY) overflowing),
   (.FlexDirection, put (fun l _ => l.flexDirection) [("row", .row), ("row-reverse", .rowReverse), ("column", .column), ("column-reverse", .columnReverse)]),
   (.FlexWrap, put (fun l _ => l.flexWrap) [("nowrap", .noWrap), ("wrap", .wrap), ("wrap-reverse", .wrapReverse)]),
   (.AlignItems, put (fun l _ => l.alignItems) alignment),
   (.AlignSelf, put (fun l _ => l.alignSelf) alignment),
   (.JustifyItems, put (fun l _ => l.justifyItems) alignment),
   (.JustifySelf, put (fun l _ => l.justifySelf) alignment),
   (.AlignContent, put (fun l _ => l.alignContent) distribution),
   (.JustifyContent, put (fun l _ => l.justifyContent) distribution),
   (.Visibility, put (fun _ e => e.visible) [("visible", true), ("hidden", false)]),
   (.PointerEvents, put (fun _ e => e.pointerEvents) [("auto", .auto), ("none", .none)]),
   (.Cursor, put (fun _ e => e.pointer) [("auto", .auto), ("default", .default), ("pointer", .pointer), ("context-menu", .contextMenu),
     ("help", .help), ("progress", .progress), ("wait", .wait), ("text", .text), ("not-allowed", .notAllowed)]),
   (.TextAlign, put (fun _ e => e.font.align) [("start", .start), ("end", .end), ("left", .left), ("right", .right), ("center", .center),
     ("justify", .justify), ("justify-all", .justifyAll), ("match-parent", .matchParent)]),
   (.FontStyle, put (fun _ e => e.font.style) [("normal", "normal"), ("italic", "italic"), ("oblique", "oblique")]),
   (.FontWeight, put (fun _ e => e.font.weight) [("normal", 400), ("bold", 700)])]

/-- The colours with a name, as CSS defines them. -/
def colourNames : List (String × Rgba) :=
  [("black", ⟨0, 0, 0, 255⟩), ("white", ⟨255, 255, 255, 255⟩), ("red", ⟨255, 0, 0, 255⟩), ("blue", ⟨0, 0, 255, 255⟩),
   ("green", ⟨0, 128, 0, 255⟩), ("transparent", ⟨0, 0, 0, 0⟩)]

/-- Where colours stand: `get e i` is the colour of the `i`-th value of the property. -/
def colourPlaces : List (PropertyKey × (Element → Nat → Option Rgba)) :=
  [(.Color, fun e _ => some e.color),
   (.BackgroundColor, fun e i => (e.backgrounds[i]?).map (·.color)),
   (.BorderTopColor, fun e _ => some e.borders.top.color),
   (.BorderRightColor, fun e _ => some e.borders.right.color),
   (.BorderBottomColor, fun e _ => some e.borders.bottom.color),
   (.BorderLeftColor, fun e _ => some e.borders.left.color)]

/-- Where the radii of the corners stand. -/
def radiusPlaces : List (PropertyKey × (Element → Length)) :=
  [(.BorderTopLeftRadius, fun e => e.borders.radiusTL), (.BorderTopRightRadius, fun e => e.borders.radiusTR),
   (.BorderBottomRightRadius, fun e => e.borders.radiusBR), (.BorderBottomLeftRadius, fun e => e.borders.radiusBL)]

end Verif
