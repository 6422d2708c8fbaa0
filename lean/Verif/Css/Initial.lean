import Verif.Css.Types
/-!
# Initial values (`src/styles/initial.rs`), generated from the source
-/
namespace Verif

/-- `styles/initial.rs` 5-311: the arms of `initial`. -/
def initialTable : List (PropertyKey × ComputedValue) :=
  [(.AccentColor, .keyword "auto"),
   (.AlignContent, .keyword "normal"),
   (.AlignItems, .keyword "normal"),
   (.AlignSelf, .keyword "auto"),
   (.AlignmentBaseline, .keyword "auto"),
   (.AnchorName, .keyword "none"),
   (.AnimationComposition, .keyword "replace"),
   (.AnimationDelay, .time 0),
   (.AnimationDirection, .keyword "normal"),
   (.AnimationDuration, .time 0),
   (.AnimationFillMode, .keyword "none"),
   (.AnimationIterationCount, .number 1),
   (.AnimationName, .keyword "none"),
   (.AnimationPlayState, .keyword "running"),
   (.AnimationRangeEnd, .keyword "normal"),
   (.AnimationRangeStart, .keyword "normal"),
   (.AnimationTimeline, .keyword "auto"),
   (.AnimationTimingFunction, .keyword "ease"),
   (.Appearance, .keyword "none"),
   (.AspectRatio, .keyword "auto"),
   (.BackfaceVisibility, .keyword "visible"),
   (.BackgroundAttachment, .keyword "scroll"),
   (.BackgroundBlendMode, .keyword "normal"),
   (.BackgroundClip, .keyword "border-box"),
   (.BackgroundColor, .color ⟨0, 0, 0, 0⟩),
   (.BackgroundImage, .keyword "none"),
   (.BackgroundOrigin, .keyword "padding-box"),
   (.BackgroundPositionX, .percentage 0),
   (.BackgroundPositionY, .percentage 0),
   (.BackgroundRepeat, .keyword "repeat"),
   (.BackgroundSize, .keyword "auto"),
   (.BorderBottomColor, .keyword "currentColor"),
   (.BorderBottomLeftRadius, .zero),
   (.BorderBottomRightRadius, .zero),
   (.BorderBottomStyle, .keyword "none"),
   (.BorderBottomWidth, .keyword "medium"),
   (.BorderCollapse, .keyword "separate"),
   (.BorderLeftColor, .keyword "currentColor"),
   (.BorderLeftStyle, .keyword "none"),
   (.BorderLeftWidth, .keyword "medium"),
   (.BorderRightColor, .keyword "currentColor"),
   (.BorderRightStyle, .keyword "none"),
   (.BorderRightWidth, .keyword "medium"),
   (.BorderSpacing, .zero),
   (.BorderTopColor, .keyword "currentColor"),
   (.BorderTopLeftRadius, .zero),
   (.BorderTopRightRadius, .zero),
   (.BorderTopStyle, .keyword "none"),
   (.BorderTopWidth, .keyword "medium"),
   (.Bottom, .keyword "auto"),
   (.BoxShadow, .keyword "none"),
   (.BoxSizing, .keyword "content-box"),
   (.BreakAfter, .keyword "auto"),
   (.BreakBefore, .keyword "auto"),
   (.BreakInside, .keyword "auto"),
   (.CaptionSide, .keyword "top"),
   (.CaretColor, .keyword "auto"),
   (.Clear, .keyword "none"),
   (.ClipPath, .keyword "none"),
   (.Color, .keyword "currentColor"),
   (.ColorScheme, .keyword "normal"),
   (.ColumnCount, .keyword "auto"),
   (.ColumnFill, .keyword "balance"),
   (.ColumnGap, .keyword "normal"),
   (.ColumnRuleColor, .keyword "currentColor"),
   (.ColumnRuleStyle, .keyword "none"),
   (.ColumnRuleWidth, .keyword "medium"),
   (.ColumnSpan, .keyword "none"),
   (.ColumnWidth, .keyword "auto"),
   (.Contain, .keyword "none"),
   (.ContainIntrinsicBlockSize, .keyword "none"),
   (.ContainIntrinsicHeight, .keyword "none"),
   (.ContainIntrinsicInlineSize, .keyword "none"),
   (.ContainIntrinsicSize, .keyword "none"),
   (.ContainIntrinsicWidth, .keyword "none"),
   (.ContainerName, .keyword "none"),
   (.ContainerType, .keyword "normal"),
   (.Content, .keyword "normal"),
   (.ContentVisibility, .keyword "visible"),
   (.CounterIncrement, .keyword "none"),
   (.CounterReset, .keyword "none"),
   (.CounterSet, .keyword "none"),
   (.Cursor, .keyword "auto"),
   (.Direction, .keyword "ltr"),
   (.Display, .keyword "block"),
   (.DominantBaseline, .keyword "auto"),
   (.EmptyCells, .keyword "show"),
   (.FieldSizing, .keyword "fixed"),
   (.FillOpacity, .number 1),
   (.FillRule, .keyword "nonzero"),
   (.Filter, .keyword "none"),
   (.FlexBasis, .keyword "auto"),
   (.FlexDirection, .keyword "row"),
   (.FlexGrow, .zero),
   (.FlexShrink, .number 1),
   (.FlexWrap, .keyword "nowrap"),
   (.Float, .keyword "none"),
   (.FontFamily, .keyword "system-ui"),
   (.FontFeatureSettings, .keyword "normal"),
   (.FontKerning, .keyword "auto"),
   (.FontLanguageOverride, .keyword "normal"),
   (.FontOpticalSizing, .keyword "auto"),
   (.FontPalette, .keyword "normal"),
   (.FontSize, .dimension ⟨16, .px⟩),
   (.FontSizeAdjust, .keyword "none"),
   (.FontStretch, .keyword "normal"),
   (.FontStyle, .keyword "normal"),
   (.FontSynthesisPosition, .keyword "none"),
   (.FontSynthesisSmallCaps, .keyword "auto"),
   (.FontSynthesisStyle, .keyword "auto"),
   (.FontSynthesisWeight, .keyword "auto"),
   (.FontVariant, .keyword "normal"),
   (.FontVariantAlternates, .keyword "normal"),
   (.FontVariantCaps, .keyword "normal"),
   (.FontVariantEastAsian, .keyword "normal"),
   (.FontVariantEmoji, .keyword "normal"),
   (.FontVariantLigatures, .keyword "normal"),
   (.FontVariantNumeric, .keyword "normal"),
   (.FontVariantPosition, .keyword "normal"),
   (.FontVariationSettings, .keyword "normal"),
   (.FontWeight, .keyword "normal"),
   (.ForcedColorAdjust, .keyword "auto"),
   (.GridAutoColumns, .keyword "auto"),
   (.GridAutoFlow, .keyword "row"),
   (.GridAutoRows, .keyword "auto"),
   (.GridColumnEnd, .keyword "auto"),
   (.GridColumnStart, .keyword "auto"),
   (.GridRowEnd, .keyword "auto"),
   (.GridRowStart, .keyword "auto"),
   (.GridTemplateAreas, .keyword "none"),
   (.GridTemplateColumns, .keyword "none"),
   (.GridTemplateRows, .keyword "none"),
   (.HangingPunctuation, .keyword "none"),
   (.Height, .keyword "auto"),
   (.HyphenateCharacter, .keyword "auto"),
   (.HyphenateLimitChars, .keyword "auto"),
   (.Hyphens, .keyword "manual"),
   (.ImageOrientation, .keyword "from-image"),
   (.ImageRendering, .keyword "auto"),
   (.InitialLetter, .keyword "normal"),
   (.InlineSize, .keyword "auto"),
   (.InsetBlockEnd, .keyword "auto"),
   (.InsetBlockStart, .keyword "auto"),
   (.InsetInlineEnd, .keyword "auto"),
   (.InsetInlineStart, .keyword "auto"),
   (.Isolation, .keyword "auto"),
   (.JustifyContent, .keyword "normal"),
   (.JustifyItems, .keyword "legacy"),
   (.JustifySelf, .keyword "auto"),
   (.Left, .keyword "auto"),
   (.LetterSpacing, .keyword "normal"),
   (.LineBreak, .keyword "auto"),
   (.LineHeight, .keyword "normal"),
   (.LineHeightStep, .zero),
   (.MarginBlockEnd, .zero),
   (.MarginBlockStart, .zero),
   (.MarginBottom, .zero),
   (.MarginInlineEnd, .zero),
   (.MarginInlineStart, .zero),
   (.MarginLeft, .zero),
   (.MarginRight, .zero),
   (.MarginTop, .zero),
   (.MarginTrim, .keyword "none"),
   (.MarkerEnd, .keyword "none"),
   (.MarkerMid, .keyword "auto"),
   (.MarkerStart, .keyword "auto"),
   (.MaskBorderMode, .keyword "alpha"),
   (.MaskBorderOutset, .zero),
   (.MaskBorderRepeat, .keyword "stretch"),
   (.MaskBorderSlice, .zero),
   (.MaskBorderSource, .keyword "none"),
   (.MaskBorderWidth, .keyword "auto"),
   (.MaskClip, .keyword "border-box"),
   (.MaskComposite, .keyword "add"),
   (.MaskImage, .keyword "none"),
   (.MaskMode, .keyword "match-source"),
   (.MaskOrigin, .keyword "border-box"),
   (.MaskRepeat, .keyword "repeat"),
   (.MaskSize, .keyword "auto"),
   (.MaskType, .keyword "luminance"),
   (.MaxBlockSize, .keyword "none"),
   (.MaxHeight, .keyword "none"),
   (.MaxInlineSize, .keyword "none"),
   (.MaxWidth, .keyword "none"),
   (.MinBlockSize, .zero),
   (.MinHeight, .keyword "auto"),
   (.MinInlineSize, .zero),
   (.MinWidth, .keyword "auto"),
   (.MixBlendMode, .keyword "normal"),
   (.ObjectFit, .keyword "fill"),
   (.OffsetAnchor, .keyword "auto"),
   (.OffsetDistance, .zero),
   (.OffsetPath, .keyword "none"),
   (.OffsetPosition, .keyword "normal"),
   (.OffsetRotate, .keyword "auto"),
   (.Opacity, .number 1),
   (.Order, .zero),
   (.Orphans, .number 2),
   (.OutlineColor, .keyword "auto"),
   (.OutlineOffset, .zero),
   (.OutlineStyle, .keyword "none"),
   (.OutlineWidth, .keyword "medium"),
   (.OverflowAnchor, .keyword "auto"),
   (.OverflowBlock, .keyword "auto"),
   (.OverflowClipMargin, .dimension ⟨0, .px⟩),
   (.OverflowInline, .keyword "auto"),
   (.OverflowWrap, .keyword "normal"),
   (.OverflowX, .keyword "visible"),
   (.OverflowY, .keyword "visible"),
   (.OverscrollBehavior, .keyword "auto"),
   (.OverscrollBehaviorBlock, .keyword "auto"),
   (.OverscrollBehaviorInline, .keyword "auto"),
   (.OverscrollBehaviorX, .keyword "auto"),
   (.OverscrollBehaviorY, .keyword "auto"),
   (.PaddingBlockEnd, .zero),
   (.PaddingBlockStart, .zero),
   (.PaddingBottom, .zero),
   (.PaddingInlineEnd, .zero),
   (.PaddingInlineStart, .zero),
   (.PaddingLeft, .zero),
   (.PaddingRight, .zero),
   (.PaddingTop, .zero),
   (.PageBreakAfter, .keyword "auto"),
   (.PageBreakBefore, .keyword "auto"),
   (.PageBreakInside, .keyword "auto"),
   (.Perspective, .keyword "none"),
   (.PointerEvents, .keyword "auto"),
   (.Position, .keyword "static"),
   (.PositionAnchor, .keyword "implicit"),
   (.PrintColorAdjust, .keyword "economy"),
   (.Resize, .keyword "none"),
   (.Right, .keyword "auto"),
   (.Rotate, .keyword "none"),
   (.RowGap, .keyword "normal"),
   (.RubyAlign, .keyword "space-around"),
   (.RubyPosition, .keyword "alternate"),
   (.Scale, .keyword "none"),
   (.ScrollBehavior, .keyword "auto"),
   (.ScrollMarginBlockEnd, .zero),
   (.ScrollMarginBlockStart, .zero),
   (.ScrollMarginBottom, .zero),
   (.ScrollMarginInlineEnd, .zero),
   (.ScrollMarginInlineStart, .zero),
   (.ScrollMarginLeft, .zero),
   (.ScrollMarginRight, .zero),
   (.ScrollMarginTop, .zero),
   (.ScrollPaddingBlockEnd, .keyword "auto"),
   (.ScrollPaddingBlockStart, .keyword "auto"),
   (.ScrollPaddingBottom, .keyword "auto"),
   (.ScrollPaddingInlineEnd, .keyword "auto"),
   (.ScrollPaddingInlineStart, .keyword "auto"),
   (.ScrollPaddingLeft, .keyword "auto"),
   (.ScrollPaddingRight, .keyword "auto"),
   (.ScrollPaddingTop, .keyword "auto"),
   (.ScrollSnapAlign, .keyword "none"),
   (.ScrollSnapStop, .keyword "normal"),
   (.ScrollSnapType, .keyword "none"),
   (.ScrollTimelineAxis, .keyword "block"),
   (.ScrollTimelineName, .keyword "none"),
   (.ScrollbarColor, .keyword "auto"),
   (.ScrollbarGutter, .keyword "auto"),
   (.ScrollbarWidth, .keyword "auto"),
   (.ShapeImageThreshold, .number 0),
   (.ShapeMargin, .zero),
   (.ShapeOutside, .keyword "none"),
   (.TabSize, .number 8),
   (.TableLayout, .keyword "auto"),
   (.TextAlign, .keyword "start"),
   (.TextAlignLast, .keyword "auto"),
   (.TextCombineUpright, .keyword "none"),
   (.TextDecorationColor, .keyword "currentColor"),
   (.TextDecorationLine, .keyword "none"),
   (.TextDecorationSkip, .keyword "objects"),
   (.TextDecorationStyle, .keyword "solid"),
   (.TextDecorationThickness, .keyword "auto"),
   (.TextEmphasisColor, .keyword "currentColor"),
   (.TextEmphasisStyle, .keyword "none"),
   (.TextIndent, .zero),
   (.TextJustify, .keyword "auto"),
   (.TextOrientation, .keyword "mixed"),
   (.TextOverflow, .keyword "clip"),
   (.TextShadow, .keyword "none"),
   (.TextSpacingTrim, .keyword "normal"),
   (.TextTransform, .keyword "none"),
   (.TextUnderlineOffset, .keyword "auto"),
   (.TextUnderlinePosition, .keyword "auto"),
   (.TextWrap, .keyword "wrap"),
   (.TextWrapMode, .keyword "wrap"),
   (.TextWrapStyle, .keyword "auto"),
   (.TimelineScope, .keyword "none"),
   (.Top, .keyword "auto"),
   (.TransformBox, .keyword "view-box"),
   (.TransformStyle, .keyword "flat"),
   (.Translate, .keyword "none"),
   (.UnicodeBidi, .keyword "normal"),
   (.UserSelect, .keyword "auto"),
   (.VerticalAlign, .keyword "baseline"),
   (.Visibility, .keyword "visible"),
   (.WhiteSpace, .keyword "normal"),
   (.WhiteSpaceCollapse, .keyword "collapse"),
   (.Widows, .number 2),
   (.Width, .keyword "auto"),
   (.WillChange, .keyword "auto"),
   (.WordBreak, .keyword "normal"),
   (.WordSpacing, .keyword "normal"),
   (.WritingMode, .keyword "horizontal-tb"),
   (.ZIndex, .keyword "auto"),
   (.Zoom, .keyword "normal")]

/-- `styles/initial.rs` 4-317 `initial`. -/
def initialValue (key : PropertyKey) : ComputedValue :=
  match initialTable.find? (·.1 == key) with
  | some x => x.2
  | none => .keyword "initial"

end Verif
