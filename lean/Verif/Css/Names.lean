import Verif.Css.PropertyKey
import Mathlib.Data.List.Chain
/-!
# The table of property names

The kernel is slow at taking string literals apart, so the table is written once more with lists of characters; that
it is the same table is `table_chars`.
-/
namespace Verif

open Lean in
/-- The characters of a literal. -/
macro "chars% " s:str : term => do
  let cs := (s.getString.toList.map Syntax.mkCharLit).toArray
  `([$cs,*])

/-- `PropertyKey.table` (`css/model.rs` 809-1402) with lists of characters. -/
def PropertyKey.chars : List (List Char × PropertyKey) := [
  (chars% "accent-color", .AccentColor),
  (chars% "align-content", .AlignContent),
  (chars% "align-items", .AlignItems),
  (chars% "align-self", .AlignSelf),
  (chars% "alignment-baseline", .AlignmentBaseline),
  (chars% "all", .All),
  (chars% "anchor-name", .AnchorName),
  (chars% "anchor-scope", .AnchorScope),
  (chars% "animation", .Animation),
  (chars% "animation-composition", .AnimationComposition),
  (chars% "animation-delay", .AnimationDelay),
  (chars% "animation-direction", .AnimationDirection),
  (chars% "animation-duration", .AnimationDuration),
  (chars% "animation-fill-mode", .AnimationFillMode),
  (chars% "animation-iteration-count", .AnimationIterationCount),
  (chars% "animation-name", .AnimationName),
  (chars% "animation-play-state", .AnimationPlayState),
  (chars% "animation-range", .AnimationRange),
  (chars% "animation-range-end", .AnimationRangeEnd),
  (chars% "animation-range-start", .AnimationRangeStart),
  (chars% "animation-timeline", .AnimationTimeline),
  (chars% "animation-timing-function", .AnimationTimingFunction),
  (chars% "appearance", .Appearance),
  (chars% "aspect-ratio", .AspectRatio),
  (chars% "azimuth", .Azimuth),
  (chars% "backface-visibility", .BackfaceVisibility),
  (chars% "background", .Background),
  (chars% "background-attachment", .BackgroundAttachment),
  (chars% "background-blend-mode", .BackgroundBlendMode),
  (chars% "background-clip", .BackgroundClip),
  (chars% "background-color", .BackgroundColor),
  (chars% "background-image", .BackgroundImage),
  (chars% "background-origin", .BackgroundOrigin),
  (chars% "background-position", .BackgroundPosition),
  (chars% "background-repeat", .BackgroundRepeat),
  (chars% "background-size", .BackgroundSize),
  (chars% "baseline-shift", .BaselineShift),
  (chars% "baseline-source", .BaselineSource),
  (chars% "block-ellipsis", .BlockEllipsis),
  (chars% "block-size", .BlockSize),
  (chars% "block-step", .BlockStep),
  (chars% "block-step-align", .BlockStepAlign),
  (chars% "block-step-insert", .BlockStepInsert),
  (chars% "block-step-round", .BlockStepRound),
  (chars% "block-step-size", .BlockStepSize),
  (chars% "bookmark-label", .BookmarkLabel),
  (chars% "bookmark-level", .BookmarkLevel),
  (chars% "bookmark-state", .BookmarkState),
  (chars% "border", .Border),
  (chars% "border-block", .BorderBlock),
  (chars% "border-block-color", .BorderBlockColor),
  (chars% "border-block-end", .BorderBlockEnd),
  (chars% "border-block-end-color", .BorderBlockEndColor),
  (chars% "border-block-end-styles", .BorderBlockEndStyle),
  (chars% "border-block-end-width", .BorderBlockEndWidth),
  (chars% "border-block-start", .BorderBlockStart),
  (chars% "border-block-start-color", .BorderBlockStartColor),
  (chars% "border-block-start-styles", .BorderBlockStartStyle),
  (chars% "border-block-start-width", .BorderBlockStartWidth),
  (chars% "border-block-styles", .BorderBlockStyle),
  (chars% "border-block-width", .BorderBlockWidth),
  (chars% "border-bottom", .BorderBottom),
  (chars% "border-bottom-color", .BorderBottomColor),
  (chars% "border-bottom-left-radius", .BorderBottomLeftRadius),
  (chars% "border-bottom-right-radius", .BorderBottomRightRadius),
  (chars% "border-bottom-styles", .BorderBottomStyle),
  (chars% "border-bottom-width", .BorderBottomWidth),
  (chars% "border-boundary", .BorderBoundary),
  (chars% "border-collapse", .BorderCollapse),
  (chars% "border-color", .BorderColor),
  (chars% "border-end-end-radius", .BorderEndEndRadius),
  (chars% "border-end-start-radius", .BorderEndStartRadius),
  (chars% "border-image", .BorderImage),
  (chars% "border-image-outset", .BorderImageOutset),
  (chars% "border-image-repeat", .BorderImageRepeat),
  (chars% "border-image-slice", .BorderImageSlice),
  (chars% "border-image-source", .BorderImageSource),
  (chars% "border-image-width", .BorderImageWidth),
  (chars% "border-inline", .BorderInline),
  (chars% "border-inline-color", .BorderInlineColor),
  (chars% "border-inline-end", .BorderInlineEnd),
  (chars% "border-inline-end-color", .BorderInlineEndColor),
  (chars% "border-inline-end-styles", .BorderInlineEndStyle),
  (chars% "border-inline-end-width", .BorderInlineEndWidth),
  (chars% "border-inline-start", .BorderInlineStart),
  (chars% "border-inline-start-color", .BorderInlineStartColor),
  (chars% "border-inline-start-styles", .BorderInlineStartStyle),
  (chars% "border-inline-start-width", .BorderInlineStartWidth),
  (chars% "border-inline-styles", .BorderInlineStyle),
  (chars% "border-inline-width", .BorderInlineWidth),
  (chars% "border-left", .BorderLeft),
  (chars% "border-left-color", .BorderLeftColor),
  (chars% "border-left-styles", .BorderLeftStyle),
  (chars% "border-left-width", .BorderLeftWidth),
  (chars% "border-radius", .BorderRadius),
  (chars% "border-right", .BorderRight),
  (chars% "border-right-color", .BorderRightColor),
  (chars% "border-right-styles", .BorderRightStyle),
  (chars% "border-right-width", .BorderRightWidth),
  (chars% "border-spacing", .BorderSpacing),
  (chars% "border-start-end-radius", .BorderStartEndRadius),
  (chars% "border-start-start-radius", .BorderStartStartRadius),
  (chars% "border-styles", .BorderStyle),
  (chars% "border-top", .BorderTop),
  (chars% "border-top-color", .BorderTopColor),
  (chars% "border-top-left-radius", .BorderTopLeftRadius),
  (chars% "border-top-right-radius", .BorderTopRightRadius),
  (chars% "border-top-styles", .BorderTopStyle),
  (chars% "border-top-width", .BorderTopWidth),
  (chars% "border-width", .BorderWidth),
  (chars% "bottom", .Bottom),
  (chars% "box-decoration-break", .BoxDecorationBreak),
  (chars% "box-shadow", .BoxShadow),
  (chars% "box-sizing", .BoxSizing),
  (chars% "box-snap", .BoxSnap),
  (chars% "break-after", .BreakAfter),
  (chars% "break-before", .BreakBefore),
  (chars% "break-inside", .BreakInside),
  (chars% "caption-side", .CaptionSide),
  (chars% "caret", .Caret),
  (chars% "caret-animation", .CaretAnimation),
  (chars% "caret-color", .CaretColor),
  (chars% "caret-shape", .CaretShape),
  (chars% "chains", .Chains),
  (chars% "clear", .Clear),
  (chars% "clip", .Clip),
  (chars% "clip-path", .ClipPath),
  (chars% "clip-rule", .ClipRule),
  (chars% "color", .Color),
  (chars% "color-adjust", .ColorAdjust),
  (chars% "color-interpolation-filters", .ColorInterpolationFilters),
  (chars% "color-scheme", .ColorScheme),
  (chars% "column-count", .ColumnCount),
  (chars% "column-fill", .ColumnFill),
  (chars% "column-gap", .ColumnGap),
  (chars% "column-rule", .ColumnRule),
  (chars% "column-rule-color", .ColumnRuleColor),
  (chars% "column-rule-styles", .ColumnRuleStyle),
  (chars% "column-rule-width", .ColumnRuleWidth),
  (chars% "column-span", .ColumnSpan),
  (chars% "column-width", .ColumnWidth),
  (chars% "columns", .Columns),
  (chars% "contain", .Contain),
  (chars% "contain-intrinsic-block-size", .ContainIntrinsicBlockSize),
  (chars% "contain-intrinsic-height", .ContainIntrinsicHeight),
  (chars% "contain-intrinsic-inline-size", .ContainIntrinsicInlineSize),
  (chars% "contain-intrinsic-size", .ContainIntrinsicSize),
  (chars% "contain-intrinsic-width", .ContainIntrinsicWidth),
  (chars% "container", .Container),
  (chars% "container-name", .ContainerName),
  (chars% "container-type", .ContainerType),
  (chars% "content", .Content),
  (chars% "content-visibility", .ContentVisibility),
  (chars% "continue", .Continue),
  (chars% "counter-increment", .CounterIncrement),
  (chars% "counter-reset", .CounterReset),
  (chars% "counter-set", .CounterSet),
  (chars% "cue", .Cue),
  (chars% "cue-after", .CueAfter),
  (chars% "cue-before", .CueBefore),
  (chars% "cursor", .Cursor),
  (chars% "direction", .Direction),
  (chars% "display", .Display),
  (chars% "dominant-baseline", .DominantBaseline),
  (chars% "elevation", .Elevation),
  (chars% "empty-cells", .EmptyCells),
  (chars% "field-sizing", .FieldSizing),
  (chars% "fill", .Fill),
  (chars% "fill-break", .FillBreak),
  (chars% "fill-color", .FillColor),
  (chars% "fill-image", .FillImage),
  (chars% "fill-opacity", .FillOpacity),
  (chars% "fill-origin", .FillOrigin),
  (chars% "fill-position", .FillPosition),
  (chars% "fill-repeat", .FillRepeat),
  (chars% "fill-rule", .FillRule),
  (chars% "fill-size", .FillSize),
  (chars% "filter", .Filter),
  (chars% "flex", .Flex),
  (chars% "flex-basis", .FlexBasis),
  (chars% "flex-direction", .FlexDirection),
  (chars% "flex-flow", .FlexFlow),
  (chars% "flex-grow", .FlexGrow),
  (chars% "flex-shrink", .FlexShrink),
  (chars% "flex-wrap", .FlexWrap),
  (chars% "float", .Float),
  (chars% "float-defer", .FloatDefer),
  (chars% "float-offset", .FloatOffset),
  (chars% "float-reference", .FloatReference),
  (chars% "flood-color", .FloodColor),
  (chars% "flood-opacity", .FloodOpacity),
  (chars% "flow", .Flow),
  (chars% "flow-from", .FlowFrom),
  (chars% "flow-into", .FlowInto),
  (chars% "font", .Font),
  (chars% "font-family", .FontFamily),
  (chars% "font-feature-settings", .FontFeatureSettings),
  (chars% "font-kerning", .FontKerning),
  (chars% "font-language-override", .FontLanguageOverride),
  (chars% "font-optical-sizing", .FontOpticalSizing),
  (chars% "font-palette", .FontPalette),
  (chars% "font-size", .FontSize),
  (chars% "font-size-adjust", .FontSizeAdjust),
  (chars% "font-stretch", .FontStretch),
  (chars% "font-style", .FontStyle),
  (chars% "font-synthesis", .FontSynthesis),
  (chars% "font-synthesis-position", .FontSynthesisPosition),
  (chars% "font-synthesis-small-caps", .FontSynthesisSmallCaps),
  (chars% "font-synthesis-styles", .FontSynthesisStyle),
  (chars% "font-synthesis-weight", .FontSynthesisWeight),
  (chars% "font-variant", .FontVariant),
  (chars% "font-variant-alternates", .FontVariantAlternates),
  (chars% "font-variant-caps", .FontVariantCaps),
  (chars% "font-variant-east-asian", .FontVariantEastAsian),
  (chars% "font-variant-emoji", .FontVariantEmoji),
  (chars% "font-variant-ligatures", .FontVariantLigatures),
  (chars% "font-variant-numeric", .FontVariantNumeric),
  (chars% "font-variant-position", .FontVariantPosition),
  (chars% "font-variation-settings", .FontVariationSettings),
  (chars% "font-weight", .FontWeight),
  (chars% "font-width", .FontWidth),
  (chars% "footnote-display", .FootnoteDisplay),
  (chars% "footnote-policy", .FootnotePolicy),
  (chars% "forced-color-adjust", .ForcedColorAdjust),
  (chars% "gap", .Gap),
  (chars% "glyph-orientation-vertical", .GlyphOrientationVertical),
  (chars% "grid", .Grid),
  (chars% "grid-area", .GridArea),
  (chars% "grid-auto-columns", .GridAutoColumns),
  (chars% "grid-auto-flow", .GridAutoFlow),
  (chars% "grid-auto-rows", .GridAutoRows),
  (chars% "grid-column", .GridColumn),
  (chars% "grid-column-end", .GridColumnEnd),
  (chars% "grid-column-start", .GridColumnStart),
  (chars% "grid-row", .GridRow),
  (chars% "grid-row-end", .GridRowEnd),
  (chars% "grid-row-start", .GridRowStart),
  (chars% "grid-template", .GridTemplate),
  (chars% "grid-template-areas", .GridTemplateAreas),
  (chars% "grid-template-columns", .GridTemplateColumns),
  (chars% "grid-template-rows", .GridTemplateRows),
  (chars% "hanging-punctuation", .HangingPunctuation),
  (chars% "height", .Height),
  (chars% "hyphenate-character", .HyphenateCharacter),
  (chars% "hyphenate-limit-chars", .HyphenateLimitChars),
  (chars% "hyphenate-limit-last", .HyphenateLimitLast),
  (chars% "hyphenate-limit-lines", .HyphenateLimitLines),
  (chars% "hyphenate-limit-zone", .HyphenateLimitZone),
  (chars% "hyphens", .Hyphens),
  (chars% "image-orientation", .ImageOrientation),
  (chars% "image-rendering", .ImageRendering),
  (chars% "image-resolution", .ImageResolution),
  (chars% "initial-letter", .InitialLetter),
  (chars% "initial-letter-align", .InitialLetterAlign),
  (chars% "initial-letter-wrap", .InitialLetterWrap),
  (chars% "inline-size", .InlineSize),
  (chars% "inline-sizing", .InlineSizing),
  (chars% "input-security", .InputSecurity),
  (chars% "inset", .Inset),
  (chars% "inset-area", .InsetArea),
  (chars% "inset-block", .InsetBlock),
  (chars% "inset-block-end", .InsetBlockEnd),
  (chars% "inset-block-start", .InsetBlockStart),
  (chars% "inset-inline", .InsetInline),
  (chars% "inset-inline-end", .InsetInlineEnd),
  (chars% "inset-inline-start", .InsetInlineStart),
  (chars% "isolation", .Isolation),
  (chars% "justify-content", .JustifyContent),
  (chars% "justify-items", .JustifyItems),
  (chars% "justify-self", .JustifySelf),
  (chars% "left", .Left),
  (chars% "letter-spacing", .LetterSpacing),
  (chars% "lighting-color", .LightingColor),
  (chars% "line-break", .LineBreak),
  (chars% "line-clamp", .LineClamp),
  (chars% "line-fit-edge", .LineFitEdge),
  (chars% "line-grid", .LineGrid),
  (chars% "line-height", .LineHeight),
  (chars% "line-height-step", .LineHeightStep),
  (chars% "line-padding", .LinePadding),
  (chars% "line-snap", .LineSnap),
  (chars% "list-styles", .ListStyle),
  (chars% "list-styles-image", .ListStyleImage),
  (chars% "list-styles-position", .ListStylePosition),
  (chars% "list-styles-type", .ListStyleType),
  (chars% "margin", .Margin),
  (chars% "margin-block", .MarginBlock),
  (chars% "margin-block-end", .MarginBlockEnd),
  (chars% "margin-block-start", .MarginBlockStart),
  (chars% "margin-bottom", .MarginBottom),
  (chars% "margin-break", .MarginBreak),
  (chars% "margin-inline", .MarginInline),
  (chars% "margin-inline-end", .MarginInlineEnd),
  (chars% "margin-inline-start", .MarginInlineStart),
  (chars% "margin-left", .MarginLeft),
  (chars% "margin-right", .MarginRight),
  (chars% "margin-top", .MarginTop),
  (chars% "margin-trim", .MarginTrim),
  (chars% "marker", .Marker),
  (chars% "marker-end", .MarkerEnd),
  (chars% "marker-knockout-left", .MarkerKnockoutLeft),
  (chars% "marker-knockout-right", .MarkerKnockoutRight),
  (chars% "marker-mid", .MarkerMid),
  (chars% "marker-pattern", .MarkerPattern),
  (chars% "marker-segment", .MarkerSegment),
  (chars% "marker-side", .MarkerSide),
  (chars% "marker-start", .MarkerStart),
  (chars% "mask", .Mask),
  (chars% "mask-border", .MaskBorder),
  (chars% "mask-border-mode", .MaskBorderMode),
  (chars% "mask-border-outset", .MaskBorderOutset),
  (chars% "mask-border-repeat", .MaskBorderRepeat),
  (chars% "mask-border-slice", .MaskBorderSlice),
  (chars% "mask-border-source", .MaskBorderSource),
  (chars% "mask-border-width", .MaskBorderWidth),
  (chars% "mask-clip", .MaskClip),
  (chars% "mask-composite", .MaskComposite),
  (chars% "mask-image", .MaskImage),
  (chars% "mask-mode", .MaskMode),
  (chars% "mask-origin", .MaskOrigin),
  (chars% "mask-position", .MaskPosition),
  (chars% "mask-repeat", .MaskRepeat),
  (chars% "mask-size", .MaskSize),
  (chars% "mask-type", .MaskType),
  (chars% "max-block-size", .MaxBlockSize),
  (chars% "max-height", .MaxHeight),
  (chars% "max-inline-size", .MaxInlineSize),
  (chars% "max-lines", .MaxLines),
  (chars% "max-width", .MaxWidth),
  (chars% "min-block-size", .MinBlockSize),
  (chars% "min-height", .MinHeight),
  (chars% "min-inline-size", .MinInlineSize),
  (chars% "min-intrinsic-sizing", .MinIntrinsicSizing),
  (chars% "min-width", .MinWidth),
  (chars% "mix-blend-mode", .MixBlendMode),
  (chars% "nav-down", .NavDown),
  (chars% "nav-left", .NavLeft),
  (chars% "nav-right", .NavRight),
  (chars% "nav-up", .NavUp),
  (chars% "object-fit", .ObjectFit),
  (chars% "object-position", .ObjectPosition),
  (chars% "offset", .Offset),
  (chars% "offset-anchor", .OffsetAnchor),
  (chars% "offset-distance", .OffsetDistance),
  (chars% "offset-path", .OffsetPath),
  (chars% "offset-position", .OffsetPosition),
  (chars% "offset-rotate", .OffsetRotate),
  (chars% "opacity", .Opacity),
  (chars% "order", .Order),
  (chars% "orphans", .Orphans),
  (chars% "outline", .Outline),
  (chars% "outline-color", .OutlineColor),
  (chars% "outline-offset", .OutlineOffset),
  (chars% "outline-styles", .OutlineStyle),
  (chars% "outline-width", .OutlineWidth),
  (chars% "overflow", .Overflow),
  (chars% "overflow-anchor", .OverflowAnchor),
  (chars% "overflow-block", .OverflowBlock),
  (chars% "overflow-clip-margin", .OverflowClipMargin),
  (chars% "overflow-clip-margin-block", .OverflowClipMarginBlock),
  (chars% "overflow-clip-margin-block-end", .OverflowClipMarginBlockEnd),
  (chars% "overflow-clip-margin-block-start", .OverflowClipMarginBlockStart),
  (chars% "overflow-clip-margin-bottom", .OverflowClipMarginBottom),
  (chars% "overflow-clip-margin-inline", .OverflowClipMarginInline),
  (chars% "overflow-clip-margin-inline-end", .OverflowClipMarginInlineEnd),
  (chars% "overflow-clip-margin-inline-start", .OverflowClipMarginInlineStart),
  (chars% "overflow-clip-margin-left", .OverflowClipMarginLeft),
  (chars% "overflow-clip-margin-right", .OverflowClipMarginRight),
  (chars% "overflow-clip-margin-top", .OverflowClipMarginTop),
  (chars% "overflow-inline", .OverflowInline),
  (chars% "overflow-wrap", .OverflowWrap),
  (chars% "overflow-x", .OverflowX),
  (chars% "overflow-y", .OverflowY),
  (chars% "overscroll-behavior", .OverscrollBehavior),
  (chars% "overscroll-behavior-block", .OverscrollBehaviorBlock),
  (chars% "overscroll-behavior-inline", .OverscrollBehaviorInline),
  (chars% "overscroll-behavior-x", .OverscrollBehaviorX),
  (chars% "overscroll-behavior-y", .OverscrollBehaviorY),
  (chars% "padding", .Padding),
  (chars% "padding-block", .PaddingBlock),
  (chars% "padding-block-end", .PaddingBlockEnd),
  (chars% "padding-block-start", .PaddingBlockStart),
  (chars% "padding-bottom", .PaddingBottom),
  (chars% "padding-inline", .PaddingInline),
  (chars% "padding-inline-end", .PaddingInlineEnd),
  (chars% "padding-inline-start", .PaddingInlineStart),
  (chars% "padding-left", .PaddingLeft),
  (chars% "padding-right", .PaddingRight),
  (chars% "padding-top", .PaddingTop),
  (chars% "page", .Page),
  (chars% "page-break-after", .PageBreakAfter),
  (chars% "page-break-before", .PageBreakBefore),
  (chars% "page-break-inside", .PageBreakInside),
  (chars% "pause", .Pause),
  (chars% "pause-after", .PauseAfter),
  (chars% "pause-before", .PauseBefore),
  (chars% "perspective", .Perspective),
  (chars% "perspective-origin", .PerspectiveOrigin),
  (chars% "pitch", .Pitch),
  (chars% "pitch-range", .PitchRange),
  (chars% "place-content", .PlaceContent),
  (chars% "place-items", .PlaceItems),
  (chars% "place-self", .PlaceSelf),
  (chars% "play-during", .PlayDuring),
  (chars% "pointer-events", .PointerEvents),
  (chars% "position", .Position),
  (chars% "position-anchor", .PositionAnchor),
  (chars% "position-area", .PositionArea),
  (chars% "position-try", .PositionTry),
  (chars% "position-try-fallbacks", .PositionTryFallbacks),
  (chars% "position-try-options", .PositionTryOptions),
  (chars% "position-try-order", .PositionTryOrder),
  (chars% "position-visibility", .PositionVisibility),
  (chars% "print-color-adjust", .PrintColorAdjust),
  (chars% "property-name", .PropertyName),
  (chars% "quotes", .Quotes),
  (chars% "region-fragment", .RegionFragment),
  (chars% "resize", .Resize),
  (chars% "rest", .Rest),
  (chars% "rest-after", .RestAfter),
  (chars% "rest-before", .RestBefore),
  (chars% "richness", .Richness),
  (chars% "right", .Right),
  (chars% "rotate", .Rotate),
  (chars% "row-gap", .RowGap),
  (chars% "ruby-align", .RubyAlign),
  (chars% "ruby-merge", .RubyMerge),
  (chars% "ruby-overhang", .RubyOverhang),
  (chars% "ruby-position", .RubyPosition),
  (chars% "running", .Running),
  (chars% "scale", .Scale),
  (chars% "scroll-behavior", .ScrollBehavior),
  (chars% "scroll-margin", .ScrollMargin),
  (chars% "scroll-margin-block", .ScrollMarginBlock),
  (chars% "scroll-margin-block-end", .ScrollMarginBlockEnd),
  (chars% "scroll-margin-block-start", .ScrollMarginBlockStart),
  (chars% "scroll-margin-bottom", .ScrollMarginBottom),
  (chars% "scroll-margin-inline", .ScrollMarginInline),
  (chars% "scroll-margin-inline-end", .ScrollMarginInlineEnd),
  (chars% "scroll-margin-inline-start", .ScrollMarginInlineStart),
  (chars% "scroll-margin-left", .ScrollMarginLeft),
  (chars% "scroll-margin-right", .ScrollMarginRight),
  (chars% "scroll-margin-top", .ScrollMarginTop),
  (chars% "scroll-padding", .ScrollPadding),
  (chars% "scroll-padding-block", .ScrollPaddingBlock),
  (chars% "scroll-padding-block-end", .ScrollPaddingBlockEnd),
  (chars% "scroll-padding-block-start", .ScrollPaddingBlockStart),
  (chars% "scroll-padding-bottom", .ScrollPaddingBottom),
  (chars% "scroll-padding-inline", .ScrollPaddingInline),
  (chars% "scroll-padding-inline-end", .ScrollPaddingInlineEnd),
  (chars% "scroll-padding-inline-start", .ScrollPaddingInlineStart),
  (chars% "scroll-padding-left", .ScrollPaddingLeft),
  (chars% "scroll-padding-right", .ScrollPaddingRight),
  (chars% "scroll-padding-top", .ScrollPaddingTop),
  (chars% "scroll-snap-align", .ScrollSnapAlign),
  (chars% "scroll-snap-stop", .ScrollSnapStop),
  (chars% "scroll-snap-type", .ScrollSnapType),
  (chars% "scroll-start-target", .ScrollStartTarget),
  (chars% "scroll-timeline", .ScrollTimeline),
  (chars% "scroll-timeline-axis", .ScrollTimelineAxis),
  (chars% "scroll-timeline-name", .ScrollTimelineName),
  (chars% "scrollbar-color", .ScrollbarColor),
  (chars% "scrollbar-gutter", .ScrollbarGutter),
  (chars% "scrollbar-width", .ScrollbarWidth),
  (chars% "shape-image-threshold", .ShapeImageThreshold),
  (chars% "shape-inside", .ShapeInside),
  (chars% "shape-margin", .ShapeMargin),
  (chars% "shape-outside", .ShapeOutside),
  (chars% "spatial-navigation-action", .SpatialNavigationAction),
  (chars% "spatial-navigation-contain", .SpatialNavigationContain),
  (chars% "spatial-navigation-function", .SpatialNavigationFunction),
  (chars% "speak", .Speak),
  (chars% "speak-as", .SpeakAs),
  (chars% "speak-header", .SpeakHeader),
  (chars% "speak-numeral", .SpeakNumeral),
  (chars% "speak-punctuation", .SpeakPunctuation),
  (chars% "speech-rate", .SpeechRate),
  (chars% "stress", .Stress),
  (chars% "string-set", .StringSet),
  (chars% "stroke", .Stroke),
  (chars% "stroke-align", .StrokeAlign),
  (chars% "stroke-alignment", .StrokeAlignment),
  (chars% "stroke-break", .StrokeBreak),
  (chars% "stroke-color", .StrokeColor),
  (chars% "stroke-dash-corner", .StrokeDashCorner),
  (chars% "stroke-dash-justify", .StrokeDashJustify),
  (chars% "stroke-dashadjust", .StrokeDashadjust),
  (chars% "stroke-dasharray", .StrokeDasharray),
  (chars% "stroke-dashcorner", .StrokeDashcorner),
  (chars% "stroke-dashoffset", .StrokeDashoffset),
  (chars% "stroke-image", .StrokeImage),
  (chars% "stroke-linecap", .StrokeLinecap),
  (chars% "stroke-linejoin", .StrokeLinejoin),
  (chars% "stroke-miterlimit", .StrokeMiterlimit),
  (chars% "stroke-opacity", .StrokeOpacity),
  (chars% "stroke-origin", .StrokeOrigin),
  (chars% "stroke-position", .StrokePosition),
  (chars% "stroke-repeat", .StrokeRepeat),
  (chars% "stroke-size", .StrokeSize),
  (chars% "stroke-width", .StrokeWidth),
  (chars% "tab-size", .TabSize),
  (chars% "table-layout", .TableLayout),
  (chars% "text-align", .TextAlign),
  (chars% "text-align-all", .TextAlignAll),
  (chars% "text-align-last", .TextAlignLast),
  (chars% "text-autospace", .TextAutospace),
  (chars% "text-box", .TextBox),
  (chars% "text-box-edge", .TextBoxEdge),
  (chars% "text-box-trim", .TextBoxTrim),
  (chars% "text-combine-upright", .TextCombineUpright),
  (chars% "text-decoration", .TextDecoration),
  (chars% "text-decoration-color", .TextDecorationColor),
  (chars% "text-decoration-line", .TextDecorationLine),
  (chars% "text-decoration-skip", .TextDecorationSkip),
  (chars% "text-decoration-skip-box", .TextDecorationSkipBox),
  (chars% "text-decoration-skip-ink", .TextDecorationSkipInk),
  (chars% "text-decoration-skip-inset", .TextDecorationSkipInset),
  (chars% "text-decoration-skip-self", .TextDecorationSkipSelf),
  (chars% "text-decoration-skip-spaces", .TextDecorationSkipSpaces),
  (chars% "text-decoration-styles", .TextDecorationStyle),
  (chars% "text-decoration-thickness", .TextDecorationThickness),
  (chars% "text-decoration-trim", .TextDecorationTrim),
  (chars% "text-emphasis", .TextEmphasis),
  (chars% "text-emphasis-color", .TextEmphasisColor),
  (chars% "text-emphasis-position", .TextEmphasisPosition),
  (chars% "text-emphasis-skip", .TextEmphasisSkip),
  (chars% "text-emphasis-styles", .TextEmphasisStyle),
  (chars% "text-group-align", .TextGroupAlign),
  (chars% "text-indent", .TextIndent),
  (chars% "text-justify", .TextJustify),
  (chars% "text-orientation", .TextOrientation),
  (chars% "text-overflow", .TextOverflow),
  (chars% "text-shadow", .TextShadow),
  (chars% "text-spacing", .TextSpacing),
  (chars% "text-spacing-trim", .TextSpacingTrim),
  (chars% "text-transform", .TextTransform),
  (chars% "text-underline-offset", .TextUnderlineOffset),
  (chars% "text-underline-position", .TextUnderlinePosition),
  (chars% "text-wrap", .TextWrap),
  (chars% "text-wrap-mode", .TextWrapMode),
  (chars% "text-wrap-styles", .TextWrapStyle),
  (chars% "timeline-scope", .TimelineScope),
  (chars% "top", .Top),
  (chars% "transform", .Transform),
  (chars% "transform-box", .TransformBox),
  (chars% "transform-origin", .TransformOrigin),
  (chars% "transform-styles", .TransformStyle),
  (chars% "transition", .Transition),
  (chars% "transition-behavior", .TransitionBehavior),
  (chars% "transition-delay", .TransitionDelay),
  (chars% "transition-duration", .TransitionDuration),
  (chars% "transition-property", .TransitionProperty),
  (chars% "transition-timing-function", .TransitionTimingFunction),
  (chars% "translate", .Translate),
  (chars% "unicode-bidi", .UnicodeBidi),
  (chars% "user-select", .UserSelect),
  (chars% "vertical-align", .VerticalAlign),
  (chars% "view-timeline", .ViewTimeline),
  (chars% "view-timeline-axis", .ViewTimelineAxis),
  (chars% "view-timeline-inset", .ViewTimelineInset),
  (chars% "view-timeline-name", .ViewTimelineName),
  (chars% "view-transition-class", .ViewTransitionClass),
  (chars% "view-transition-name", .ViewTransitionName),
  (chars% "visibility", .Visibility),
  (chars% "voice-balance", .VoiceBalance),
  (chars% "voice-duration", .VoiceDuration),
  (chars% "voice-family", .VoiceFamily),
  (chars% "voice-pitch", .VoicePitch),
  (chars% "voice-range", .VoiceRange),
  (chars% "voice-rate", .VoiceRate),
  (chars% "voice-stress", .VoiceStress),
  (chars% "voice-volume", .VoiceVolume),
  (chars% "volume", .Volume),
  (chars% "white-space", .WhiteSpace),
  (chars% "white-space-collapse", .WhiteSpaceCollapse),
  (chars% "white-space-trim", .WhiteSpaceTrim),
  (chars% "widows", .Widows),
  (chars% "width", .Width),
  (chars% "will-change", .WillChange),
  (chars% "word-break", .WordBreak),
  (chars% "word-space-transform", .WordSpaceTransform),
  (chars% "word-spacing", .WordSpacing),
  (chars% "word-wrap", .WordWrap),
  (chars% "wrap-after", .WrapAfter),
  (chars% "wrap-before", .WrapBefore),
  (chars% "wrap-flow", .WrapFlow),
  (chars% "wrap-inside", .WrapInside),
  (chars% "wrap-through", .WrapThrough),
  (chars% "writing-mode", .WritingMode),
  (chars% "z-index", .ZIndex),
  (chars% "zoom", .Zoom)]

namespace PropertyKey

set_option maxRecDepth 100000 in
theorem table_chars : table = chars.map fun p => (String.ofList p.1, p.2) := by rfl

theorem chars_names : (chars.map fun p => p.1).IsChain (· < ·) := by decide +kernel
theorem chars_keys : (chars.map fun p => p.2.ctorIdx).IsChain (· < ·) := by decide +kernel
theorem chars_shape : ∀ p ∈ chars, 2 ≤ p.1.length ∧ p.1.head? ≠ some '-' ∧ ∀ c ∈ p.1, c = '-' ∨ 'a' ≤ c ∧ c ≤ 'z' := by decide +kernel

theorem mem_chars {name : String} {key : PropertyKey} : (name, key) ∈ table ↔ (name.toList, key) ∈ chars := by
  rw [table_chars, List.mem_map]
  constructor
  · rintro ⟨p, hp, e⟩
    injection e with e1 e2
    subst e1 e2
    rw [String.toList_ofList]; exact hp
  · intro h; exact ⟨_, h, by simp⟩

theorem names_sorted : (chars.map fun p => p.1).Pairwise (· < ·) := List.isChain_iff_pairwise.1 chars_names
theorem keys_sorted : (chars.map fun p => p.2.ctorIdx).Pairwise (· < ·) := List.isChain_iff_pairwise.1 chars_keys

/-- No name stands twice in the table. -/
theorem names_nodup : (table.map Prod.fst).Nodup := by
  rw [table_chars, List.map_map]
  refine List.Pairwise.map _ ?_ (List.pairwise_map.1 names_sorted)
  intro a b h e
  have := congrArg String.toList e
  simp only [Function.comp, String.toList_ofList] at this
  rw [this] at h
  exact List.lt_irrefl _ h

/-- No property stands twice in the table. -/
theorem keys_nodup : (table.map Prod.snd).Nodup := by
  rw [table_chars, List.map_map]
  refine List.Pairwise.map _ ?_ (List.pairwise_map.1 keys_sorted)
  intro a b h e
  simp only [Function.comp] at e
  rw [e] at h
  exact absurd h (Nat.lt_irrefl _)

theorem lookup_mem {α β : Type} [BEq α] [LawfulBEq α] {l : List (α × β)} (hn : (l.map Prod.fst).Nodup) {a : α} {b : β} : l.lookup a = some b ↔ (a, b) ∈ l := by
  induction l with
  | nil => simp
  | cons p l ih =>
    obtain ⟨x, y⟩ := p
    rw [List.map_cons, List.nodup_cons] at hn
    by_cases hx : a = x
    · subst hx
      simp only [List.lookup_cons, beq_self_eq_true, Option.some.injEq, List.mem_cons, Prod.mk.injEq, true_and]
      constructor
      · intro h; exact .inl h.symm
      · rintro (h | h)
        · exact h.symm
        · exact absurd (List.mem_map.2 ⟨_, h, rfl⟩) hn.1
    · have hb : (a == x) = false := by simpa using hx
      simp only [List.lookup_cons, hb, List.mem_cons, Prod.mk.injEq, hx, false_and, false_or]
      exact ih hn.2

/-- A name denotes what stands beside it. -/
theorem parse_iff {name : String} {key : PropertyKey} : PropertyKey.parse name = some key ↔ (name, key) ∈ table := lookup_mem names_nodup

theorem parse_none {name : String} (h : ∀ key, (name, key) ∉ table) : PropertyKey.parse name = none := by
  cases hp : PropertyKey.parse name with
  | none => rfl
  | some key => exact absurd (parse_iff.1 hp) (h key)

theorem name_shape {name : String} {key : PropertyKey} (h : (name, key) ∈ table) : 2 ≤ name.toList.length ∧ name.toList.head? ≠ some '-' ∧ ∀ c ∈ name.toList, c = '-' ∨ 'a' ≤ c ∧ c ≤ 'z' :=
  chars_shape _ (mem_chars.1 h)

end PropertyKey
end Verif
