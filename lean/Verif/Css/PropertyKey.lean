/-!
# CSS property keys (`src/css/model.rs` 212-806 and 809-1402)

Generated from the source by `tools/gen_keys.py`: the enumeration and the table of names.
-/
namespace Verif

/-- `css/model.rs` 212-806 `PropertyKey`. -/
inductive PropertyKey where
  | AccentColor
  | AlignContent
  | AlignItems
  | AlignSelf
  | AlignmentBaseline
  | All
  | AnchorName
  | AnchorScope
  | Animation
  | AnimationComposition
  | AnimationDelay
  | AnimationDirection
  | AnimationDuration
  | AnimationFillMode
  | AnimationIterationCount
  | AnimationName
  | AnimationPlayState
  | AnimationRange
  | AnimationRangeEnd
  | AnimationRangeStart
  | AnimationTimeline
  | AnimationTimingFunction
  | Appearance
  | AspectRatio
  | Azimuth
  | BackfaceVisibility
  | Background
  | BackgroundAttachment
  | BackgroundBlendMode
  | BackgroundClip
  | BackgroundColor
  | BackgroundImage
  | BackgroundOrigin
  | BackgroundPosition
  | BackgroundPositionX
  | BackgroundPositionY
  | BackgroundRepeat
  | BackgroundSize
  | BaselineShift
  | BaselineSource
  | BlockEllipsis
  | BlockSize
  | BlockStep
  | BlockStepAlign
  | BlockStepInsert
  | BlockStepRound
  | BlockStepSize
  | BookmarkLabel
  | BookmarkLevel
  | BookmarkState
  | Border
  | BorderBlock
  | BorderBlockColor
  | BorderBlockEnd
  | BorderBlockEndColor
  | BorderBlockEndStyle
  | BorderBlockEndWidth
  | BorderBlockStart
  | BorderBlockStartColor
  | BorderBlockStartStyle
  | BorderBlockStartWidth
  | BorderBlockStyle
  | BorderBlockWidth
  | BorderBottom
  | BorderBottomColor
  | BorderBottomLeftRadius
  | BorderBottomRightRadius
  | BorderBottomStyle
  | BorderBottomWidth
  | BorderBoundary
  | BorderCollapse
  | BorderColor
  | BorderEndEndRadius
  | BorderEndStartRadius
  | BorderImage
  | BorderImageOutset
  | BorderImageRepeat
  | BorderImageSlice
  | BorderImageSource
  | BorderImageWidth
  | BorderInline
  | BorderInlineColor
  | BorderInlineEnd
  | BorderInlineEndColor
  | BorderInlineEndStyle
  | BorderInlineEndWidth
  | BorderInlineStart
  | BorderInlineStartColor
  | BorderInlineStartStyle
  | BorderInlineStartWidth
  | BorderInlineStyle
  | BorderInlineWidth
  | BorderLeft
  | BorderLeftColor
  | BorderLeftStyle
  | BorderLeftWidth
  | BorderRadius
  | BorderRight
  | BorderRightColor
  | BorderRightStyle
  | BorderRightWidth
  | BorderSpacing
  | BorderStartEndRadius
  | BorderStartStartRadius
  | BorderStyle
  | BorderTop
  | BorderTopColor
  | BorderTopLeftRadius
  | BorderTopRightRadius
  | BorderTopStyle
  | BorderTopWidth
  | BorderWidth
  | Bottom
  | BoxDecorationBreak
  | BoxShadow
  | BoxSizing
  | BoxSnap
  | BreakAfter
  | BreakBefore
  | BreakInside
  | CaptionSide
  | Caret
  | CaretAnimation
  | CaretColor
  | CaretShape
  | Chains
  | Clear
  | Clip
  | ClipPath
  | ClipRule
  | Color
  | ColorAdjust
  | ColorInterpolationFilters
  | ColorScheme
  | ColumnCount
  | ColumnFill
  | ColumnGap
  | ColumnRule
  | ColumnRuleColor
  | ColumnRuleStyle
  | ColumnRuleWidth
  | ColumnSpan
  | ColumnWidth
  | Columns
  | Contain
  | ContainIntrinsicBlockSize
  | ContainIntrinsicHeight
  | ContainIntrinsicInlineSize
  | ContainIntrinsicSize
  | ContainIntrinsicWidth
  | Container
  | ContainerName
  | ContainerType
  | Content
  | ContentVisibility
  | Continue
  | CounterIncrement
  | CounterReset
  | CounterSet
  | Cue
  | CueAfter
  | CueBefore
  | Cursor
  | Direction
  | Display
  | DominantBaseline
  | Elevation
  | EmptyCells
  | FieldSizing
  | Fill
  | FillBreak
  | FillColor
  | FillImage
  | FillOpacity
  | FillOrigin
  | FillPosition
  | FillRepeat
  | FillRule
  | FillSize
  | Filter
  | Flex
  | FlexBasis
  | FlexDirection
  | FlexFlow
  | FlexGrow
  | FlexShrink
  | FlexWrap
  | Float
  | FloatDefer
  | FloatOffset
  | FloatReference
  | FloodColor
  | FloodOpacity
  | Flow
  | FlowFrom
  | FlowInto
  | Font
  | FontFamily
  | FontFeatureSettings
  | FontKerning
  | FontLanguageOverride
  | FontOpticalSizing
  | FontPalette
  | FontSize
  | FontSizeAdjust
  | FontStretch
  | FontStyle
  | FontSynthesis
  | FontSynthesisPosition
  | FontSynthesisSmallCaps
  | FontSynthesisStyle
  | FontSynthesisWeight
  | FontVariant
  | FontVariantAlternates
  | FontVariantCaps
  | FontVariantEastAsian
  | FontVariantEmoji
  | FontVariantLigatures
  | FontVariantNumeric
  | FontVariantPosition
  | FontVariationSettings
  | FontWeight
  | FontWidth
  | FootnoteDisplay
  | FootnotePolicy
  | ForcedColorAdjust
  | Gap
  | GlyphOrientationVertical
  | Grid
  | GridArea
  | GridAutoColumns
  | GridAutoFlow
  | GridAutoRows
  | GridColumn
  | GridColumnEnd
  | GridColumnStart
  | GridRow
  | GridRowEnd
  | GridRowStart
  | GridTemplate
  | GridTemplateAreas
  | GridTemplateColumns
  | GridTemplateRows
  | HangingPunctuation
  | Height
  | HyphenateCharacter
  | HyphenateLimitChars
  | HyphenateLimitLast
  | HyphenateLimitLines
  | HyphenateLimitZone
  | Hyphens
  | ImageOrientation
  | ImageRendering
  | ImageResolution
  | InitialLetter
  | InitialLetterAlign
  | InitialLetterWrap
  | InlineSize
  | InlineSizing
  | InputSecurity
  | Inset
  | InsetArea
  | InsetBlock
  | InsetBlockEnd
  | InsetBlockStart
  | InsetInline
  | InsetInlineEnd
  | InsetInlineStart
  | Isolation
  | JustifyContent
  | JustifyItems
  | JustifySelf
  | Left
  | LetterSpacing
  | LightingColor
  | LineBreak
  | LineClamp
  | LineFitEdge
  | LineGrid
  | LineHeight
  | LineHeightStep
  | LinePadding
  | LineSnap
  | ListStyle
  | ListStyleImage
  | ListStylePosition
  | ListStyleType
  | Margin
  | MarginBlock
  | MarginBlockEnd
  | MarginBlockStart
  | MarginBottom
  | MarginBreak
  | MarginInline
  | MarginInlineEnd
  | MarginInlineStart
  | MarginLeft
  | MarginRight
  | MarginTop
  | MarginTrim
  | Marker
  | MarkerEnd
  | MarkerKnockoutLeft
  | MarkerKnockoutRight
  | MarkerMid
  | MarkerPattern
  | MarkerSegment
  | MarkerSide
  | MarkerStart
  | Mask
  | MaskBorder
  | MaskBorderMode
  | MaskBorderOutset
  | MaskBorderRepeat
  | MaskBorderSlice
  | MaskBorderSource
  | MaskBorderWidth
  | MaskClip
  | MaskComposite
  | MaskImage
  | MaskMode
  | MaskOrigin
  | MaskPosition
  | MaskRepeat
  | MaskSize
  | MaskType
  | MaxBlockSize
  | MaxHeight
  | MaxInlineSize
  | MaxLines
  | MaxWidth
  | MinBlockSize
  | MinHeight
  | MinInlineSize
  | MinIntrinsicSizing
  | MinWidth
  | MixBlendMode
  | NavDown
  | NavLeft
  | NavRight
  | NavUp
  | ObjectFit
  | ObjectPosition
  | Offset
  | OffsetAnchor
  | OffsetDistance
  | OffsetPath
  | OffsetPosition
  | OffsetRotate
  | Opacity
  | Order
  | Orphans
  | Outline
  | OutlineColor
  | OutlineOffset
  | OutlineStyle
  | OutlineWidth
  | Overflow
  | OverflowAnchor
  | OverflowBlock
  | OverflowClipMargin
  | OverflowClipMarginBlock
  | OverflowClipMarginBlockEnd
  | OverflowClipMarginBlockStart
  | OverflowClipMarginBottom
  | OverflowClipMarginInline
  | OverflowClipMarginInlineEnd
  | OverflowClipMarginInlineStart
  | OverflowClipMarginLeft
  | OverflowClipMarginRight
  | OverflowClipMarginTop
  | OverflowInline
  | OverflowWrap
  | OverflowX
  | OverflowY
  | OverscrollBehavior
  | OverscrollBehaviorBlock
  | OverscrollBehaviorInline
  | OverscrollBehaviorX
  | OverscrollBehaviorY
  | Padding
  | PaddingBlock
  | PaddingBlockEnd
  | PaddingBlockStart
  | PaddingBottom
  | PaddingInline
  | PaddingInlineEnd
  | PaddingInlineStart
  | PaddingLeft
  | PaddingRight
  | PaddingTop
  | Page
  | PageBreakAfter
  | PageBreakBefore
  | PageBreakInside
  | Pause
  | PauseAfter
  | PauseBefore
  | Perspective
  | PerspectiveOrigin
  | Pitch
  | PitchRange
  | PlaceContent
  | PlaceItems
  | PlaceSelf
  | PlayDuring
  | PointerEvents
  | Position
  | PositionAnchor
  | PositionArea
  | PositionTry
  | PositionTryFallbacks
  | PositionTryOptions
  | PositionTryOrder
  | PositionVisibility
  | PrintColorAdjust
  | PropertyName
  | Quotes
  | RegionFragment
  | Resize
  | Rest
  | RestAfter
  | RestBefore
  | Richness
  | Right
  | Rotate
  | RowGap
  | RubyAlign
  | RubyMerge
  | RubyOverhang
  | RubyPosition
  | Running
  | Scale
  | ScrollBehavior
  | ScrollMargin
  | ScrollMarginBlock
  | ScrollMarginBlockEnd
  | ScrollMarginBlockStart
  | ScrollMarginBottom
  | ScrollMarginInline
  | ScrollMarginInlineEnd
  | ScrollMarginInlineStart
  | ScrollMarginLeft
  | ScrollMarginRight
  | ScrollMarginTop
  | ScrollPadding
  | ScrollPaddingBlock
  | ScrollPaddingBlockEnd
  | ScrollPaddingBlockStart
  | ScrollPaddingBottom
  | ScrollPaddingInline
  | ScrollPaddingInlineEnd
  | ScrollPaddingInlineStart
  | ScrollPaddingLeft
  | ScrollPaddingRight
  | ScrollPaddingTop
  | ScrollSnapAlign
  | ScrollSnapStop
  | ScrollSnapType
  | ScrollStartTarget
  | ScrollTimeline
  | ScrollTimelineAxis
  | ScrollTimelineName
  | ScrollbarColor
  | ScrollbarGutter
  | ScrollbarWidth
  | ShapeImageThreshold
  | ShapeInside
  | ShapeMargin
  | ShapeOutside
  | SpatialNavigationAction
  | SpatialNavigationContain
  | SpatialNavigationFunction
  | Speak
  | SpeakAs
  | SpeakHeader
  | SpeakNumeral
  | SpeakPunctuation
  | SpeechRate
  | Stress
  | StringSet
  | Stroke
  | StrokeAlign
  | StrokeAlignment
  | StrokeBreak
  | StrokeColor
  | StrokeDashCorner
  | StrokeDashJustify
  | StrokeDashadjust
  | StrokeDasharray
  | StrokeDashcorner
  | StrokeDashoffset
  | StrokeImage
  | StrokeLinecap
  | StrokeLinejoin
  | StrokeMiterlimit
  | StrokeOpacity
  | StrokeOrigin
  | StrokePosition
  | StrokeRepeat
  | StrokeSize
  | StrokeWidth
  | TabSize
  | TableLayout
  | TextAlign
  | TextAlignAll
  | TextAlignLast
  | TextAutospace
  | TextBox
  | TextBoxEdge
  | TextBoxTrim
  | TextCombineUpright
  | TextDecoration
  | TextDecorationColor
  | TextDecorationLine
  | TextDecorationSkip
  | TextDecorationSkipBox
  | TextDecorationSkipInk
  | TextDecorationSkipInset
  | TextDecorationSkipSelf
  | TextDecorationSkipSpaces
  | TextDecorationStyle
  | TextDecorationThickness
  | TextDecorationTrim
  | TextEmphasis
  | TextEmphasisColor
  | TextEmphasisPosition
  | TextEmphasisSkip
  | TextEmphasisStyle
  | TextGroupAlign
  | TextIndent
  | TextJustify
  | TextOrientation
  | TextOverflow
  | TextShadow
  | TextSpacing
  | TextSpacingTrim
  | TextTransform
  | TextUnderlineOffset
  | TextUnderlinePosition
  | TextWrap
  | TextWrapMode
  | TextWrapStyle
  | TimelineScope
  | Top
  | Transform
  | TransformBox
  | TransformOrigin
  | TransformStyle
  | Transition
  | TransitionBehavior
  | TransitionDelay
  | TransitionDuration
  | TransitionProperty
  | TransitionTimingFunction
  | Translate
  | UnicodeBidi
  | UserSelect
  | VerticalAlign
  | ViewTimeline
  | ViewTimelineAxis
  | ViewTimelineInset
  | ViewTimelineName
  | ViewTransitionClass
  | ViewTransitionName
  | Visibility
  | VoiceBalance
  | VoiceDuration
  | VoiceFamily
  | VoicePitch
  | VoiceRange
  | VoiceRate
  | VoiceStress
  | VoiceVolume
  | Volume
  | WhiteSpace
  | WhiteSpaceCollapse
  | WhiteSpaceTrim
  | Widows
  | Width
  | WillChange
  | WordBreak
  | WordSpaceTransform
  | WordSpacing
  | WordWrap
  | WrapAfter
  | WrapBefore
  | WrapFlow
  | WrapInside
  | WrapThrough
  | WritingMode
  | ZIndex
  | Zoom
deriving DecidableEq, Repr

/-- `css/model.rs` 809-1402: the arms of `PropertyKey::parse`. -/
def PropertyKey.table : List (String × PropertyKey) := [
  ("accent-color", .AccentColor),
  ("align-content", .AlignContent),
  ("align-items", .AlignItems),
  ("align-self", .AlignSelf),
  ("alignment-baseline", .AlignmentBaseline),
  ("all", .All),
  ("anchor-name", .AnchorName),
  ("anchor-scope", .AnchorScope),
  ("animation", .Animation),
  ("animation-composition", .AnimationComposition),
  ("animation-delay", .AnimationDelay),
  ("animation-direction", .AnimationDirection),
  ("animation-duration", .AnimationDuration),
  ("animation-fill-mode", .AnimationFillMode),
  ("animation-iteration-count", .AnimationIterationCount),
  ("animation-name", .AnimationName),
  ("animation-play-state", .AnimationPlayState),
  ("animation-range", .AnimationRange),
  ("animation-range-end", .AnimationRangeEnd),
  ("animation-range-start", .AnimationRangeStart),
  ("animation-timeline", .AnimationTimeline),
  ("animation-timing-function", .AnimationTimingFunction),
  ("appearance", .Appearance),
  ("aspect-ratio", .AspectRatio),
  ("azimuth", .Azimuth),
  ("backface-visibility", .BackfaceVisibility),
  ("background", .Background),
  ("background-attachment", .BackgroundAttachment),
  ("background-blend-mode", .BackgroundBlendMode),
  ("background-clip", .BackgroundClip),
  ("background-color", .BackgroundColor),
  ("background-image", .BackgroundImage),
  ("background-origin", .BackgroundOrigin),
  ("background-position", .BackgroundPosition),
  ("background-repeat", .BackgroundRepeat),
  ("background-size", .BackgroundSize),
  ("baseline-shift", .BaselineShift),
  ("baseline-source", .BaselineSource),
  ("block-ellipsis", .BlockEllipsis),
  ("block-size", .BlockSize),
  ("block-step", .BlockStep),
  ("block-step-align", .BlockStepAlign),
  ("block-step-insert", .BlockStepInsert),
  ("block-step-round", .BlockStepRound),
  ("block-step-size", .BlockStepSize),
  ("bookmark-label", .BookmarkLabel),
  ("bookmark-level", .BookmarkLevel),
  ("bookmark-state", .BookmarkState),
  ("border", .Border),
  ("border-block", .BorderBlock),
  ("border-block-color", .BorderBlockColor),
  ("border-block-end", .BorderBlockEnd),
  ("border-block-end-color", .BorderBlockEndColor),
  ("border-block-end-styles", .BorderBlockEndStyle),
  ("border-block-end-width", .BorderBlockEndWidth),
  ("border-block-start", .BorderBlockStart),
  ("border-block-start-color", .BorderBlockStartColor),
  ("border-block-start-styles", .BorderBlockStartStyle),
  ("border-block-start-width", .BorderBlockStartWidth),
  ("border-block-styles", .BorderBlockStyle),
  ("border-block-width", .BorderBlockWidth),
  ("border-bottom", .BorderBottom),
  ("border-bottom-color", .BorderBottomColor),
  ("border-bottom-left-radius", .BorderBottomLeftRadius),
  ("border-bottom-right-radius", .BorderBottomRightRadius),
  ("border-bottom-styles", .BorderBottomStyle),
  ("border-bottom-width", .BorderBottomWidth),
  ("border-boundary", .BorderBoundary),
  ("border-collapse", .BorderCollapse),
  ("border-color", .BorderColor),
  ("border-end-end-radius", .BorderEndEndRadius),
  ("border-end-start-radius", .BorderEndStartRadius),
  ("border-image", .BorderImage),
  ("border-image-outset", .BorderImageOutset),
  ("border-image-repeat", .BorderImageRepeat),
  ("border-image-slice", .BorderImageSlice),
  ("border-image-source", .BorderImageSource),
  ("border-image-width", .BorderImageWidth),
  ("border-inline", .BorderInline),
  ("border-inline-color", .BorderInlineColor),
  ("border-inline-end", .BorderInlineEnd),
  ("border-inline-end-color", .BorderInlineEndColor),
  ("border-inline-end-styles", .BorderInlineEndStyle),
  ("border-inline-end-width", .BorderInlineEndWidth),
  ("border-inline-start", .BorderInlineStart),
  ("border-inline-start-color", .BorderInlineStartColor),
  ("border-inline-start-styles", .BorderInlineStartStyle),
  ("border-inline-start-width", .BorderInlineStartWidth),
  ("border-inline-styles", .BorderInlineStyle),
  ("border-inline-width", .BorderInlineWidth),
  ("border-left", .BorderLeft),
  ("border-left-color", .BorderLeftColor),
  ("border-left-styles", .BorderLeftStyle),
  ("border-left-width", .BorderLeftWidth),
  ("border-radius", .BorderRadius),
  ("border-right", .BorderRight),
  ("border-right-color", .BorderRightColor),
  ("border-right-styles", .BorderRightStyle),
  ("border-right-width", .BorderRightWidth),
  ("border-spacing", .BorderSpacing),
  ("border-start-end-radius", .BorderStartEndRadius),
  ("border-start-start-radius", .BorderStartStartRadius),
  ("border-styles", .BorderStyle),
  ("border-top", .BorderTop),
  ("border-top-color", .BorderTopColor),
  ("border-top-left-radius", .BorderTopLeftRadius),
  ("border-top-right-radius", .BorderTopRightRadius),
  ("border-top-styles", .BorderTopStyle),
  ("border-top-width", .BorderTopWidth),
  ("border-width", .BorderWidth),
  ("bottom", .Bottom),
  ("box-decoration-break", .BoxDecorationBreak),
  ("box-shadow", .BoxShadow),
  ("box-sizing", .BoxSizing),
  ("box-snap", .BoxSnap),
  ("break-after", .BreakAfter),
  ("break-before", .BreakBefore),
  ("break-inside", .BreakInside),
  ("caption-side", .CaptionSide),
  ("caret", .Caret),
  ("caret-animation", .CaretAnimation),
  ("caret-color", .CaretColor),
  ("caret-shape", .CaretShape),
  ("chains", .Chains),
  ("clear", .Clear),
  ("clip", .Clip),
  ("clip-path", .ClipPath),
  ("clip-rule", .ClipRule),
  ("color", .Color),
  ("color-adjust", .ColorAdjust),
  ("color-interpolation-filters", .ColorInterpolationFilters),
  ("color-scheme", .ColorScheme),
  ("column-count", .ColumnCount),
  ("column-fill", .ColumnFill),
  ("column-gap", .ColumnGap),
  ("column-rule", .ColumnRule),
  ("column-rule-color", .ColumnRuleColor),
  ("column-rule-styles", .ColumnRuleStyle),
  ("column-rule-width", .ColumnRuleWidth),
  ("column-span", .ColumnSpan),
  ("column-width", .ColumnWidth),
  ("columns", .Columns),
  ("contain", .Contain),
  ("contain-intrinsic-block-size", .ContainIntrinsicBlockSize),
  ("contain-intrinsic-height", .ContainIntrinsicHeight),
  ("contain-intrinsic-inline-size", .ContainIntrinsicInlineSize),
  ("contain-intrinsic-size", .ContainIntrinsicSize),
  ("contain-intrinsic-width", .ContainIntrinsicWidth),
  ("container", .Container),
  ("container-name", .ContainerName),
  ("container-type", .ContainerType),
  ("content", .Content),
  ("content-visibility", .ContentVisibility),
  ("continue", .Continue),
  ("counter-increment", .CounterIncrement),
  ("counter-reset", .CounterReset),
  ("counter-set", .CounterSet),
  ("cue", .Cue),
  ("cue-after", .CueAfter),
  ("cue-before", .CueBefore),
  ("cursor", .Cursor),
  ("direction", .Direction),
  ("display", .Display),
  ("dominant-baseline", .DominantBaseline),
  ("elevation", .Elevation),
  ("empty-cells", .EmptyCells),
  ("field-sizing", .FieldSizing),
  ("fill", .Fill),
  ("fill-break", .FillBreak),
  ("fill-color", .FillColor),
  ("fill-image", .FillImage),
  ("fill-opacity", .FillOpacity),
  ("fill-origin", .FillOrigin),
  ("fill-position", .FillPosition),
  ("fill-repeat", .FillRepeat),
  ("fill-rule", .FillRule),
  ("fill-size", .FillSize),
  ("filter", .Filter),
  ("flex", .Flex),
  ("flex-basis", .FlexBasis),
  ("flex-direction", .FlexDirection),
  ("flex-flow", .FlexFlow),
  ("flex-grow", .FlexGrow),
  ("flex-shrink", .FlexShrink),
  ("flex-wrap", .FlexWrap),
  ("float", .Float),
  ("float-defer", .FloatDefer),
  ("float-offset", .FloatOffset),
  ("float-reference", .FloatReference),
  ("flood-color", .FloodColor),
  ("flood-opacity", .FloodOpacity),
  ("flow", .Flow),
  ("flow-from", .FlowFrom),
  ("flow-into", .FlowInto),
  ("font", .Font),
  ("font-family", .FontFamily),
  ("font-feature-settings", .FontFeatureSettings),
  ("font-kerning", .FontKerning),
  ("font-language-override", .FontLanguageOverride),
  ("font-optical-sizing", .FontOpticalSizing),
  ("font-palette", .FontPalette),
  ("font-size", .FontSize),
  ("font-size-adjust", .FontSizeAdjust),
  ("font-stretch", .FontStretch),
  ("font-style", .FontStyle),
  ("font-synthesis", .FontSynthesis),
  ("font-synthesis-position", .FontSynthesisPosition),
  ("font-synthesis-small-caps", .FontSynthesisSmallCaps),
  ("font-synthesis-styles", .FontSynthesisStyle),
  ("font-synthesis-weight", .FontSynthesisWeight),
  ("font-variant", .FontVariant),
  ("font-variant-alternates", .FontVariantAlternates),
  ("font-variant-caps", .FontVariantCaps),
  ("font-variant-east-asian", .FontVariantEastAsian),
  ("font-variant-emoji", .FontVariantEmoji),
  ("font-variant-ligatures", .FontVariantLigatures),
  ("font-variant-numeric", .FontVariantNumeric),
  ("font-variant-position", .FontVariantPosition),
  ("font-variation-settings", .FontVariationSettings),
  ("font-weight", .FontWeight),
  ("font-width", .FontWidth),
  ("footnote-display", .FootnoteDisplay),
  ("footnote-policy", .FootnotePolicy),
  ("forced-color-adjust", .ForcedColorAdjust),
  ("gap", .Gap),
  ("glyph-orientation-vertical", .GlyphOrientationVertical),
  ("grid", .Grid),
  ("grid-area", .GridArea),
  ("grid-auto-columns", .GridAutoColumns),
  ("grid-auto-flow", .GridAutoFlow),
  ("grid-auto-rows", .GridAutoRows),
  ("grid-column", .GridColumn),
  ("grid-column-end", .GridColumnEnd),
  ("grid-column-start", .GridColumnStart),
  ("grid-row", .GridRow),
  ("grid-row-end", .GridRowEnd),
  ("grid-row-start", .GridRowStart),
  ("grid-template", .GridTemplate),
  ("grid-template-areas", .GridTemplateAreas),
  ("grid-template-columns", .GridTemplateColumns),
  ("grid-template-rows", .GridTemplateRows),
  ("hanging-punctuation", .HangingPunctuation),
  ("height", .Height),
  ("hyphenate-character", .HyphenateCharacter),
  ("hyphenate-limit-chars", .HyphenateLimitChars),
  ("hyphenate-limit-last", .HyphenateLimitLast),
  ("hyphenate-limit-lines", .HyphenateLimitLines),
  ("hyphenate-limit-zone", .HyphenateLimitZone),
  ("hyphens", .Hyphens),
  ("image-orientation", .ImageOrientation),
  ("image-rendering", .ImageRendering),
  ("image-resolution", .ImageResolution),
  ("initial-letter", .InitialLetter),
  ("initial-letter-align", .InitialLetterAlign),
  ("initial-letter-wrap", .InitialLetterWrap),
  ("inline-size", .InlineSize),
  ("inline-sizing", .InlineSizing),
  ("input-security", .InputSecurity),
  ("inset", .Inset),
  ("inset-area", .InsetArea),
  ("inset-block", .InsetBlock),
  ("inset-block-end", .InsetBlockEnd),
  ("inset-block-start", .InsetBlockStart),
  ("inset-inline", .InsetInline),
  ("inset-inline-end", .InsetInlineEnd),
  ("inset-inline-start", .InsetInlineStart),
  ("isolation", .Isolation),
  ("justify-content", .JustifyContent),
  ("justify-items", .JustifyItems),
  ("justify-self", .JustifySelf),
  ("left", .Left),
  ("letter-spacing", .LetterSpacing),
  ("lighting-color", .LightingColor),
  ("line-break", .LineBreak),
  ("line-clamp", .LineClamp),
  ("line-fit-edge", .LineFitEdge),
  ("line-grid", .LineGrid),
  ("line-height", .LineHeight),
  ("line-height-step", .LineHeightStep),
  ("line-padding", .LinePadding),
  ("line-snap", .LineSnap),
  ("list-styles", .ListStyle),
  ("list-styles-image", .ListStyleImage),
  ("list-styles-position", .ListStylePosition),
  ("list-styles-type", .ListStyleType),
  ("margin", .Margin),
  ("margin-block", .MarginBlock),
  ("margin-block-end", .MarginBlockEnd),
  ("margin-block-start", .MarginBlockStart),
  ("margin-bottom", .MarginBottom),
  ("margin-break", .MarginBreak),
  ("margin-inline", .MarginInline),
  ("margin-inline-end", .MarginInlineEnd),
  ("margin-inline-start", .MarginInlineStart),
  ("margin-left", .MarginLeft),
  ("margin-right", .MarginRight),
  ("margin-top", .MarginTop),
  ("margin-trim", .MarginTrim),
  ("marker", .Marker),
  ("marker-end", .MarkerEnd),
  ("marker-knockout-left", .MarkerKnockoutLeft),
  ("marker-knockout-right", .MarkerKnockoutRight),
  ("marker-mid", .MarkerMid),
  ("marker-pattern", .MarkerPattern),
  ("marker-segment", .MarkerSegment),
  ("marker-side", .MarkerSide),
  ("marker-start", .MarkerStart),
  ("mask", .Mask),
  ("mask-border", .MaskBorder),
  ("mask-border-mode", .MaskBorderMode),
  ("mask-border-outset", .MaskBorderOutset),
  ("mask-border-repeat", .MaskBorderRepeat),
  ("mask-border-slice", .MaskBorderSlice),
  ("mask-border-source", .MaskBorderSource),
  ("mask-border-width", .MaskBorderWidth),
  ("mask-clip", .MaskClip),
  ("mask-composite", .MaskComposite),
  ("mask-image", .MaskImage),
  ("mask-mode", .MaskMode),
  ("mask-origin", .MaskOrigin),
  ("mask-position", .MaskPosition),
  ("mask-repeat", .MaskRepeat),
  ("mask-size", .MaskSize),
  ("mask-type", .MaskType),
  ("max-block-size", .MaxBlockSize),
  ("max-height", .MaxHeight),
  ("max-inline-size", .MaxInlineSize),
  ("max-lines", .MaxLines),
  ("max-width", .MaxWidth),
  ("min-block-size", .MinBlockSize),
  ("min-height", .MinHeight),
  ("min-inline-size", .MinInlineSize),
  ("min-intrinsic-sizing", .MinIntrinsicSizing),
  ("min-width", .MinWidth),
  ("mix-blend-mode", .MixBlendMode),
  ("nav-down", .NavDown),
  ("nav-left", .NavLeft),
  ("nav-right", .NavRight),
  ("nav-up", .NavUp),
  ("object-fit", .ObjectFit),
  ("object-position", .ObjectPosition),
  ("offset", .Offset),
  ("offset-anchor", .OffsetAnchor),
  ("offset-distance", .OffsetDistance),
  ("offset-path", .OffsetPath),
  ("offset-position", .OffsetPosition),
  ("offset-rotate", .OffsetRotate),
  ("opacity", .Opacity),
  ("order", .Order),
  ("orphans", .Orphans),
  ("outline", .Outline),
  ("outline-color", .OutlineColor),
  ("outline-offset", .OutlineOffset),
  ("outline-styles", .OutlineStyle),
  ("outline-width", .OutlineWidth),
  ("overflow", .Overflow),
  ("overflow-anchor", .OverflowAnchor),
  ("overflow-block", .OverflowBlock),
  ("overflow-clip-margin", .OverflowClipMargin),
  ("overflow-clip-margin-block", .OverflowClipMarginBlock),
  ("overflow-clip-margin-block-end", .OverflowClipMarginBlockEnd),
  ("overflow-clip-margin-block-start", .OverflowClipMarginBlockStart),
  ("overflow-clip-margin-bottom", .OverflowClipMarginBottom),
  ("overflow-clip-margin-inline", .OverflowClipMarginInline),
  ("overflow-clip-margin-inline-end", .OverflowClipMarginInlineEnd),
  ("overflow-clip-margin-inline-start", .OverflowClipMarginInlineStart),
  ("overflow-clip-margin-left", .OverflowClipMarginLeft),
  ("overflow-clip-margin-right", .OverflowClipMarginRight),
  ("overflow-clip-margin-top", .OverflowClipMarginTop),
  ("overflow-inline", .OverflowInline),
  ("overflow-wrap", .OverflowWrap),
  ("overflow-x", .OverflowX),
  ("overflow-y", .OverflowY),
  ("overscroll-behavior", .OverscrollBehavior),
  ("overscroll-behavior-block", .OverscrollBehaviorBlock),
  ("overscroll-behavior-inline", .OverscrollBehaviorInline),
  ("overscroll-behavior-x", .OverscrollBehaviorX),
  ("overscroll-behavior-y", .OverscrollBehaviorY),
  ("padding", .Padding),
  ("padding-block", .PaddingBlock),
  ("padding-block-end", .PaddingBlockEnd),
  ("padding-block-start", .PaddingBlockStart),
  ("padding-bottom", .PaddingBottom),
  ("padding-inline", .PaddingInline),
  ("padding-inline-end", .PaddingInlineEnd),
  ("padding-inline-start", .PaddingInlineStart),
  ("padding-left", .PaddingLeft),
  ("padding-right", .PaddingRight),
  ("padding-top", .PaddingTop),
  ("page", .Page),
  ("page-break-after", .PageBreakAfter),
  ("page-break-before", .PageBreakBefore),
  ("page-break-inside", .PageBreakInside),
  ("pause", .Pause),
  ("pause-after", .PauseAfter),
  ("pause-before", .PauseBefore),
  ("perspective", .Perspective),
  ("perspective-origin", .PerspectiveOrigin),
  ("pitch", .Pitch),
  ("pitch-range", .PitchRange),
  ("place-content", .PlaceContent),
  ("place-items", .PlaceItems),
  ("place-self", .PlaceSelf),
  ("play-during", .PlayDuring),
  ("pointer-events", .PointerEvents),
  ("position", .Position),
  ("position-anchor", .PositionAnchor),
  ("position-area", .PositionArea),
  ("position-try", .PositionTry),
  ("position-try-fallbacks", .PositionTryFallbacks),
  ("position-try-options", .PositionTryOptions),
  ("position-try-order", .PositionTryOrder),
  ("position-visibility", .PositionVisibility),
  ("print-color-adjust", .PrintColorAdjust),
  ("property-name", .PropertyName),
  ("quotes", .Quotes),
  ("region-fragment", .RegionFragment),
  ("resize", .Resize),
  ("rest", .Rest),
  ("rest-after", .RestAfter),
  ("rest-before", .RestBefore),
  ("richness", .Richness),
  ("right", .Right),
  ("rotate", .Rotate),
  ("row-gap", .RowGap),
  ("ruby-align", .RubyAlign),
  ("ruby-merge", .RubyMerge),
  ("ruby-overhang", .RubyOverhang),
  ("ruby-position", .RubyPosition),
  ("running", .Running),
  ("scale", .Scale),
  ("scroll-behavior", .ScrollBehavior),
  ("scroll-margin", .ScrollMargin),
  ("scroll-margin-block", .ScrollMarginBlock),
  ("scroll-margin-block-end", .ScrollMarginBlockEnd),
  ("scroll-margin-block-start", .ScrollMarginBlockStart),
  ("scroll-margin-bottom", .ScrollMarginBottom),
  ("scroll-margin-inline", .ScrollMarginInline),
  ("scroll-margin-inline-end", .ScrollMarginInlineEnd),
  ("scroll-margin-inline-start", .ScrollMarginInlineStart),
  ("scroll-margin-left", .ScrollMarginLeft),
  ("scroll-margin-right", .ScrollMarginRight),
  ("scroll-margin-top", .ScrollMarginTop),
  ("scroll-padding", .ScrollPadding),
  ("scroll-padding-block", .ScrollPaddingBlock),
  ("scroll-padding-block-end", .ScrollPaddingBlockEnd),
  ("scroll-padding-block-start", .ScrollPaddingBlockStart),
  ("scroll-padding-bottom", .ScrollPaddingBottom),
  ("scroll-padding-inline", .ScrollPaddingInline),
  ("scroll-padding-inline-end", .ScrollPaddingInlineEnd),
  ("scroll-padding-inline-start", .ScrollPaddingInlineStart),
  ("scroll-padding-left", .ScrollPaddingLeft),
  ("scroll-padding-right", .ScrollPaddingRight),
  ("scroll-padding-top", .ScrollPaddingTop),
  ("scroll-snap-align", .ScrollSnapAlign),
  ("scroll-snap-stop", .ScrollSnapStop),
  ("scroll-snap-type", .ScrollSnapType),
  ("scroll-start-target", .ScrollStartTarget),
  ("scroll-timeline", .ScrollTimeline),
  ("scroll-timeline-axis", .ScrollTimelineAxis),
  ("scroll-timeline-name", .ScrollTimelineName),
  ("scrollbar-color", .ScrollbarColor),
  ("scrollbar-gutter", .ScrollbarGutter),
  ("scrollbar-width", .ScrollbarWidth),
  ("shape-image-threshold", .ShapeImageThreshold),
  ("shape-inside", .ShapeInside),
  ("shape-margin", .ShapeMargin),
  ("shape-outside", .ShapeOutside),
  ("spatial-navigation-action", .SpatialNavigationAction),
  ("spatial-navigation-contain", .SpatialNavigationContain),
  ("spatial-navigation-function", .SpatialNavigationFunction),
  ("speak", .Speak),
  ("speak-as", .SpeakAs),
  ("speak-header", .SpeakHeader),
  ("speak-numeral", .SpeakNumeral),
  ("speak-punctuation", .SpeakPunctuation),
  ("speech-rate", .SpeechRate),
  ("stress", .Stress),
  ("string-set", .StringSet),
  ("stroke", .Stroke),
  ("stroke-align", .StrokeAlign),
  ("stroke-alignment", .StrokeAlignment),
  ("stroke-break", .StrokeBreak),
  ("stroke-color", .StrokeColor),
  ("stroke-dash-corner", .StrokeDashCorner),
  ("stroke-dash-justify", .StrokeDashJustify),
  ("stroke-dashadjust", .StrokeDashadjust),
  ("stroke-dasharray", .StrokeDasharray),
  ("stroke-dashcorner", .StrokeDashcorner),
  ("stroke-dashoffset", .StrokeDashoffset),
  ("stroke-image", .StrokeImage),
  ("stroke-linecap", .StrokeLinecap),
  ("stroke-linejoin", .StrokeLinejoin),
  ("stroke-miterlimit", .StrokeMiterlimit),
  ("stroke-opacity", .StrokeOpacity),
  ("stroke-origin", .StrokeOrigin),
  ("stroke-position", .StrokePosition),
  ("stroke-repeat", .StrokeRepeat),
  ("stroke-size", .StrokeSize),
  ("stroke-width", .StrokeWidth),
  ("tab-size", .TabSize),
  ("table-layout", .TableLayout),
  ("text-align", .TextAlign),
  ("text-align-all", .TextAlignAll),
  ("text-align-last", .TextAlignLast),
  ("text-autospace", .TextAutospace),
  ("text-box", .TextBox),
  ("text-box-edge", .TextBoxEdge),
  ("text-box-trim", .TextBoxTrim),
  ("text-combine-upright", .TextCombineUpright),
  ("text-decoration", .TextDecoration),
  ("text-decoration-color", .TextDecorationColor),
  ("text-decoration-line", .TextDecorationLine),
  ("text-decoration-skip", .TextDecorationSkip),
  ("text-decoration-skip-box", .TextDecorationSkipBox),
  ("text-decoration-skip-ink", .TextDecorationSkipInk),
  ("text-decoration-skip-inset", .TextDecorationSkipInset),
  ("text-decoration-skip-self", .TextDecorationSkipSelf),
  ("text-decoration-skip-spaces", .TextDecorationSkipSpaces),
  ("text-decoration-styles", .TextDecorationStyle),
  ("text-decoration-thickness", .TextDecorationThickness),
  ("text-decoration-trim", .TextDecorationTrim),
  ("text-emphasis", .TextEmphasis),
  ("text-emphasis-color", .TextEmphasisColor),
  ("text-emphasis-position", .TextEmphasisPosition),
  ("text-emphasis-skip", .TextEmphasisSkip),
  ("text-emphasis-styles", .TextEmphasisStyle),
  ("text-group-align", .TextGroupAlign),
  ("text-indent", .TextIndent),
  ("text-justify", .TextJustify),
  ("text-orientation", .TextOrientation),
  ("text-overflow", .TextOverflow),
  ("text-shadow", .TextShadow),
  ("text-spacing", .TextSpacing),
  ("text-spacing-trim", .TextSpacingTrim),
  ("text-transform", .TextTransform),
  ("text-underline-offset", .TextUnderlineOffset),
  ("text-underline-position", .TextUnderlinePosition),
  ("text-wrap", .TextWrap),
  ("text-wrap-mode", .TextWrapMode),
  ("text-wrap-styles", .TextWrapStyle),
  ("timeline-scope", .TimelineScope),
  ("top", .Top),
  ("transform", .Transform),
  ("transform-box", .TransformBox),
  ("transform-origin", .TransformOrigin),
  ("transform-styles", .TransformStyle),
  ("transition", .Transition),
  ("transition-behavior", .TransitionBehavior),
  ("transition-delay", .TransitionDelay),
  ("transition-duration", .TransitionDuration),
  ("transition-property", .TransitionProperty),
  ("transition-timing-function", .TransitionTimingFunction),
  ("translate", .Translate),
  ("unicode-bidi", .UnicodeBidi),
  ("user-select", .UserSelect),
  ("vertical-align", .VerticalAlign),
  ("view-timeline", .ViewTimeline),
  ("view-timeline-axis", .ViewTimelineAxis),
  ("view-timeline-inset", .ViewTimelineInset),
  ("view-timeline-name", .ViewTimelineName),
  ("view-transition-class", .ViewTransitionClass),
  ("view-transition-name", .ViewTransitionName),
  ("visibility", .Visibility),
  ("voice-balance", .VoiceBalance),
  ("voice-duration", .VoiceDuration),
  ("voice-family", .VoiceFamily),
  ("voice-pitch", .VoicePitch),
  ("voice-range", .VoiceRange),
  ("voice-rate", .VoiceRate),
  ("voice-stress", .VoiceStress),
  ("voice-volume", .VoiceVolume),
  ("volume", .Volume),
  ("white-space", .WhiteSpace),
  ("white-space-collapse", .WhiteSpaceCollapse),
  ("white-space-trim", .WhiteSpaceTrim),
  ("widows", .Widows),
  ("width", .Width),
  ("will-change", .WillChange),
  ("word-break", .WordBreak),
  ("word-space-transform", .WordSpaceTransform),
  ("word-spacing", .WordSpacing),
  ("word-wrap", .WordWrap),
  ("wrap-after", .WrapAfter),
  ("wrap-before", .WrapBefore),
  ("wrap-flow", .WrapFlow),
  ("wrap-inside", .WrapInside),
  ("wrap-through", .WrapThrough),
  ("writing-mode", .WritingMode),
  ("z-index", .ZIndex),
  ("zoom", .Zoom)]

/-- `css/model.rs` 809-1405 `PropertyKey::parse`: the first arm whose name is equal. -/
def PropertyKey.parse (name : String) : Option PropertyKey := PropertyKey.table.lookup name

end Verif
