import Verif.Props.Value
import Verif.Props.Bind
import Verif.Props.Tree
import Verif.Props.Live
import Verif.Props.Render
import Verif.Props.Display
import Verif.Props.Match
import Verif.Props.Input
import Verif.Props.Cascade
import Verif.Props.Animation
import Verif.Props.Style
import Verif.Props.StyleExamples
import Verif.Props.Words
import Verif.Props.Frame
import Verif.Props.Layout
import Verif.Props.Read
import Verif.Css.ReadBack
import Verif.Props.ReadCss
import Verif.Props.Whole
import Verif.Props.WholeExamples
import Verif.Conformance.Html
import Verif.Conformance.Css
import Verif.Conformance.Model
import Verif.Conformance.View
import Verif.Conformance.Events
import Verif.View.Moving
import Verif.View.Smooth
import Verif.Spec.Look
import Verif.View.Look
import Verif.View.Unmoved
import Verif.Props.Look
import Verif.Props.LookExamples
import Verif.View.Rebound
import Verif.Spec.Placement
import Verif.View.Modest
import Verif.View.Placement
import Verif.Input.Ghost
import Verif.Props.Placement
import Verif.Props.PlacementExamples
import Verif.View.Tagged
import Verif.View.Pictures
import Verif.Props.Pictures
import Verif.Spec.Clock
import Verif.View.Clock
import Verif.Props.Clock
import Verif.Props.ClockExamples
import Verif.Spec.Cache
import Verif.View.Cache
import Verif.View.CacheLemmas
import Verif.Props.Cache
import Verif.Props.CacheExamples
import Verif.Spec.Transitions
import Verif.View.Transitions
import Verif.Props.Transitions
import Verif.Props.TransitionsExamples
import Verif.Spec.Reproducible
import Verif.Props.Reproducible
import Verif.Props.ReproducibleExamples
import Verif.Spec.Idle
import Verif.View.Again
import Verif.View.Idle
import Verif.Props.Idle
import Verif.Props.IdleExamples
import Verif.View.Fuel
import Verif.Props.Fuel
import Verif.View.Metrics
import Verif.Spec.Metrics
import Verif.View.Counting
import Verif.Props.Metrics
import Verif.Props.MetricsIdle
import Verif.Props.MetricsExamples
import Verif.Spec.Fonts
import Verif.View.Fonts
import Verif.View.FontValues
import Verif.View.FontRun
import Verif.View.Hints
import Verif.Props.Fonts
import Verif.Props.FontsExamples
import Verif.View.Borders
import Verif.Props.Borders
import Verif.Spec.Ids
import Verif.View.Ids
import Verif.Props.Ids
import Verif.Spec.Inline
import Verif.View.Started
import Verif.View.Inline
import Verif.Props.InlineExamples
import Verif.Spec.SetUp
import Verif.View.SetUp
import Verif.Props.SetUp
import Verif.Props.SetUpExamples
import Verif.Props.Duration
import Verif.Props.Dressed
import Verif.Props.Rounded
import Verif.Props.RoundedKeyframes
import Verif.Props.RoundedPlaces
import Verif.Props.RoundedLengths
import Verif.Props.Initial
import Verif.Props.RoundedEnds
import Verif.Props.RoundedPointing
import Verif.Props.Data
import Verif.Props.DataExamples
import Verif.Props.Useless
import Verif.Props.UselessExamples
import Verif.Props.Builder
import Verif.Props.Copies
import Verif.Spec.Swaps
import Verif.View.Swaps
import Verif.Props.Swaps
import Verif.Props.SwapsExamples
import Verif.Spec.Documents
import Verif.View.Documents
import Verif.Props.Documents
import Verif.Props.DocumentsExamples
import Verif.Spec.Wordings
import Verif.View.Wordings
import Verif.Props.Wordings
import Verif.Props.WordingsExamples
import Verif.Spec.Parts
import Verif.View.Parts
import Verif.Props.Parts
import Verif.Props.PartsExamples
import Verif.Spec.Narrower
import Verif.View.Narrower
import Verif.Props.Narrower
import Verif.Props.NarrowerExamples
import Verif.Spec.Outdone
import Verif.View.Outdone
import Verif.Props.Outdone
import Verif.Props.OutdoneExamples
import Verif.Spec.Spelled
import Verif.View.Spelled
import Verif.Props.Spelled
import Verif.Props.SpelledExamples
import Verif.Spec.Joined
import Verif.View.Joined
import Verif.Props.Joined
import Verif.View.Empty
import Verif.Props.Empty
import Verif.Spec.Inlined
import Verif.View.Inlined
import Verif.Props.Inlined
import Verif.Spec.Redefined
import Verif.View.Redefined
import Verif.Props.Redefined
