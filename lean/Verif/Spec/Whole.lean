import Verif.View.Whole
import Verif.Spec.Frame
import Verif.Spec.Session
import Verif.Spec.Templates
import Verif.Spec.Live
import Verif.View.OpenParts
/-!
# Specification vocabulary for the program as a whole (C73-C75)
-/
namespace Verif

/-- The properties that start animations and transitions. -/
def motionProperties : List PropertyKey :=
  [.Transition, .TransitionProperty, .TransitionDuration, .TransitionDelay, .TransitionTimingFunction,
   .Animation, .AnimationName, .AnimationDelay, .AnimationDirection, .AnimationDuration, .AnimationFillMode, .AnimationIterationCount,
   .AnimationPlayState, .AnimationTimingFunction]

/-- The declaration starts no animation and no transition. -/
def Declaration.Still : Declaration → Prop
  | .variable _ _ => True
  | .property key _ => key ∉ motionProperties

/-- The properties that are written for others: one value of theirs is a value for several properties. -/
def compositeProperties : List PropertyKey :=
  [.Background, .BackgroundPosition, .Border, .BorderTop, .BorderRight, .BorderBottom, .BorderLeft, .BorderWidth, .BorderColor,
   .BorderRadius, .Overflow, .Inset, .Gap, .Padding, .Margin, .Transition, .Animation]

/-- Durations, and what the shorthands `animation` and `transition` begin with, are written out, and durations are
positive. -/
def Declaration.Timed : Declaration → Prop
  | .variable _ _ => True
  | .property key values =>
    (key = .AnimationDuration ∨ key = .TransitionDuration → ∀ v ∈ values, ∃ d > 0, v = [.explicit (.time d)]) ∧
    (key = .Animation → ∀ v ∈ values, ∃ d > 0, ∃ rest : List ComputedValue, v = .explicit (.time d) :: rest.map .explicit) ∧
    (key = .TransitionProperty → ∀ v ∈ values, ∃ name, v = [.explicit (.keyword name)]) ∧
    (key = .Transition → ∀ v ∈ values, ∃ name, ∃ d > 0, ∃ rest : List ComputedValue,
      v = .explicit (.keyword name) :: .explicit (.time d) :: rest.map .explicit)

/-- A block has a transition of the property. -/
def HasTransition (block : List Declaration) (key : PropertyKey) : Prop :=
  ∃ k values v name rest, Declaration.property k values ∈ block ∧ (k = .Transition ∨ k = .TransitionProperty) ∧ v ∈ values ∧
    v = .explicit (.keyword name) :: rest ∧ PropertyKey.parse name = some key

/-- A block of declarations that cannot make styling hang or panic: variables are only defined by variables of
smaller rank, durations are positive and not left out, and the property of a transition, if anything is ever declared for
it (`used`), has a value in the same block, so that the transition has something to begin with. -/
structure SmoothBlock (used : PropertyKey → Prop) (rank : String → Nat) (block : List Declaration) : Prop where
  ranked : ∀ x ∈ block, x.Ranked rank
  declares : ∀ x ∈ block, ∀ key, x.IsFor key → used key
  timed : ∀ x ∈ block, x.Timed
  animations : ∀ names, Declaration.property .AnimationName names ∈ block →
    ∃ times, Declaration.property .AnimationDuration times ∈ block ∧ names.length ≤ times.length
  transitions : ∀ names, Declaration.property .TransitionProperty names ∈ block →
    ∃ times, Declaration.property .TransitionDuration times ∈ block ∧ names.length ≤ times.length
  begins : ∀ key, HasTransition block key → key ∉ motionProperties ∧
    (¬ used key ∨ key ∉ compositeProperties ∧ ∃ v values, Declaration.property key ([.explicit v] :: values) ∈ block)

/-- A stylesheet of smooth blocks without the combinator `+`, whose keyframes do not change animations and transitions. -/
structure Css.Smooth (used : PropertyKey → Prop) (rank : String → Nat) (css : Css) : Prop where
  rules : ∀ s ∈ css.styles, s.NoPlus ∧ SmoothBlock used rank s.declaration
  keyframes : ∀ name a, css.animations name = some a → ∀ k ∈ a.keyframes, ∀ x ∈ k.declaration,
    x.Still ∧ ∀ key, x.IsFor key → used key
  named : css.animations "" = none

/-- The inline style of a template node is fixed, and its declarations are smooth. -/
def Html.SmoothStyle (inline : String → Option (List Declaration)) (used : PropertyKey → Prop) (rank : String → Nat) (h : Html) : Prop :=
  ∀ b ∈ h.bindings, match b with
    | .none key value => key = "style" → ∀ ds, inline value = some ds → SmoothBlock used rank ds
    | .attribute key _ => key ≠ "style"
    | _ => True

/-- All inline styles of a document, in its body and its templates, are fixed and smooth. -/
def SmoothDocument (p : Platform) (used : PropertyKey → Prop) (rank : String → Nat) (document : Html) : Prop :=
  (docBody document).SmoothStyle p.inline used rank ∧
    EveryNode (docEnv p.translate p.inline document) (Html.SmoothStyle p.inline used rank) (docBody document)

/-- Every link in the body or in a template is to a template of the document. -/
def LinksDefined (document : Html) : Prop :=
  ∀ c, ((docBody document).Below c ∨ ∃ i t, templateFor document.children i = some t ∧ t.Below c) →
    ∀ id, c.target = some id → (templateFor document.children id).isSome

end Verif
