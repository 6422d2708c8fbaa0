import Verif.Spec.Cache
import Verif.Spec.Look
import Verif.Spec.Inline
/-!
# Specification vocabulary for C82: programs whose fonts never change
-/
namespace Verif

/-- The properties that decide how wide and high a text is. -/
def fontProperties : List PropertyKey := [.FontFamily, .FontSize, .FontStyle, .FontWeight]

/-- The declaration has nothing about fonts. -/
def Declaration.Fontless : Declaration → Prop
  | .variable _ _ => True
  | .property key _ => key ∉ fontProperties

/-- A value that is not in terms of the window. -/
def ComputedValue.Windowless : ComputedValue → Prop
  | .dimension d => d.unit = .px ∨ d.unit = .em ∨ d.unit = .rem
  | _ => True

/-- If the declaration is about fonts, it has no list of values, and its value is written out (no variables) and not in terms
of the window. -/
def Declaration.FixedFont : Declaration → Prop
  | .variable _ _ => True
  | .property key values => key ∈ fontProperties → values.length ≤ 1 ∧
      ∀ value ∈ values, ∃ vs : List ComputedValue, value = vs.map .explicit ∧ ∀ v ∈ vs, v.Windowless

/-- If the declaration is about transitions, their properties are written out and have nothing to do with fonts (and are not those of
animations and transitions themselves). -/
def Declaration.FontsAside : Declaration → Prop
  | .variable _ _ => True
  | .property key values => key = .Transition ∨ key = .TransitionProperty → ∀ value ∈ values, ∃ vs : List ComputedValue, value = vs.map .explicit ∧
      ∀ name k, .keyword name ∈ vs → PropertyKey.parse name = some k → k ∉ fontProperties ∧ k ∉ motionProperties

/-- The declaration is about fonts. -/
def Declaration.aboutFonts : Declaration → Bool
  | .variable _ _ => false
  | .property key _ => fontProperties.contains key

/-- The template node binds the attribute, by `@key` or `#key`. -/
def Html.BindsKey (key : String) (h : Html) : Prop :=
  ∃ b ∈ h.bindings, match b with
    | .tag k _ => k = key
    | .attribute k _ => k = key
    | _ => False

/-- No node of the document binds the attribute. -/
def NeverBound (p : Platform) (document : Html) (key : String) : Prop :=
  ¬ (docBody document).BindsKey key ∧ EveryNode (docEnv p.translate p.inline document) (fun h => ¬ h.BindsKey key) (docBody document)

/-- Whether the rule is for an element never changes: it has no pseudo-class and tests no attribute that is bound. -/
def Style.Settled (s : Style) (p : Platform) (document : Html) : Prop :=
  (∀ c ∈ s.selectors, ∀ x ∈ c, ∀ name, x ≠ .pseudoClass name) ∧ ∀ key, s.Tests key → NeverBound p document key

/-- Rules with something about fonts give fixed values, always to the same elements. -/
def Css.FixedFonts (css : Css) (p : Platform) (document : Html) : Prop :=
  ∀ s ∈ css.styles, (∀ x ∈ s.declaration, x.Fontless) ∨ (∀ x ∈ s.declaration, x.FixedFont) ∧ s.Settled p document

/-- The inline style of a template node is not bound and gives fixed values for fonts. -/
def Html.FixedFonts (inline : String → Option (List Declaration)) (h : Html) : Prop :=
  ∀ b ∈ h.bindings, match b with
    | .none key value => key = "style" → ∀ ds, inline value = some ds → ∀ x ∈ ds, x.FixedFont ∧ x.FontsAside
    | .attribute key _ => key ≠ "style"
    | _ => True

/-- So do all inline styles of a document. -/
def FixedFontDocument (p : Platform) (document : Html) : Prop :=
  (docBody document).FixedFonts p.inline ∧ EveryNode (docEnv p.translate p.inline document) (Html.FixedFonts p.inline) (docBody document)

/-- The inline styles give fixed values for fonts: all that the document has, if none is bound, or else those that the elements get
from these values, always the same ones for an element. -/
def FixedFontStyles (p : Platform) (document : Html) (a : App) (values : List Json) : Prop :=
  FixedFontDocument p document ∨
    ∃ fonts : NodeId → List Declaration, a.screen.view.InlineStyles p.inline
      (fun n b => (∀ x ∈ b, x.FixedFont ∧ x.FontsAside) ∧ b.filter Declaration.aboutFonts = fonts n) values

/-- A program whose fonts are fixed. It may have animations and transitions of other properties. -/
structure FixedFonts (p : Platform) (document : Html) (css : Css) (a : App) (values : List Json) : Prop where
  rules : css.FixedFonts p document
  transitions : ∀ s ∈ css.styles, ∀ x ∈ s.declaration, x.FontsAside
  keyframes : ∀ name an, css.animations name = some an → ∀ k ∈ an.keyframes, ∀ x ∈ k.declaration, x.Still ∧ x.Fontless
  inline : FixedFontStyles p document a values

end Verif
