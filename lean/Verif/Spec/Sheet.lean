import Verif.Spec.Written
import Verif.Css.Reader
/-!
# How stylesheets are written (C71)

A relation between stylesheets and the texts that stand for them, independent of the parser: `Stylesheet items text`
says that `text` is a way of writing the rules `items`.
-/
namespace Verif.Sheet
open Written (IsWord isKeyChar)

/-- White space and comments. -/
inductive Blanks : List Char → Prop
  | nil : Blanks []
  | space {c t} : isBlank c = true → Blanks t → Blanks (c :: t)
  | comment {c t} : ¬ "*/".toList <:+: c → Blanks t → Blanks ("/*".toList ++ c ++ "*/".toList ++ t)

/-- A character of the name of a property or of a keyword. -/
def isLetter (c : Char) : Bool := isAlpha c || c == '-' || c == '_'

/-- A number without sign: `12`, `1.5`, `.5`. -/
inductive Unsigned : Rat → List Char → Prop
  | int {t} : IsWord isDigit t → Unsigned (decimal t) t
  | frac {t u} : (∀ c ∈ t, isDigit c = true) → IsWord isDigit u → Unsigned (decimal t + (decimal u : Rat) / 10 ^ u.length) (t ++ '.' :: u)

/-- A number. -/
inductive Number : Rat → List Char → Prop
  | plain {v t} : Unsigned v t → Number v t
  | minus {v t} : Unsigned v t → Number (-v) ('-' :: t)

/-- The hexadecimal digits in order. -/
def hexDigits : List Char := "0123456789abcdef".toList
/-- A hexadecimal digit, in any case, and its value. -/
def HexDigit (n : Nat) (c : Char) : Prop := hexDigits[n]? = some (lowerAscii c)
/-- Two hexadecimal digits and their value. -/
def HexByte (n : Nat) (a b : Char) : Prop := ∃ x y, HexDigit x a ∧ HexDigit y b ∧ n = 16 * x + y

/-- A keyword: not only one or two dashes. -/
def Keyword (k : String) : Prop := IsWord isLetter k.toList ∧ k ≠ "-" ∧ k ≠ "--"

/-- The names of the units. -/
def unitNames : List (String × Units) := [("vh", .vh), ("vw", .vw), ("vmax", .vmax), ("vmin", .vmin), ("px", .px), ("em", .em), ("rem", .rem)]

/-- A value that is not computed. -/
inductive Explicit : ComputedValue → List Char → Prop
  | keyword {k} : Keyword k → Explicit (.keyword k) k.toList
  | zero : Explicit .zero ['0']
  | number {v t} : Number v t → (∀ u, t = '0' :: u → ∃ w, u = '.' :: w) → Explicit (.number v) t
  | percentage {v t} : Number v t → Explicit (.percentage (v / 100)) (t ++ ['%'])
  | seconds {v t} : Number v t → Explicit (.time v) (t ++ ['s'])
  | milliseconds {v t} : Number v t → Explicit (.time (v / 1000)) (t ++ ['m', 's'])
  | dimension {v t name unit} : Number v t → (name, unit) ∈ unitNames → Explicit (.dimension ⟨v, unit⟩) (t ++ name.toList)
  | opaque {r g b r1 r2 g1 g2 b1 b2} : HexByte r r1 r2 → HexByte g g1 g2 → HexByte b b1 b2 → Explicit (.color ⟨r, g, b, 255⟩) ['#', r1, r2, g1, g2, b1, b2]
  | color {r g b a r1 r2 g1 g2 b1 b2 a1 a2} : HexByte r r1 r2 → HexByte g g1 g2 → HexByte b b1 b2 → HexByte a a1 a2 →
      Explicit (.color ⟨r, g, b, a⟩) ['#', r1, r2, g1, g2, b1, b2, a1, a2]
  | string {s : String} : '"' ∉ s.toList → Explicit (.str s) ('"' :: (s.toList ++ ['"']))

mutual
/-- A value: `var(--name)`, `name(a, b)` or a value that is not computed. -/
inductive Value : Definition → List Char → Prop
  | var {k} : Keyword k → Value (.var k) ("var(".toList ++ (k.toList ++ [')']))
  | function {name args t} : IsWord isKeyChar name.toList → name ≠ "var" → Arguments args t → Value (.function name args) (name.toList ++ '(' :: (t ++ [')']))
  | explicit {v t} : Explicit v t → Value (.explicit v) t
/-- The arguments of a function; white space only after commas. -/
inductive Arguments : List Definition → List Char → Prop
  | nil : Arguments [] []
  | cons {d t ds u} : Value d t → More ds u → Arguments (d :: ds) (t ++ u)
/-- Further arguments. -/
inductive More : List Definition → List Char → Prop
  | nil : More [] []
  | cons {bl d t ds u} : (∀ c ∈ bl, isBlank c = true) → Value d t → More ds u → More (d :: ds) (',' :: (bl ++ (t ++ u)))
end

/-- Values with exactly one blank between them. -/
inductive Short : Shorthand → List Char → Prop
  | one {d t} : Value d t → Short [d] t
  | cons {d t c ds u} : Value d t → isBlank c = true → Short ds u → Short (d :: ds) (t ++ c :: u)

/-- Shorthands with commas between them. -/
inductive Values : List Shorthand → List Char → Prop
  | one {s t} : Short s t → Values [s] t
  | cons {s t b1 b2 l u} : Short s t → Blanks b1 → Blanks b2 → Values l u → Values (s :: l) (t ++ (b1 ++ ',' :: (b2 ++ u)))

/-- `name: values;`. -/
inductive Assigns (name : String) (values : List Shorthand) : List Char → Prop
  | mk {b1 b2 b3 t} : IsWord isLetter name.toList → Blanks b1 → Blanks b2 → Blanks b3 → Values values t →
      Assigns name values (name.toList ++ (b1 ++ ':' :: (b2 ++ (t ++ (b3 ++ [';'])))))

/-- A declaration, `none` if the property is not supported.  Of a variable only the first shorthand counts. -/
inductive DeclarationText : Option Declaration → List Char → Prop
  | property {name key values t} : (name, key) ∈ PropertyKey.table → Assigns name values t → DeclarationText (some (.property key values)) t
  | variable {name s l t} : "--".toList <+: name.toList → Assigns name (s :: l) t → DeclarationText (some (.variable name s)) t
  | unknown {name values t} : (∀ key, (name, key) ∉ PropertyKey.table) → ¬ "--".toList <+: name.toList → 2 ≤ name.length → Assigns name values t → DeclarationText none t

/-- Declarations, in order. -/
inductive Declarations : List Declaration → List Char → Prop
  | nil : Declarations [] []
  | cons {d t bl ds u} : DeclarationText d t → Blanks bl → Declarations ds u → Declarations (d.toList ++ ds) (t ++ (bl ++ u))

/-- `{ declarations }`. -/
inductive Block : List Declaration → List Char → Prop
  | mk {bl ds t} : Blanks bl → Declarations ds t → Block ds ('{' :: (bl ++ (t ++ ['}'])))

/-- The operators of attribute selectors. -/
def operators : List (Matcher × String) := [(.equal, "="), (.include, "~="), (.dashMatch, "|="), (.prefix, "^="), (.suffix, "$="), (.substring, "*=")]

/-- A simple selector other than a type. -/
inductive SimpleText : Simple → List Char → Prop
  | id {n} : IsWord isKeyChar n.toList → SimpleText (.id n) ('#' :: n.toList)
  | class {n} : IsWord isKeyChar n.toList → SimpleText (.class n) ('.' :: n.toList)
  | root : SimpleText .root ":root".toList
  | pseudoClass {n : String} : IsWord isKeyChar n.toList → ¬ "root".toList <+: n.toList → SimpleText (.pseudoClass n) (':' :: n.toList)
  | pseudoElement {n} : IsWord isKeyChar n.toList → SimpleText (.pseudoElement n) (':' :: ':' :: n.toList)
  | exist {n} : IsWord isKeyChar n.toList → SimpleText (.attribute n .exist "") ('[' :: (n.toList ++ [']']))
  | string {n m op s} : IsWord isKeyChar n.toList → (m, op) ∈ operators → '"' ∉ s.toList →
      SimpleText (.attribute n m s) ('[' :: (n.toList ++ (op.toList ++ '"' :: (s.toList ++ ['"', ']']))))
  | ident {n m op s} : IsWord isKeyChar n.toList → (m, op) ∈ operators → IsWord isKeyChar s.toList →
      SimpleText (.attribute n m s) ('[' :: (n.toList ++ (op.toList ++ (s.toList ++ [']']))))

/-- Simple selectors other than types, without anything between them. -/
inductive SimplesText : List Simple → List Char → Prop
  | nil : SimplesText [] []
  | cons {s t l u} : SimpleText s t → SimplesText l u → SimplesText (s :: l) (t ++ u)

/-- A compound selector: a type or `*`, simple selectors, or both. -/
inductive Compound : List Simple → List Char → Prop
  | simples {s t l u} : SimpleText s t → SimplesText l u → Compound (s :: l) (t ++ u)
  | type {n l u} : IsWord isKeyChar n.toList → SimplesText l u → Compound (.type n :: l) (n.toList ++ u)
  | all {l u} : SimplesText l u → Compound (.all :: l) ('*' :: u)

/-- What follows the first compound of a complex selector. -/
inductive Rest : List Simple → List Char → Prop
  | nil : Rest [] []
  | descendant {b c t l u} : Blanks b → b ≠ [] → Compound c t → Rest l u → Rest (.combinator ' ' :: (c ++ l)) (b ++ (t ++ u))
  | combinator {b1 x b2 c t l u} : Blanks b1 → x ∈ ['>', '+', '~'] → Blanks b2 → Compound c t → Rest l u → Rest (.combinator x :: (c ++ l)) (b1 ++ x :: (b2 ++ (t ++ u)))

/-- A complex selector. -/
inductive ComplexText : Complex → List Char → Prop
  | mk {c t l u} : Compound c t → Rest l u → ComplexText (c ++ l) (t ++ u)

/-- Selectors with commas between them. -/
inductive Selectors : List Complex → List Char → Prop
  | one {c t} : ComplexText c t → Selectors [c] t
  | cons {c t b1 b2 l u} : ComplexText c t → Blanks b1 → Blanks b2 → Selectors l u → Selectors (c :: l) (t ++ (b1 ++ ',' :: (b2 ++ u)))

/-- The step of a keyframe; a fraction is cut off. -/
inductive Step : Nat → List Char → Prop
  | from : Step 0 "from".toList
  | to : Step 100 "to".toList
  | percentage {v t} : Unsigned v t → v.floor.toNat < 2 ^ 32 → Step v.floor.toNat (t ++ ['%'])

/-- Keyframes. -/
inductive Keyframes : List Keyframe → List Char → Prop
  | nil : Keyframes [] []
  | cons {n t b1 ds u b2 l v} : Step n t → Blanks b1 → Block ds u → Blanks b2 → Keyframes l v → Keyframes (⟨n, ds⟩ :: l) (t ++ (b1 ++ (u ++ (b2 ++ v))))

/-- A rule. -/
inductive Item : CssItem → List Char → Prop
  | style {cs t bl ds u} : Selectors cs t → Blanks bl → Block ds u → Item (.style ⟨cs, ds⟩) (t ++ (bl ++ u))
  | animation {b1 name b2 b3 l t} : Blanks b1 → IsWord isKeyChar name.toList → Blanks b2 → Blanks b3 → Keyframes l t →
      Item (.animation ⟨name, l⟩) ("@keyframes".toList ++ (b1 ++ (name.toList ++ (b2 ++ '{' :: (b3 ++ (t ++ ['}']))))))

/-- Rules. -/
inductive Items : List CssItem → List Char → Prop
  | nil : Items [] []
  | cons {x t bl l u} : Item x t → Blanks bl → Items l u → Items (x :: l) (t ++ (bl ++ u))

/-- A stylesheet. -/
inductive Stylesheet : List CssItem → List Char → Prop
  | mk {bl l t} : Blanks bl → Items l t → Stylesheet l (bl ++ t)

/-- What the rules amount to: the styles in order, and of the animations with a name the last. -/
def meaning (l : List CssItem) : Css where
  styles := l.filterMap fun | .style s => some s | .animation _ => none
  animations := fun name => (l.filterMap fun | .animation a => if a.name = name then some a else none | .style _ => none).getLast?

end Verif.Sheet
