import Verif.Css.Grammar
import Verif.Css.Types
import Verif.Html.Reader
/-!
# Reading stylesheets (`src/css/reader.rs`)

`none` stands for a panic (`unwrap`, `unreachable!`, an index out of bounds).  Logging is left out.
-/
namespace Verif

/-- The part of `str::parse::<f32>` after the sign. -/
def parseUnsigned (t : List Char) : Option Rat :=
  match t.dropWhile isDigit with
  | [] => if (t.takeWhile isDigit).isEmpty then none else some (decimal (t.takeWhile isDigit))
  | c :: frac => if c == '.' && frac.all isDigit && !((t.takeWhile isDigit).isEmpty && frac.isEmpty) then some (decimal (t.takeWhile isDigit) + (decimal frac : Rat) / 10 ^ frac.length) else none

/-- `str::parse::<f32>` on texts made of digits, `-` and `.` (other signs, exponents and names of special values do not
occur in the rule `Number`), idealised: not rounded, no infinities. -/
def parseNumber : List Char → Option Rat
  | '-' :: t => (parseUnsigned t).map fun v => -v
  | t => parseUnsigned t

/-- `css/reader.rs` 263-269 `read_number`. -/
def readNumber (t : List Char) : Rat := (parseNumber t).getD 0

/-- `as u32`: towards zero, saturating. -/
def toU32 (v : Rat) : Nat := min v.floor.toNat (2 ^ 32 - 1)

/-- The value of a hexadecimal digit. -/
def hexValue (c : Char) : Nat :=
  if isDigit c then c.toNat - '0'.toNat else if 'a' ≤ c ∧ c ≤ 'f' then c.toNat - 'a'.toNat + 10 else c.toNat - 'A'.toNat + 10

/-- `u8::from_str_radix(_, 16).unwrap_or(0)` on two characters other than signs. -/
def hexByte (a b : Char) : Nat := if isHex a && isHex b then hexValue a * 16 + hexValue b else 0

/-- `css/reader.rs` 271-306 `read_color`.  The text starts with `#` (`css.pest` 101), so `rgb` (289-299) does not occur. -/
def readColor : List Char → Rgba
  | ['#', r1, r2, g1, g2, b1, b2] => ⟨hexByte r1 r2, hexByte g1 g2, hexByte b1 b2, 255⟩
  | ['#', r1, r2, g1, g2, b1, b2, a1, a2] => ⟨hexByte r1 r2, hexByte g1 g2, hexByte b1 b2, hexByte a1 a2⟩
  | _ => ⟨255, 255, 255, 255⟩

/-- `css/model.rs` 173-185 `Units::parse`. -/
def Units.parse (name : String) : Option Units :=
  if name = "vh" then some .vh else if name = "vw" then some .vw else if name = "vmax" then some .vmax else if name = "vmin" then some .vmin
  else if name = "px" then some .px else if name = "em" then some .em else if name = "rem" then some .rem else none

/-- `css/reader.rs` 220-232 `read_explicit_value`, with `read_dimension` (234-244), `read_percentage` (246-250) and
`read_seconds` (252-261). -/
def readExplicit : Pair CssRule → Option ComputedValue
  | .mk .keyword t _ => some (.keyword (String.ofList t))
  | .mk .color t _ => some (.color (readColor t))
  | .mk .zero _ _ => some .zero
  | .mk .time _ (n :: u :: _) =>
    if u.str = "s" then some (.time (readNumber n.str.toList)) else if u.str = "ms" then some (.time (readNumber n.str.toList / 1000)) else none
  | .mk .percentage _ (n :: _) => some (.percentage (readNumber n.str.toList / 100))
  | .mk .dimension _ (n :: u :: _) => some (.dimension ⟨readNumber n.str.toList, (Units.parse u.str).getD .px⟩)
  | .mk .number t _ => some (.number (readNumber t))
  | .mk .string _ (s :: _) => some (.str s.str)
  | _ => none

mutual
/-- `css/reader.rs` 197-218 `read_value_def`; what follows the name of a variable is not read. -/
def readValue : Pair CssRule → Option Definition
  | .mk .var _ (.mk _ name _ :: _) => some (.var (String.ofList name))
  | .mk .function _ (.mk _ name _ :: arguments) => (readValues arguments).map fun arguments => .function (String.ofList name) arguments
  | .mk .explicit _ (p :: _) => (readExplicit p).map .explicit
  | _ => none
/-- `css/reader.rs` 193-195 `read_shorthand`, 207-210. -/
def readValues : List (Pair CssRule) → Option (List Definition)
  | [] => some []
  | p :: ps =>
    match readValue p, readValues ps with
    | some d, some ds => some (d :: ds)
    | _, _ => none
end

/-- `css/reader.rs` 166-169, 182-185: the shorthands of a declaration. -/
def readShorthands : List (Pair CssRule) → Option (List Shorthand)
  | [] => some []
  | p :: ps =>
    match readValues p.inner, readShorthands ps with
    | some s, some l => some (s :: l)
    | _, _ => none

/-- `css/reader.rs` 160-188: one declaration, `some none` if the property is not known. -/
def readDeclaration : Pair CssRule → Option (Option Declaration)
  | .mk _ _ (name :: shorthands :: _) =>
    if "--".toList <+: name.str.toList then
      match readShorthands shorthands.inner with
      | some (s :: _) => some (some (.variable name.str s))
      | _ => none
    else
      match PropertyKey.parse name.str with
      | none => some none
      | some key => (readShorthands shorthands.inner).map fun values => some (.property key values)
  | _ => none

/-- `css/reader.rs` 157-191 `read_declarations`. -/
def readDeclarations : List (Pair CssRule) → Option (List Declaration)
  | [] => some []
  | p :: ps =>
    match readDeclaration p, readDeclarations ps with
    | some d, some ds => some (d.toList ++ ds)
    | _, _ => none

/-- `css/reader.rs` 64-65, 144-145: the declarations of a block. -/
def readBlock (p : Pair CssRule) : Option (List Declaration) :=
  match p.inner with
  | q :: _ => readDeclarations q.inner
  | [] => none

/-- `css/reader.rs` 98-109. -/
def readMatcher (s : String) : Option Matcher :=
  if s = "" then some .exist else if s = "=" then some .equal else if s = "~=" then some .include else if s = "|=" then some .dashMatch
  else if s = "^=" then some .prefix else if s = "$=" then some .suffix else if s = "*=" then some .substring else none

/-- `css/reader.rs` 110-122: the value looked for. -/
def readSearch : List (Pair CssRule) → Option String
  | [] => some ""
  | .mk .string _ (s :: _) :: _ => some s.str
  | .mk .ident t _ :: _ => some (String.ofList t)
  | _ => none

/-- `css/reader.rs` 86-130: a simple selector. -/
def readSimple : Pair CssRule → Option Simple
  | .mk rule _ inner =>
    let ident := (inner.head?.map Pair.str).getD ""
    match rule with
    | .all => some .all
    | .id => some (.id ident)
    | .class => some (.class ident)
    | .type => some (.type ident)
    | .attribute =>
      match readMatcher ((inner.tail.head?.map Pair.str).getD ""), readSearch inner.tail.tail with
      | some m, some s => some (.attribute ident m s)
      | _, _ => none
    | .pseudoClass => some (.pseudoClass ident)
    | .root => some .root
    | .pseudoElement => some (.pseudoElement ident)
    | _ => none

/-- The simple selectors of a compound one. -/
def readSimples : List (Pair CssRule) → Option (List Simple)
  | [] => some []
  | p :: ps =>
    match readSimple p, readSimples ps with
    | some s, some l => some (s :: l)
    | _, _ => none

/-- `css/model.rs` 71-76 `as_combinator`. -/
def Simple.isCombinator : Simple → Bool | .combinator _ => true | _ => false

/-- `css/reader.rs` 80-84: a compound selector after another one is a descendant. -/
def joinCompound (acc : Complex) : Complex :=
  match acc.getLast? with
  | some s => if s.isCombinator then acc else acc ++ [.combinator ' ']
  | none => acc

/-- `css/reader.rs` 76-138: the components of a complex selector. -/
def readComponents : List (Pair CssRule) → Complex → Option Complex
  | [], acc => some acc
  | .mk .compound _ simples :: ps, acc =>
    match readSimples simples with
    | some l => readComponents ps (joinCompound acc ++ l)
    | none => none
  | .mk .combinator (c :: _) _ :: ps, acc => readComponents ps (acc ++ [.combinator c])
  | _ :: _, _ => none

/-- `css/reader.rs` 74-142: the selectors of a rule. -/
def readSelectors : List (Pair CssRule) → Option (List Complex)
  | [] => some []
  | p :: ps =>
    match readComponents p.inner [], readSelectors ps with
    | some c, some cs => some (c :: cs)
    | _, _ => none

/-- `css/reader.rs` 51-63: the step of a keyframe. -/
def readStep : Pair CssRule → Option Nat
  | .mk .percentage _ (n :: _) => some (toU32 (readNumber n.str.toList))
  | .mk .keyword t _ => some (if String.ofList t = "to" then 100 else 0)
  | _ => none

/-- `css/reader.rs` 48-67: the keyframes of an animation. -/
def readKeyframes : List (Pair CssRule) → Option (List Keyframe)
  | [] => some []
  | .mk _ _ (step :: block :: _) :: ps =>
    match readStep step, readBlock block, readKeyframes ps with
    | some s, some ds, some l => some (⟨s, ds⟩ :: l)
    | _, _, _ => none
  | _ :: _ => none

/-- A rule of a stylesheet. -/
inductive CssItem where
  | style (s : Style)
  | animation (a : Animation)

/-- `css/reader.rs` 44-152: one rule. -/
def readRule : Pair CssRule → Option CssItem
  | .mk .animation _ (name :: frames) => (readKeyframes frames).map fun l => .animation ⟨name.str, l⟩
  | .mk .style _ (selectors :: block :: _) =>
    match readSelectors selectors.inner, readBlock block with
    | some cs, some ds => some (.style ⟨cs, ds⟩)
    | _, _ => none
  | _ => none

/-- `css/reader.rs` 41-154: the rules in order; an animation replaces the one with its name. -/
def readRules : List (Pair CssRule) → Css → Option Css
  | [], css => some css
  | p :: ps, css =>
    match readRule p with
    | some (.style s) => readRules ps { css with styles := css.styles ++ [s] }
    | some (.animation a) => readRules ps { css with animations := fun n => if n = a.name then some a else css.animations n }
    | none => none

/-- `css/reader.rs` 37-155 `read_css`; `none` if the fuel for parsing does not suffice. -/
def readCss (fuel : Nat) (text : String) : Option (Except Fail Css) :=
  match cssGrammar.parse fuel .styleSheet text.toList with
  | none => none
  | some none => some (.error .err)
  | some (some ([], _)) => some (.error .err)
  | some (some (p :: _, _)) =>
    match readRules p.inner ⟨[], fun _ => none⟩ with
    | some css => some (.ok css)
    | none => some (.error .panic)

/-- `css/reader.rs` 30-35 `read_inline_css`. -/
def readInline (fuel : Nat) (text : String) : Option (Except Fail (List Declaration)) :=
  match cssGrammar.parse fuel .declarations text.toList with
  | none => none
  | some none => some (.error .err)
  | some (some ([], _)) => some (.error .err)
  | some (some (p :: _, _)) =>
    match readDeclarations p.inner with
    | some ds => some (.ok ds)
    | none => some (.error .panic)

end Verif
