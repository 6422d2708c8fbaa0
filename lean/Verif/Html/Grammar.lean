import Verif.Peg.Basic
/-!
# The grammar of templates (`src/html/html.pest`)
-/
namespace Verif

/-- The rules of `html.pest`, except `WHITESPACE` and `COMMENT`. -/
inductive HtmlRule where
  | document | content | script | element | children | void | voidTag | tag | tChar | text | string | sChar
  | attributes | attribute | aliasBinding | tagBinding | attributeBinding | quotedString | quotedChar | callbackBinding
  | event | visibilityBinding | visible | repeatBinding | count | doubleQuoted | unquoted | empty | name | nChar
  | binder | getter | transformer | key | kChar | value | vChar
deriving DecidableEq, Repr

/-- `ASCII_DIGIT`. -/
def isDigit (c : Char) : Bool := '0' ≤ c && c ≤ '9'
/-- `ASCII_ALPHA`. -/
def isAlpha (c : Char) : Bool := ('a' ≤ c && c ≤ 'z') || ('A' ≤ c && c ≤ 'Z')
/-- `ASCII_HEX_DIGIT`. -/
def isHex (c : Char) : Bool := isDigit c || ('a' ≤ c && c ≤ 'f') || ('A' ≤ c && c ≤ 'F')
/-- `html.pest` 2, `css.pest` 1 `WHITESPACE`. -/
def isBlank (c : Char) : Bool := c == ' ' || c == '\t' || c == '\r' || c == '\n'

namespace Peg
variable {R : Type}
/-- A literal. -/
def word (s : String) : Peg R := .lit s.toList
/-- `^"..."`. -/
def iword (s : String) : Peg R := .ilit s.toList
/-- `ANY`. -/
def any : Peg R := .chr fun _ => true
/-- `x | y | ...`. -/
def alts : List (Peg R) → Peg R
  | [] => .neg .eps
  | [x] => x
  | x :: y :: l => .alt x (alts (y :: l))
/-- `x ~ y ~ ...`. -/
def seqs : List (Peg R) → Peg R
  | [] => .eps
  | [x] => x
  | x :: y :: l => .seq x (seqs (y :: l))
end Peg

open Peg in
/-- The right sides of the rules. -/
def htmlBody : HtmlRule → Peg HtmlRule
  -- 6: `SOI` holds at the start, where alone the rule is used
  | .document => seqs [.eps, plus (.call .content), .eoi]
  -- 11
  | .content => alts [.call .script, .call .void, .call .text, .call .element]
  -- 13
  | .script => seqs [word "<script>", star (seq (.neg (word "</script>")) any), word "</script>"]
  -- 16
  | .element => seqs [word "<", .call .tag, .call .attributes, word ">", .call .children, word "<", word "/", .call .tag, word ">"]
  -- 18
  | .children => star (.call .content)
  -- 21
  | .void => seqs [word "<", .call .voidTag, .call .attributes, opt (word "/"), word ">"]
  -- 23-40
  | .voidTag => alts [iword "area", iword "base", iword "br", iword "col", iword "command", iword "embed", iword "hr", iword "img", iword "input",
      iword "keygen", iword "link", iword "meta", iword "param", iword "source", iword "track", iword "wbr"]
  -- 43
  | .tag => plus (.call .tChar)
  -- 46
  | .tChar => alts [.chr isAlpha, .chr isDigit, word "-"]
  -- 49
  | .text => plus (.alt (.call .binder) (.call .string))
  -- 51
  | .string => plus (.call .sChar)
  -- 53-55
  | .sChar => seq (.neg (alts [word "<", word ">", word "{"])) any
  -- 57
  | .attributes => star (.call .attribute)
  -- 60-70
  | .attribute => alts [.call .repeatBinding, .call .aliasBinding, .call .tagBinding, .call .attributeBinding, .call .callbackBinding,
      .call .visibilityBinding, .call .doubleQuoted, .call .unquoted, .call .empty]
  -- 72
  | .aliasBinding => seqs [word "+", .call .key, word "=", word "\"", .call .binder, word "\""]
  -- 74
  | .tagBinding => seqs [word "#", .call .key, word "=", word "\"", .call .binder, word "\""]
  -- 76
  | .attributeBinding => seqs [word "@", .call .key, word "=", word "\"", plus (.alt (.call .binder) (.call .quotedString)), word "\""]
  -- 78
  | .quotedString => plus (.call .quotedChar)
  -- 80-82
  | .quotedChar => seq (.neg (alts [word "<", word ">", word "{", word "\""])) any
  -- 84
  | .callbackBinding => seqs [word "^", .call .key, word "=", word "\"", star (alts [.call .event, .call .binder, .call .key]), word "\""]
  -- 86
  | .event => word "$event"
  -- 88
  | .visibilityBinding => seqs [.call .visible, word "=", word "\"", .call .binder, word "\""]
  -- 90
  | .visible => .alt (word "?") (word "!")
  -- 92
  | .repeatBinding => seqs [word "*", .call .key, word "=", word "\"", .call .count, .call .binder, word "\""]
  -- 94
  | .count => star (.chr isDigit)
  -- 97
  | .doubleQuoted => seqs [.call .name, word "=", word "\"", .call .value, word "\""]
  -- 100
  | .unquoted => seqs [.call .name, word "=", .call .value]
  -- 103
  | .empty => .call .name
  -- 106
  | .name => plus (.call .nChar)
  -- 109-112
  | .nChar => seq (.neg (alts [word "\"", word "\\", word "'", word ">", word "/", word "=", word "\x00", .chr isBlank,
      word "@", word "?", word "!", word "*", word "+", word "^", word "#"])) any
  -- 114
  | .binder => seqs [word "{", .call .getter, star (seq (word "|") (.call .transformer)), word "}"]
  -- 116
  | .getter => seq (.call .key) (star (seq (word ".") (.call .key)))
  -- 118
  | .transformer => seq (.call .key) (star (seq (word ":") (.call .getter)))
  -- 120
  | .key => plus (.call .kChar)
  -- 122
  | .kChar => alts [.chr isAlpha, .chr isDigit, word "-", word "_"]
  -- 125
  | .value => star (.call .vChar)
  -- 128-132
  | .vChar => alts [seq (.neg (.alt (word "\"") (word "\\"))) any,
      seq (word "\\") (alts [word "\"", word "\\", word "/", word "b", word "f", word "n", word "r", word "t"]),
      seq (word "\\") (seqs [word "u", .chr isHex, .chr isHex, .chr isHex, .chr isHex])]

/-- The kinds of the rules. -/
def htmlKind : HtmlRule → RuleKind
  | .document | .content | .attribute => .silent
  | .tag | .string | .quotedString | .name | .nChar | .key | .value => .atomic
  | .text => .compound
  | .binder => .nonAtomic
  | _ => .normal

/-- `html.pest`; 2 `WHITESPACE`, 4 `COMMENT`. -/
def htmlGrammar : Grammar HtmlRule where
  kind := htmlKind
  body := htmlBody
  white := .chr isBlank
  comment := Peg.seqs [Peg.word "<!--", Peg.star (Peg.seq (.neg (Peg.word "-->")) Peg.any), Peg.word "-->"]

end Verif
