import Verif.Html.Grammar
/-!
# The grammar of stylesheets (`src/css/css.pest`)
-/
namespace Verif

/-- The rules of `css.pest`, except `WHITESPACE` and `COMMENT`. -/
inductive CssRule where
  | styleSheet | rules | rule | animation | name | keyframes | keyframe | step | style | selectors | complex | combinator
  | compound | simple | all | id | class | type | attribute | matcher | modifier | root | pseudoClass | pseudoElement
  | declarationBlock | declarations | declaration | property | ident | values | shorthand | value | function | var
  | explicit | color | zero | percentage | time | timeUnit | dimension | number | unit | keyword | string | stringLiteral
deriving DecidableEq, Repr

open Peg in
/-- The right sides of the rules. -/
def cssBody : CssRule → Peg CssRule
  -- 5: `SOI` holds at the start, where alone the rule is used
  | .styleSheet => seqs [.eps, .call .rules, .eoi]
  -- 7
  | .rules => star (.call .rule)
  -- 9
  | .rule => .alt (.call .animation) (.call .style)
  -- 13
  | .animation => seqs [word "@keyframes", .call .name, word "{", .call .keyframes, word "}"]
  -- 15
  | .name => plus (alts [.chr isAlpha, .chr isDigit, word "-", word "_"])
  -- 17
  | .keyframes => star (.call .keyframe)
  -- 19
  | .keyframe => seq (.call .step) (.call .declarationBlock)
  -- 21
  | .step => .alt (.call .keyword) (.call .percentage)
  -- 25
  | .style => seq (.call .selectors) (.call .declarationBlock)
  -- 27
  | .selectors => seq (.call .complex) (star (seq (word ",") (.call .complex)))
  -- 29
  | .complex => star (seq (opt (.call .combinator)) (.call .compound))
  -- 31
  | .combinator => alts [word ">", word "+", word "~"]
  -- 33
  | .compound => plus (.call .simple)
  -- 35
  | .simple => alts [.call .all, .call .id, .call .class, .call .root, .call .pseudoClass, .call .pseudoElement, .call .attribute, .call .type]
  -- 37
  | .all => word "*"
  -- 39
  | .id => seq (word "#") (.call .ident)
  -- 41
  | .class => seq (word ".") (.call .ident)
  -- 43
  | .type => .call .ident
  -- 45-48
  | .attribute => .alt (seqs [word "[", .call .ident, word "]"])
      (seqs [word "[", .call .ident, .call .matcher, .alt (.call .string) (.call .ident), opt (.call .modifier), word "]"])
  -- 50
  | .matcher => seq (opt (alts [word "~", word "|", word "^", word "$", word "*"])) (word "=")
  -- 52
  | .modifier => .alt (word "i") (word "s")
  -- 54
  | .root => word ":root"
  -- 56-59
  | .pseudoClass => .alt (seqs [word ":", .call .ident, word "(", star (seq (.neg (word ")")) any), word ")"]) (seq (word ":") (.call .ident))
  -- 61
  | .pseudoElement => seq (word "::") (.call .ident)
  -- 65-67
  | .declarationBlock => seqs [word "{", .call .declarations, word "}"]
  -- 69
  | .declarations => star (.call .declaration)
  -- 71
  | .declaration => seqs [.call .property, word ":", .call .values, word ";"]
  -- 73
  | .property => plus (alts [.chr isAlpha, word "-", word "_"])
  -- 75
  | .ident => plus (alts [.chr isAlpha, .chr isDigit, word "-", word "_"])
  -- 77
  | .values => seq (.call .shorthand) (star (seq (word ",") (.call .shorthand)))
  -- 79
  | .shorthand => seq (.call .value) (star (seq (.chr isBlank) (.call .value)))
  -- 81
  | .value => alts [.call .var, .call .function, .call .explicit]
  -- 83-86
  | .function => .alt (seqs [.call .ident, word "(", word ")"])
      (seqs [.call .ident, word "(", .call .value, star (seqs [word ",", star (.chr isBlank), .call .value]), word ")"])
  -- 88
  | .var => seqs [word "var", word "(", .call .keyword, opt (seq (word ",") (.call .value)), word ")"]
  -- 90-99
  | .explicit => alts [.call .color, .call .keyword, .call .percentage, .call .time, .call .dimension, .call .zero, .call .number, .call .string]
  -- 101
  | .color => seq (word "#") (plus (.chr isHex))
  -- 103
  | .zero => seq (word "0") (.neg (word "."))
  -- 105
  | .percentage => seq (.call .number) (word "%")
  -- 107
  | .time => seq (.call .number) (.call .timeUnit)
  -- 109
  | .timeUnit => .alt (word "ms") (word "s")
  -- 111
  | .dimension => seq (.call .number) (.call .unit)
  -- 113
  | .number => plus (alts [.chr isDigit, word "-", word "."])
  -- 115
  | .unit => plus (.chr isAlpha)
  -- 117
  | .keyword => seqs [opt (word "-"), opt (word "-"), plus (alts [.chr isAlpha, word "-", word "_"])]
  -- 119
  | .string => seqs [word "\"", .call .stringLiteral, word "\""]
  -- 121
  | .stringLiteral => star (seq (.neg (word "\"")) any)

/-- The kinds of the rules. -/
def cssKind : CssRule → RuleKind
  | .styleSheet | .rule | .keyframes | .step | .simple | .value => .silent
  | .name | .stringLiteral => .atomic
  | .compound | .shorthand => .compound
  | _ => .normal

/-- `css.pest`; 1 `WHITESPACE`, 3 `COMMENT`. -/
def cssGrammar : Grammar CssRule where
  kind := cssKind
  body := cssBody
  white := .chr isBlank
  comment := Peg.seqs [Peg.word "/*", Peg.star (Peg.seq (.neg (Peg.word "*/")) Peg.any), Peg.word "*/"]

end Verif
