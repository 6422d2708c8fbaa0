import Mathlib.Data.List.Basic
/-!
# Parsing expression grammars as generated by pest 2

`/repo/src/html/reader.rs` and `/repo/src/css/reader.rs` use parsers that pest generates from `html.pest` and
`css.pest`.  This file models what pest generates: ordered choice without backtracking into a chosen alternative,
greedy repetition, implicit skipping of white space and comments between the parts of a rule that is not atomic, and
the tree of pairs.  Simplification: positions are lists of remaining characters; the pair of `EOI` is left out (the
readers look only at the first pair).
-/
namespace Verif

/-- What skipping and producing pairs depends on: `pest::Atomicity`. -/
inductive Atomicity where
  | nonAtomic | compound | atomic
deriving DecidableEq, Repr

/-- The kinds of rules: `{}`, `_{}`, `@{}`, `${}` and `!{}`. -/
inductive RuleKind where
  | normal | silent | atomic | compound | nonAtomic
deriving DecidableEq, Repr

/-- Parsing expressions; `cat` and `rep` do not skip, `gap` does. -/
inductive Peg (R : Type) where
  | chr (p : Char → Bool)
  | lit (s : List Char)
  | ilit (s : List Char)
  | eps
  | eoi
  | call (r : R)
  | cat (x y : Peg R)
  | alt (x y : Peg R)
  | rep (x : Peg R)
  | neg (x : Peg R)
  | gap

namespace Peg
variable {R : Type}
/-- `x ~ y`. -/
def seq (x y : Peg R) : Peg R := cat x (cat gap y)
/-- `x?`. -/
def opt (x : Peg R) : Peg R := alt x eps
/-- `x*`: pest generates `optional(x ~ repeat(skip ~ x))`. -/
def star (x : Peg R) : Peg R := opt (cat x (rep (cat gap x)))
/-- `x+`: pest rewrites it to `x ~ x*`. -/
def plus (x : Peg R) : Peg R := seq x (star x)
end Peg

/-- `pest::iterators::Pair`: the rule, its text and the pairs inside. -/
inductive Pair (R : Type) where
  | mk (rule : R) (text : List Char) (inner : List (Pair R))

/-- A grammar: the rules and what is skipped. -/
structure Grammar (R : Type) where
  kind : R → RuleKind
  body : R → Peg R
  white : Peg R
  comment : Peg R

/-- `hidden::skip`: `WHITESPACE* ~ (COMMENT ~ WHITESPACE*)*`, without skipping in between. -/
def Grammar.skip {R : Type} (g : Grammar R) : Peg R := .cat (.rep g.white) (.rep (.cat g.comment (.rep g.white)))

/-- The rest of the input after a prefix. -/
def stripPrefix (s : List Char) (i : List Char) : Option (List Char) :=
  match s, i with
  | [], i => some i
  | _ :: _, [] => none
  | c :: s, d :: i => if c = d then stripPrefix s i else none

/-- `eq_ignore_ascii_case`. -/
def lowerAscii (c : Char) : Char := if 'A' ≤ c ∧ c ≤ 'Z' then Char.ofNat (c.toNat + 32) else c

/-- The same ignoring the case of ASCII letters (`match_insensitive`). -/
def stripInsensitive (s : List Char) (i : List Char) : Option (List Char) :=
  match s, i with
  | [], i => some i
  | _ :: _, [] => none
  | c :: s, d :: i => if lowerAscii c = lowerAscii d then stripInsensitive s i else none

/-- What a parser gives: no match, or pairs and the rest of the input. -/
abbrev Parsed (R : Type) := Option (List (Pair R) × List Char)

/-- The pair of a rule, if the atomicity outside it lets it be seen. -/
def wrap {R : Type} (seen : Bool) (r : R) (i : List Char) : Parsed R → Parsed R
  | none => none
  | some (ps, rest) => some (if seen then [.mk r (i.take (i.length - rest.length)) ps] else ps, rest)

/-- The atomicity inside a rule. -/
def RuleKind.inside : RuleKind → Atomicity → Atomicity
  | .normal, a => a
  | .silent, a => a
  | .atomic, _ => .atomic
  | .compound, _ => .compound
  | .nonAtomic, _ => .nonAtomic

/-- Does the rule produce a pair?  `ParserState::rule` does unless it is called in an atomic state; for `${}` and
`!{}` the atomicity is changed before. -/
def RuleKind.seen : RuleKind → Atomicity → Bool
  | .normal, a => a ≠ .atomic
  | .silent, _ => false
  | .atomic, a => a ≠ .atomic
  | .compound, _ => true
  | .nonAtomic, _ => true

/-- Runs a parsing expression; `none` if `fuel` does not suffice.  As in pest, a repetition of something that matches
nothing does not come to an end. -/
def run {R : Type} (g : Grammar R) : Nat → Atomicity → Peg R → List Char → Option (Parsed R)
  | 0, _, _, _ => none
  | _ + 1, _, .chr p, i => some (match i with | c :: i => if p c then some ([], i) else none | [] => none)
  | _ + 1, _, .lit s, i => some ((stripPrefix s i).map fun i => ([], i))
  | _ + 1, _, .ilit s, i => some ((stripInsensitive s i).map fun i => ([], i))
  | _ + 1, _, .eps, i => some (some ([], i))
  | _ + 1, _, .eoi, i => some (match i with | [] => some ([], []) | _ :: _ => none)
  | fuel + 1, a, .call r, i => (run g fuel ((g.kind r).inside a) (g.body r) i).map (wrap ((g.kind r).seen a) r i)
  | fuel + 1, a, .cat x y, i =>
    match run g fuel a x i with
    | none => none
    | some none => some none
    | some (some (ps, i)) =>
      match run g fuel a y i with
      | none => none
      | some none => some none
      | some (some (qs, i)) => some (some (ps ++ qs, i))
  | fuel + 1, a, .alt x y, i =>
    match run g fuel a x i with
    | none => none
    | some none => run g fuel a y i
    | some (some r) => some (some r)
  | fuel + 1, a, .rep x, i =>
    match run g fuel a x i with
    | none => none
    | some none => some (some ([], i))
    | some (some (ps, i)) =>
      match run g fuel a (.rep x) i with
      | none => none
      | some none => some none
      | some (some (qs, i)) => some (some (ps ++ qs, i))
  | fuel + 1, a, .neg x, i =>
    match run g fuel a x i with
    | none => none
    | some none => some (some ([], i))
    | some (some _) => some none
  | fuel + 1, a, .gap, i => if a = .nonAtomic then run g fuel .atomic g.skip i else some (some ([], i))

/-- `Parser::parse`. -/
def Grammar.parse {R : Type} (g : Grammar R) (fuel : Nat) (r : R) (text : List Char) : Option (Parsed R) := run g fuel .nonAtomic (.call r) text

end Verif
