import Verif.Html.Grammar
import Verif.Html.Types
/-!
# Reading templates (`src/html/reader.rs`)

`none` and `Fail.panic` stand for a panic (`unwrap`, `unreachable!`).
-/
namespace Verif

/-- Rust's `char::is_whitespace` (Unicode `White_Space`). -/
def isSpace (c : Char) : Bool :=
  (0x9 ≤ c.toNat && c.toNat ≤ 0xd) || c.toNat == 0x20 || c.toNat == 0x85 || c.toNat == 0xa0 || c.toNat == 0x1680 ||
  (0x2000 ≤ c.toNat && c.toNat ≤ 0x200a) || c.toNat == 0x2028 || c.toNat == 0x2029 || c.toNat == 0x202f || c.toNat == 0x205f || c.toNat == 0x3000

/-- `reader.rs` 189-202: the text of a static span; line breaks and the indentation after them become a space,
and lines left empty are dropped in the last content of an element. -/
def tidyText (isLast : Bool) (s : List Char) : List Char :=
  match s.splitOn '\n' with
  | [] => []
  | first :: lines => first ++ lines.flatMap fun line =>
    let line := line.dropWhile isSpace
    if !line.isEmpty || !isLast then ' ' :: line else []

/-- `reader.rs` 180-209: all spans. -/
def tidySpans (isLast : Bool) (spans : List TextSpan) : List TextSpan :=
  spans.flatMap fun span => match span with
  | .string s => let text := tidyText isLast s.toList; if text.isEmpty then [] else [.string (String.ofList text)]
  | .binder b => [.binder b]

/-- `Pair::as_str`. -/
def Pair.str {R : Type} : Pair R → String | .mk _ t _ => String.ofList t
/-- `Pair::as_rule`. -/
def Pair.rule {R : Type} : Pair R → R | .mk r _ _ => r
/-- `Pair::into_inner`. -/
def Pair.inner {R : Type} : Pair R → List (Pair R) | .mk _ _ ps => ps

/-- `reader.rs` 253-263: the loop of `parse_binder`. -/
def binderParts : List (Pair HtmlRule) → List String × List String → Option (List String × List String)
  | [], acc => some acc
  | .mk .getter _ keys :: ps, (_, pipe) => binderParts ps (keys.map Pair.str, pipe)
  | .mk .transformer t _ :: ps, (path, pipe) => binderParts ps (path, pipe ++ [String.ofList t])
  | _ :: _, _ => none

/-- `reader.rs` 249-265 `parse_binder`.  A binder without path would panic when it is used. -/
def readBinder (p : Pair HtmlRule) : Option Binder :=
  match binderParts p.inner ([], []) with
  | some (head :: tail, pipe) => some ⟨head, tail, pipe⟩
  | _ => none

/-- The value of a string of digits. -/
def decimal (t : List Char) : Nat := t.foldl (fun n c => n * 10 + (c.toNat - '0'.toNat)) 0

/-- `reader.rs` 275-278: `str::parse::<usize>` with 0 if that fails. -/
def readCount (t : List Char) : Nat :=
  if t.isEmpty || !t.all isDigit then 0 else if decimal t < 2 ^ 64 then decimal t else 0

/-- `reader.rs` 172-178, 291-301: the spans of a text or an attribute; `quoted` is the rule of static spans. -/
def readSpans (static : HtmlRule) : List (Pair HtmlRule) → Option (List TextSpan)
  | [] => some []
  | p :: ps =>
    match if p.rule = static then some (.string p.str) else if p.rule = .binder then (readBinder p).map TextSpan.binder else none, readSpans static ps with
    | some s, some l => some (s :: l)
    | _, _ => none

/-- `reader.rs` 305-314. -/
def readArguments : List (Pair HtmlRule) → Option (List CallbackArgument)
  | [] => some []
  | p :: ps =>
    match match p.rule with
      | .key => some (CallbackArgument.keyword p.str)
      | .binder => (readBinder p).map CallbackArgument.binder
      | .event => some .event
      | _ => none, readArguments ps with
    | some s, some l => some (s :: l)
    | _, _ => none

/-- `reader.rs` 269-337: one binding. -/
def readBinding : Pair HtmlRule → Option ElementBinding
  | .mk _ _ [] => none
  | .mk rule _ (first :: rest) =>
    let name := first.str
    match rule, rest with
    | .repeatBinding, count :: b :: _ => (readBinder b).map fun b => .repeat name (readCount count.str.toList) b
    | .aliasBinding, b :: _ => (readBinder b).map fun b => .alias name b
    | .tagBinding, b :: _ => (readBinder b).map fun b => .tag name b
    | .attributeBinding, spans => (readSpans .quotedString spans).map fun spans => .attribute name spans
    | .callbackBinding, arguments => (readArguments arguments).map fun arguments => .callback name arguments
    | .visibilityBinding, b :: _ => (readBinder b).map fun b => .visibility (name == "?") b
    | .doubleQuoted, value :: _ => some (.none name value.str)
    | .unquoted, value :: _ => some (.none name value.str)
    | .empty, _ => some (.none name "")
    | _, _ => none

/-- `reader.rs` 267-341 `parse_element_bindings`. -/
def readBindings : List (Pair HtmlRule) → Option (List ElementBinding)
  | [] => some []
  | p :: ps =>
    match readBinding p, readBindings ps with
    | some b, some bs => some (b :: bs)
    | _, _ => none

mutual
/-- `reader.rs` 138-247 `parse_content`; the attributes collected in 146-154 and 223-230 are not used. -/
def readContent (isLast : Bool) : Pair HtmlRule → Option Html
  | .mk .element _ (.mk _ tag _ :: .mk _ _ attrs :: .mk _ _ children :: _) =>
    match readBindings attrs, readContents children with
    | some bs, some cs => some (.mk (String.ofList tag) bs none cs)
    | _, _ => none
  | .mk .text _ spans => (readSpans .string spans).map fun spans => .mk "" [] (some (tidySpans isLast spans)) []
  | .mk .void _ (.mk _ tag _ :: .mk _ _ attrs :: _) => (readBindings attrs).map fun bs => .mk (String.ofList tag) bs none []
  | .mk .script _ _ => some (.mk "script" [] none [])
  | _ => none
/-- `reader.rs` 161-166: the children; only the last one is the last content. -/
def readContents : List (Pair HtmlRule) → Option (List Html)
  | [] => some []
  | p :: ps =>
    match readContent ps.isEmpty p, readContents ps with
    | some c, some cs => some (c :: cs)
    | _, _ => none
end

/-- `reader.rs` 126-132 `read_html`; `none` if the fuel for parsing does not suffice. -/
def readHtml (fuel : Nat) (text : String) : Option (Except Fail Html) :=
  match htmlGrammar.parse fuel .document text.toList with
  | none => none
  | some none => some (.error .err)
  | some (some ([], _)) => some (.error .err)
  | some (some (p :: _, _)) =>
    match readContent true p with
    | some html => some (.ok html)
    | none => some (.error .panic)

end Verif
