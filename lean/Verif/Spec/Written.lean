import Verif.Html.Reader
/-!
# How templates are written (C69)

A relation between documents and the texts that stand for them, independent of the parser: `Document html text` says
that `text` is a way of writing `html`.
-/
namespace Verif.Written

/-- White space and comments. -/
inductive Blanks : List Char → Prop
  | nil : Blanks []
  | space {c t} : isBlank c = true → Blanks t → Blanks (c :: t)
  | comment {c t} : ¬ "-->".toList <:+: c → Blanks t → Blanks ("<!--".toList ++ c ++ "-->".toList ++ t)

/-- The same, not starting with a comment. -/
def Spaces (t : List Char) : Prop := Blanks t ∧ ∀ c u, t = c :: u → isBlank c = true

/-- Does not start with white space or a comment. -/
def Solid (t : List Char) : Prop := (∀ c u, t = c :: u → isBlank c = false) ∧ ¬ "<!--".toList <+: t

/-- A character of a key. -/
def isKeyChar (c : Char) : Bool := isAlpha c || isDigit c || c == '-' || c == '_'
/-- A character of a tag. -/
def isTagChar (c : Char) : Bool := isAlpha c || isDigit c || c == '-'
/-- A character of the name of an attribute. -/
def isNameChar (c : Char) : Bool := !isBlank c && !("\"\\'>/=\x00@?!*+^#".toList.contains c)
/-- A character of a text. -/
def isTextChar (c : Char) : Bool := c != '<' && c != '>' && c != '{'
/-- A static character of an attribute with binders. -/
def isQuotedChar (c : Char) : Bool := isTextChar c && c != '"'

/-- A word made of such characters. -/
def IsWord (p : Char → Bool) (t : List Char) : Prop := t ≠ [] ∧ ∀ c ∈ t, p c = true

/-- The value of an attribute: no quote, and backslashes only in escapes. -/
inductive Value : List Char → Prop
  | nil : Value []
  | plain {c t} : c ≠ '"' → c ≠ '\\' → Value t → Value (c :: t)
  | escape {c t} : c ∈ "\"\\/bfnrt".toList → Value t → Value ('\\' :: c :: t)
  | unicode {a b c d t} : isHex a = true → isHex b = true → isHex c = true → isHex d = true → Value t → Value ('\\' :: 'u' :: a :: b :: c :: d :: t)

/-- The rest of a path: `.key.key`. -/
inductive Tail : List String → List Char → Prop
  | nil : Tail [] []
  | cons {k ks b1 b2 t} : Blanks b1 → Blanks b2 → IsWord isKeyChar k.toList → Tail ks t → Tail (k :: ks) (b1 ++ '.' :: (b2 ++ k.toList ++ t))

/-- The transformers of a binder: `|name|name`; a name is not followed by white space. -/
inductive Pipe : List String → List Char → Prop
  | nil : Pipe [] []
  | cons {k ks b t} : Blanks b → IsWord isKeyChar k.toList → Pipe ks t → Pipe (k :: ks) ('|' :: (b ++ k.toList ++ t))

/-- `{ head.key | name|name}`. -/
inductive BinderText : Binder → List Char → Prop
  | mk {b : Binder} {b1 b2 t u} : Blanks b1 → Blanks b2 → IsWord isKeyChar b.head.toList → Tail b.tail t → Pipe b.pipe u →
      BinderText b ('{' :: (b1 ++ b.head.toList ++ t ++ b2 ++ u ++ ['}']))

/-- The spans of an attribute; white space after a binder is not part of it. -/
inductive Quoted : List TextSpan → List Char → Prop
  | lastString {s} : IsWord isQuotedChar s.toList → Solid s.toList → Quoted [.string s] s.toList
  | lastBinder {b t bl} : BinderText b t → Blanks bl → Quoted [.binder b] (t ++ bl)
  | string {s b l u} : IsWord isQuotedChar s.toList → Solid s.toList → Quoted (.binder b :: l) u → Quoted (.string s :: .binder b :: l) (s.toList ++ u)
  | binder {b t bl l u} : BinderText b t → Blanks bl → Quoted l u → Quoted (.binder b :: l) (t ++ bl ++ u)

/-- The spans of a text: strings between binders. -/
inductive Spans : List TextSpan → List Char → Prop
  | lastString {s} : IsWord isTextChar s.toList → Spans [.string s] s.toList
  | lastBinder {b t} : BinderText b t → Spans [.binder b] t
  | string {s b l u} : IsWord isTextChar s.toList → Spans (.binder b :: l) u → Spans (.string s :: .binder b :: l) (s.toList ++ u)
  | binder {b t l u} : BinderText b t → Spans l u → Spans (.binder b :: l) (t ++ u)

/-- One argument of a callback. -/
inductive Argument : CallbackArgument → List Char → Prop
  | keyword {k} : IsWord isKeyChar k.toList → Argument (.keyword k) k.toList
  | event : Argument .event "$event".toList
  | binder {b t} : BinderText b t → Argument (.binder b) t

/-- The arguments of a callback, with white space between them. -/
inductive Arguments : List CallbackArgument → List Char → Prop
  | nil : Arguments [] []
  | last {a t bl} : Argument a t → Blanks bl → Arguments [a] (t ++ bl)
  | cons {a t bl l u} : Argument a t → Blanks bl → bl ≠ [] → Arguments l u → l ≠ [] → Arguments (a :: l) (t ++ bl ++ u)

/-- `sign key = "content"`, with white space anywhere between. -/
inductive Signed (sign : Char) (key : String) (content : List Char) : List Char → Prop
  | mk {b1 b2 b3 b4} : Blanks b1 → Blanks b2 → Blanks b3 → Blanks b4 → IsWord isKeyChar key.toList →
      Signed sign key content (sign :: (b1 ++ key.toList ++ b2 ++ '=' :: (b3 ++ '"' :: (b4 ++ content ++ ['"']))))

/-- A binding of an element. -/
inductive BindingText : ElementBinding → List Char → Prop
  | none {name value b1 b2 b3} : IsWord isNameChar name.toList → Spaces b1 → Blanks b2 → Blanks b3 → Value value.toList → Solid value.toList →
      BindingText (.none name value) (name.toList ++ b1 ++ '=' :: (b2 ++ '"' :: (b3 ++ value.toList ++ ['"'])))
  | empty {name} : IsWord isNameChar name.toList → BindingText (.none name "") name.toList
  | alias {name b t bl u} : BinderText b t → Blanks bl → Signed '+' name (t ++ bl) u → BindingText (.alias name b) u
  | tag {name b t bl u} : BinderText b t → Blanks bl → Signed '#' name (t ++ bl) u → BindingText (.tag name b) u
  | attribute {name spans t u} : Quoted spans t → Signed '@' name t u → BindingText (.attribute name spans) u
  | callback {name arguments t u} : Arguments arguments t → Signed '^' name t u → BindingText (.callback name arguments) u
  | repeat {name count b digits bl1 t bl2 u} : IsWord isDigit digits → decimal digits = count → count < 2 ^ 64 → Blanks bl1 → BinderText b t → Blanks bl2 →
      Signed '*' name (digits ++ bl1 ++ t ++ bl2) u → BindingText (.repeat name count b) u
  | visibility {visible b b1 b2 b3 t bl} : Blanks b1 → Blanks b2 → Blanks b3 → BinderText b t → Blanks bl →
      BindingText (.visibility visible b) ((if visible then '?' else '!') :: (b1 ++ '=' :: (b2 ++ '"' :: (b3 ++ t ++ bl ++ ['"']))))

/-- The bindings of an element, each after white space. -/
inductive Bindings : List ElementBinding → List Char → Prop
  | nil {bl} : Spaces bl → Bindings [] bl
  | cons {b t bl bs u} : Spaces bl → bl ≠ [] → BindingText b t → Bindings bs u → Bindings (b :: bs) (bl ++ t ++ u)

/-- The tags of elements without content (`html.pest` 23-40), in small letters. -/
def voidNames : List (List Char) := ["area", "base", "br", "col", "command", "embed", "hr", "img", "input", "keygen", "link", "meta", "param", "source", "track", "wbr"].map String.toList

/-- A tag of such an element, in any case. -/
def VoidTag (tag : List Char) : Prop := tag.map lowerAscii ∈ voidNames
/-- A tag that starts like one. -/
def VoidPrefix (tag : List Char) : Prop := ∃ name ∈ voidNames, name <+: tag.map lowerAscii

/-- The end of such an element: `>` or `/>`. -/
inductive Ending : List Char → Prop
  | plain : Ending ['>']
  | slash {bl} : Blanks bl → Ending ('/' :: (bl ++ ['>']))

mutual
/-- A piece of content; `isLast` if nothing follows in its parent. -/
inductive Content : Bool → Html → List Char → Prop
  | script {isLast c} : ¬ "</script>".toList <:+: c → ¬ "<!--".toList <:+: c → Content isLast (.mk "script" [] none []) ("<script>".toList ++ c ++ "</script>".toList)
  | void {isLast tag bs t e} : VoidTag tag.toList → Bindings bs t → Ending e → Content isLast (.mk tag bs none []) ('<' :: (tag.toList ++ t ++ e))
  | text {isLast spans t} : Spans spans t → Solid t → Content isLast (.mk "" [] (some (tidySpans isLast spans)) []) t
  | element {isLast tag bs cs t u bl} : IsWord isTagChar tag.toList → ¬ VoidPrefix tag.toList → tag ≠ "script" → Bindings bs t → Contents cs u → Blanks bl →
      Content isLast (.mk tag bs none cs) ('<' :: (tag.toList ++ t ++ '>' :: (u ++ '<' :: '/' :: (tag.toList ++ bl ++ ['>']))))
/-- The content of an element; a text ends where a tag or comment starts. -/
inductive Contents : List Html → List Char → Prop
  | nil {bl} : Blanks bl → Contents [] bl
  | cons {c t cs u bl} : Blanks bl → Content cs.isEmpty c t → Contents cs u → (c.text.isSome → ∀ d v, u = d :: v → d = '<') → Contents (c :: cs) (bl ++ t ++ u)
end

/-- A whole document. -/
inductive Document : Html → List Char → Prop
  | mk {html b1 t b2} : Blanks b1 → Content true html t → Blanks b2 → (html.text.isSome → ∀ d v, b2 = d :: v → d = '<') → Document html (b1 ++ t ++ b2)

end Verif.Written
