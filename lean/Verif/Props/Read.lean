import Verif.Html.Written
import Verif.Html.Tidy
/-!
# C60, C68, C69: reading templates

`readHtml fuel text` is `read_html` on `text`: `some (.ok html)`, `some (.error .err)` for a `ReaderError`,
`some (.error .panic)` for a panic and `none` while the parser has not come to an end.
-/
namespace Verif
open Written

/-- An element, with its depth: for the examples. -/
structure Outline where
  depth : Nat
  tag : String
  bindings : List ElementBinding := []
  text : Option (List TextSpan) := none
deriving DecidableEq

/-- An element and what it contains. -/
def Html.outline (depth : Nat) : Html → List Outline
  | .mk tag bs text cs => ⟨depth, tag, bs, text⟩ :: outlines (depth + 1) cs
where
  outlines (depth : Nat) : List Html → List Outline
  | [] => []
  | c :: cs => outline depth c ++ outlines depth cs

/-- The outline of the document read, `some none` if it is refused. -/
def outlineOf (fuel : Nat) (text : String) : Option (Option (List Outline)) :=
  match readHtml fuel text with
  | none => none
  | some (.ok html) => some (some (html.outline 0))
  | some (.error .err) => some none
  | some (.error _) => none

/-! ## C60 -/

/-- **C60.** No text read from a template has a line break in a static span. -/
theorem C60_no_line_break {fuel : Nat} {text : String} {html : Html} (h : readHtml fuel text = some (.ok html)) {spans : List TextSpan} (ht : html.HasText spans)
    {s : String} (hs : .string s ∈ spans) : '\n' ∉ s.toList := by
  obtain ⟨b, l, rfl⟩ := readHtml_tidy h ht
  exact tidySpans_newline hs

/-- **C60.** The words of static spans are kept, in order; spans without words may go. -/
theorem C60_words (isLast : Bool) (spans : List TextSpan) :
    (TextSpan.words (tidySpans isLast spans)).filter (!·.isEmpty) = (TextSpan.words spans).filter (!·.isEmpty) := tidySpans_words isLast spans

/-- **C60.** Binders are kept, in order. -/
theorem C60_binders (isLast : Bool) (spans : List TextSpan) : TextSpan.binders (tidySpans isLast spans) = TextSpan.binders spans := tidySpans_binders isLast spans

theorem spans_strings {spans : List TextSpan} {t : List Char} (h : Spans spans t) : ∀ s, .string s ∈ spans → s.toList <:+: t ∧ s ≠ "" := by
  have ne : ∀ {s : String}, IsWord isTextChar s.toList → s ≠ "" := by rintro s h rfl; exact h.1 rfl
  induction h with
  | lastString h1 => intro s hs; simp only [List.mem_singleton, TextSpan.string.injEq] at hs; subst hs; exact ⟨List.infix_rfl, ne h1⟩
  | lastBinder _ => intro s hs; simp at hs
  | @string s' b l u h1 _ ih =>
    intro s hs
    rcases List.mem_cons.1 hs with e | hs
    · injection e with e; subst e; exact ⟨⟨[], u, by simp⟩, ne h1⟩
    · obtain ⟨⟨x, y, e⟩, h2⟩ := ih s hs
      exact ⟨⟨s'.toList ++ x, y, by rw [← e]; simp⟩, h2⟩
  | @binder b t l u _ _ ih =>
    intro s hs
    rcases List.mem_cons.1 hs with e | hs
    · cases e
    · obtain ⟨⟨x, y, e⟩, h2⟩ := ih s hs
      exact ⟨⟨t ++ x, y, by rw [← e]; simp⟩, h2⟩

/-- **C60.** A text on a single line is kept as it is: an element with such a text is read with exactly its spans. -/
theorem C60_single_line {tag : String} {spans : List TextSpan} {t : List Char} (h1 : IsWord isTagChar tag.toList) (h2 : ¬ VoidPrefix tag.toList) (h3 : tag ≠ "script")
    (ht : Spans spans t) (hs : Solid t) (hn : '\n' ∉ t) :
    ∃ F, ∀ fuel, F ≤ fuel → readHtml fuel (String.ofList ('<' :: (tag.toList ++ '>' :: (t ++ '<' :: '/' :: (tag.toList ++ ['>']))))) = some (.ok (.mk tag [] none [.mk "" [] (some spans) []])) := by
  have e : tidySpans true spans = spans := by
    refine tidySpans_lines fun s hs => ?_
    obtain ⟨hi, hne⟩ := spans_strings ht s hs
    exact ⟨fun h => hn (hi.subset h), hne⟩
  have c1 : Content true (.mk "" [] (some spans) []) t := by
    have := Content.text (isLast := true) ht hs
    rwa [e] at this
  have cs : Contents [.mk "" [] (some spans) []] t := by
    have := Contents.cons (cs := []) .nil c1 (.nil .nil) (by simp)
    simpa using this
  have c2 := Content.element (isLast := true) h1 h2 h3 (.nil ⟨.nil, by simp⟩) cs .nil
  have := readHtml_written (Document.mk .nil c2 .nil (by simp [Html.text]))
  simpa using this

/-- The hypotheses are met: `<p>Hi {user.name}!</p>`. -/
example : ∃ F, ∀ fuel, F ≤ fuel → readHtml fuel "<p>Hi {user.name}!</p>" =
    some (.ok (.mk "p" [] none [.mk "" [] (some [.string "Hi ", .binder ⟨"user", ["name"], []⟩, .string "!"]) []])) := by
  have hb : BinderText ⟨"user", ["name"], []⟩ "{user.name}".toList :=
    .mk (b := ⟨"user", ["name"], []⟩) .nil .nil ⟨by decide, by decide⟩ (.cons .nil .nil ⟨by decide, by decide⟩ .nil) .nil
  exact C60_single_line (tag := "p") (t := "Hi {user.name}!".toList) ⟨by decide, by decide⟩ (by unfold VoidPrefix; decide) (by decide)
    (.string (s := "Hi ") (u := "{user.name}!".toList) ⟨by decide, by decide⟩ (.binder (t := "{user.name}".toList) hb (.lastString (s := "!") ⟨by decide, by decide⟩)))
    ⟨by intro c u e; injection e with e _; subst e; decide, by decide⟩ (by decide)

/-- Indentation and line breaks go, words stay. -/
example : tidySpans false [.string "Hello\n   big\n\n\t world\n"] = [.string "Hello big  world "] ∧ tidySpans true [.string "Hello\n   big\n\n\t world\n"] = [.string "Hello big world"] := by decide +kernel

/-- The words of the text as a whole are not kept: a line break between a word and a binder is lost in the last text of
an element, so `Hello` and the name are joined. -/
theorem C60_joins : outlineOf 300 "<p>Hello\n  {name}</p>" = some (some [⟨0, "p", [], none⟩, ⟨1, "", [], some [.string "Hello", .binder ⟨"name", [], []⟩]⟩]) := by decide +kernel

/-! ## C68 -/

/-- **C68.** Reading comes to an end, with a document or a syntax error, on every text: it neither hangs nor panics. -/
theorem C68_reading_ends (text : String) : ∃ r, (∃ F, ∀ fuel ≥ F, readHtml fuel text = some r) ∧ r ≠ .error .panic := by
  obtain ⟨r, F, h⟩ := readHtml_total text
  exact ⟨r, ⟨F, h.1⟩, h.2⟩

/-- Some texts are refused. -/
example : outlineOf 100 "<p>1" = some none ∧ outlineOf 100 "" = some none := by decide +kernel

/-! ## C69 -/

/-- **C69.** Every way of writing a document is read as that document. -/
theorem C69_written_documents_are_read {html : Html} {text : List Char} (h : Document html text) :
    ∃ F, ∀ fuel, F ≤ fuel → readHtml fuel (String.ofList text) = some (.ok html) := readHtml_written h

/-- **C69.** So no text is a way of writing two documents. -/
theorem C69_unambiguous {html html' : Html} {text : List Char} (h : Document html text) (h' : Document html' text) : html = html' := by
  obtain ⟨F, hF⟩ := readHtml_written h
  obtain ⟨F', hF'⟩ := readHtml_written h'
  have h1 := hF (max F F') (Nat.le_max_left F F')
  have h2 := hF' (max F F') (Nat.le_max_right F F')
  rw [h1] at h2
  simpa using h2

/-- A way of writing a document: `<div class="a" ^onclick="Go {x}"><br/> {name} </div>`. -/
example : Document (.mk "div" [.none "class" "a", .callback "onclick" [.keyword "Go", .binder ⟨"x", [], []⟩]] none [.mk "br" [] none [], .mk "" [] (some [.binder ⟨"name", [], []⟩, .string " "]) []])
    "<div class=\"a\" ^onclick=\"Go {x}\"><br/> {name} </div>".toList := by
  have hx : BinderText ⟨"x", [], []⟩ "{x}".toList := .mk (b := ⟨"x", [], []⟩) .nil .nil ⟨by decide, by decide⟩ .nil .nil
  have hn : BinderText ⟨"name", [], []⟩ "{name}".toList := .mk (b := ⟨"name", [], []⟩) .nil .nil ⟨by decide, by decide⟩ .nil .nil
  have sp : Spaces [' '] := ⟨.space (by decide) .nil, by intro c u e; injection e with e _; subst e; decide⟩
  have s0 : Spaces [] := ⟨.nil, by simp⟩
  have b1 : BindingText (.none "class" "a") "class=\"a\"".toList := .none (name := "class") (value := "a") (b1 := []) (b2 := []) (b3 := []) ⟨by decide, by decide⟩ s0 .nil .nil
    (.plain (by decide) (by decide) .nil) ⟨by intro c u e; injection e with e _; subst e; decide, by decide⟩
  have b2 : BindingText (.callback "onclick" [.keyword "Go", .binder ⟨"x", [], []⟩]) "^onclick=\"Go {x}\"".toList :=
    .callback (t := "Go {x}".toList) (.cons (t := "Go".toList) (bl := [' ']) (u := "{x}".toList) (.keyword (k := "Go") ⟨by decide, by decide⟩) (.space (by decide) .nil) (by decide) (.last (bl := []) (.binder hx) .nil) (by decide))
      (.mk (b1 := []) (b2 := []) (b3 := []) (b4 := []) .nil .nil .nil .nil ⟨by decide, by decide⟩)
  have bs : Written.Bindings _ " class=\"a\" ^onclick=\"Go {x}\"".toList := .cons (bl := [' ']) (t := "class=\"a\"".toList) sp (by decide) b1 (.cons (bl := [' ']) sp (by decide) b2 (.nil s0))
  have br : Content false (.mk "br" [] none []) "<br/>".toList := .void (tag := "br") (t := []) (by unfold VoidTag; decide) (.nil s0) (.slash .nil)
  have tx : Content true (.mk "" [] (some [.binder ⟨"name", [], []⟩, .string " "]) []) "{name} ".toList :=
    .text (isLast := true) (spans := [.binder ⟨"name", [], []⟩, .string " "]) (.binder (t := "{name}".toList) hn (.lastString (s := " ") ⟨by decide, by decide⟩))
      ⟨by intro c u e; injection e with e _; subst e; decide, by decide⟩
  have c1 : Contents _ " {name} ".toList := .cons (cs := []) (bl := [' ']) (t := "{name} ".toList) (.space (by decide) .nil) tx (.nil .nil) (by simp)
  have cs : Contents _ "<br/> {name} ".toList := .cons (cs := [_]) (bl := []) (t := "<br/>".toList) .nil br c1 (by simp [Html.text])
  have el := Content.element (isLast := true) (tag := "div") ⟨by decide, by decide⟩ (by unfold VoidPrefix; decide) (by decide) bs cs .nil
  have := Document.mk (b1 := []) (b2 := []) .nil el .nil (by simp [Html.text])
  exact this

/-- A document with every kind of binding, comments and nested elements. -/
theorem C69_example : outlineOf 4000 "<!-- c -->\n<div class=\"a b\" hidden +it=\"{ items . first | up}\" #t=\"{t}\" @style=\"w: {w};\" ^onclick=\"Go {x} $event\" *item=\"3 {items}\" ?=\"{on}\">\n  <br/><p>Hi {name}</p>\n</div>" =
    some (some [⟨0, "div", [.none "class" "a b", .none "hidden" "", .alias "it" ⟨"items", ["first"], ["up"]⟩, .tag "t" ⟨"t", [], []⟩,
        .attribute "style" [.string "w: ", .binder ⟨"w", [], []⟩, .string ";"], .callback "onclick" [.keyword "Go", .binder ⟨"x", [], []⟩, .event],
        .repeat "item" 3 ⟨"items", [], []⟩, .visibility true ⟨"on", [], []⟩], none⟩,
      ⟨1, "br", [], none⟩, ⟨1, "p", [], none⟩, ⟨2, "", [], some [.string "Hi ", .binder ⟨"name", [], []⟩]⟩]) := by decide +kernel

/-! The conditions in `Written` are needed: -/

/-- a space after the name of a transformer becomes part of it, -/
theorem C69_space_after_transformer : outlineOf 300 "<p>{x | up }</p>" = some (some [⟨0, "p", [], none⟩, ⟨1, "", [], some [.binder ⟨"x", [], ["up "]⟩]⟩]) := by decide +kernel
/-- white space after a binder in an attribute is lost, so two classes become one, -/
theorem C69_space_in_attribute : outlineOf 400 "<p @class=\"{a} {b} c\"></p>" =
    some (some [⟨0, "p", [.attribute "class" [.binder ⟨"a", [], []⟩, .binder ⟨"b", [], []⟩, .string "c"]], none⟩]) := by decide +kernel
/-- white space between an element and a text is lost, -/
theorem C69_space_after_element : outlineOf 400 "<p><b>2</b> 3</p>" =
    some (some [⟨0, "p", [], none⟩, ⟨1, "b", [], none⟩, ⟨2, "", [], some [.string "2"]⟩, ⟨1, "", [], some [.string "3"]⟩]) := by decide +kernel
/-- a tag that starts like a void tag is refused, -/
theorem C69_void_prefix : outlineOf 300 "<colgroup></colgroup>" = some none := by decide +kernel
/-- an attribute without quotes is refused, -/
theorem C69_unquoted : outlineOf 300 "<p a=1></p>" = some none := by decide +kernel
/-- a comment mark in a script swallows what follows, here the end of the script, -/
theorem C69_script_comment : outlineOf 500 "<p><script>s='<!--'</script><!-- x --></p>" = some none := by decide +kernel
/-- the closing tag need not fit, -/
theorem C69_closing_tag : outlineOf 300 "<p></b>" = some (some [⟨0, "p", [], none⟩]) := by decide +kernel
/-- and of several elements at the top only the first is kept. -/
theorem C69_second_element : outlineOf 300 "<p></p><b></b>" = some (some [⟨0, "p", [], none⟩]) := by decide +kernel

end Verif
