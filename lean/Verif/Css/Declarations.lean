import Verif.Css.Values
import Verif.Css.Names
import Verif.Peg.Takes
/-!
# Declarations, read back
-/
namespace Verif.Sheet
open Written (IsWord isKeyChar)

local notation "S" => cssGrammar

/-! ## Shorthands -/

/-- What may follow a shorthand: at most one blank is tried before a value. -/
def ShortEnd (r : List Char) : Prop := Ends isOpen r ∧ ∀ c u, r = c :: u → isBlank c = true → Ends isStart u

theorem shortEnd_blanks {b : List Char} (hb : Blanks b) {c : Char} (h1 : isOpen c = false) (h2 : isStart c = false) (h3 : isBlank c = false) (r : List Char) : ShortEnd (b ++ c :: r) := by
  refine ⟨blanks_ends (not_blank (by decide)) (by decide) hb (ends_cons h1), ?_⟩
  intro d u e hd
  cases b with
  | nil => injection e with e _; subst e; rw [h3] at hd; cases hd
  | cons x b =>
    injection e with e1 e2
    subst e1 e2
    rcases blanks_head hb rfl with ⟨-, h⟩ | rfl
    · exact blanks_ends (not_blank (by decide)) (by decide) h (ends_cons h2)
    · exact absurd hd (by decide)

/-- The expression for further values. -/
abbrev moreValue : Peg CssRule := .seq (.chr isBlank) (.call .value)

theorem value_end_none {r : List Char} (h : ShortEnd r) : Runs S .compound moreValue r none := by
  cases r with
  | nil => exact Runs.seq_left (.chr_not fun c u e => (by cases e))
  | cons c u =>
    cases hb : isBlank c with
    | false => exact Runs.seq_left (.chr_not fun d w e => by injection e with e _; rw [← e]; exact hb)
    | true => exact (Runs.chr hb).seq_right c0 (value_none (h.2 c u rfl hb))

theorem blank_open : ∀ c, isBlank c = true → isOpen c = false := not_blank (by decide)

theorem short_many {ds : Shorthand} {t : List Char} (h : Short ds t) {r : List Char} (hr : ShortEnd r) :
    ∃ p ps m, Runs S .compound (.call .value) (t ++ r) (some ([p], m)) ∧ ManyIn S .compound moreValue m ps r ∧ readValues (p :: ps) = some ds := by
  induction h with
  | one h =>
    obtain ⟨p, h1, h2⟩ := runs_value h hr.1
    exact ⟨p, [], r, h1, .nil (value_end_none hr) c0, by simp [readValues, h2]⟩
  | @cons d t c ds u h hc _ ih =>
    obtain ⟨q, qs, m, h1, h2, h3⟩ := ih
    obtain ⟨p, h4, h5⟩ := runs_value h (r := c :: (u ++ r)) (ends_cons (blank_open c hc))
    refine ⟨p, q :: qs, c :: (u ++ r), by simpa using h4, ?_, ?_⟩
    · exact ManyIn.cons (ps := [q]) (.of ((Runs.chr hc).seq c0 h1) c0) h2
    · rw [readValues, h5, h3]

theorem short_head {ds : Shorthand} {t : List Char} (h : Short ds t) : ∃ c u, t = c :: u ∧ isStart c = true := by
  cases h with
  | one h => exact value_head h
  | cons h _ _ => obtain ⟨c, u, rfl, hc⟩ := value_head h; exact ⟨c, _, rfl, hc⟩

theorem start_solid {c : Char} {u : List Char} (h : isStart c = true) : Solid (c :: u) :=
  solid_cons (start_blank h) (by rintro rfl; revert h; decide)

theorem runs_short {ds : Shorthand} {t : List Char} (h : Short ds t) {r : List Char} (hr : ShortEnd r) :
    ∃ x ps, Runs S .nonAtomic (.call .shorthand) (t ++ r) (some ([.mk .shorthand x ps], r)) ∧ readValues ps = some ds := by
  obtain ⟨p, ps, m, h1, h2, h3⟩ := short_many h hr
  obtain ⟨m', h4, h5⟩ := h2.star
  obtain ⟨-, rfl⟩ := Prod.mk.inj (Option.some.inj (h5.unique c0))
  obtain ⟨x, hx⟩ := Runs.call_pair (g := S) (a := .nonAtomic) (r := CssRule.shorthand) rfl (h1.seq c0 h4)
  exact ⟨x, _, hx, h3⟩

/-! ## Values of a declaration -/

/-- The expression for further shorthands. -/
abbrev moreShort : Peg CssRule := .seq (Peg.word ",") (.call .shorthand)

theorem solid_char {c : Char} {u : List Char} (h1 : isBlank c = false) (h2 : c ≠ '/') : Solid (c :: u) := solid_cons h1 h2

theorem values_many {l : List Shorthand} {t : List Char} (h : Values l t) {b r : List Char} (hb : Blanks b) :
    ∃ q ps j, Takes S (.call .shorthand) (t ++ (b ++ ';' :: r)) [q] j ∧ Many S moreShort j ps (';' :: r) ∧ readShorthands (q :: ps) = some l := by
  induction h with
  | @one s t h =>
    obtain ⟨x, ps, h1, h2⟩ := runs_short h (r := b ++ ';' :: r) (shortEnd_blanks hb (by decide) (by decide) (by decide) r)
    have hs : Solid (';' :: r) := solid_cons (by decide) (by decide)
    refine ⟨_, [], ';' :: r, .of h1 (runs_gap hs hb), .nil ?_ (runs_gap0 hs), by simp [readShorthands, Pair.inner, h2]⟩
    exact Runs.seq_left (runs_word1_none (d := ',') rfl (by rintro c u e rfl; injection e with e _; revert e; decide))
  | @cons s t b1 b2 l u h hb1 hb2 hu ih =>
    obtain ⟨q, ps, j, h1, h2, h3⟩ := ih
    obtain ⟨x, qs, h4, h5⟩ := runs_short h (r := b1 ++ ',' :: (b2 ++ (u ++ (b ++ ';' :: r)))) (shortEnd_blanks hb1 (by decide) (by decide) (by decide) _)
    have hs : Solid (',' :: (b2 ++ (u ++ (b ++ ';' :: r)))) := solid_cons (by decide) (by decide)
    have hsu : Solid (u ++ (b ++ ';' :: r)) := by
      cases hu with
      | one h => obtain ⟨c, w, rfl, hc⟩ := short_head h; exact start_solid hc
      | cons h _ _ _ => obtain ⟨c, w, rfl, hc⟩ := short_head h; exact start_solid hc
    refine ⟨_, q :: ps, _, .of (by simpa using h4) (runs_gap hs hb1), ?_, by rw [readShorthands, h3]; simp [Pair.inner, h5]⟩
    exact ManyIn.cons (ps := [q]) ((Takes.of (runs_word1 rfl) (runs_gap hsu hb2)).seq h1) h2

theorem values_solid {l : List Shorthand} {t : List Char} (h : Values l t) (r : List Char) : Solid (t ++ r) := by
  cases h with
  | one h => obtain ⟨c, w, rfl, hc⟩ := short_head h; exact start_solid hc
  | cons h _ _ _ => obtain ⟨c, w, rfl, hc⟩ := short_head h; exact start_solid hc

theorem takes_values {l : List Shorthand} {t : List Char} (h : Values l t) {b : List Char} (hb : Blanks b) (r : List Char) :
    ∃ x ps, Takes S (.call .values) (t ++ (b ++ ';' :: r)) [.mk .values x ps] (';' :: r) ∧ readShorthands ps = some l := by
  obtain ⟨q, ps, j, h1, h2, h3⟩ := values_many h hb (r := r)
  have : Takes S (cssBody .values) (t ++ (b ++ ';' :: r)) (q :: ps) (';' :: r) := h1.seq h2.star
  obtain ⟨x, hx⟩ := Takes.call (g := S) (r := CssRule.values) rfl rfl this
  exact ⟨x, _, hx, h3⟩

/-! ## Declarations -/

theorem runs_property {name : String} (h : IsWord isLetter name.toList) (hl : 2 ≤ name.toList.length) {b : List Char} (hb : Blanks b) (r : List Char) :
    Takes S (.call .property) (name.toList ++ (b ++ ':' :: r)) [.mk .property name.toList []] (':' :: r) := by
  have hs : Solid (':' :: r) := solid_cons (by decide) (by decide)
  exact .of (Runs.call_seen (g := S) (a := .nonAtomic) (r := CssRule.property) (t := name.toList) rfl ((letter_class _).plus_skip letter_plain h hb hs (ends_cons (by decide)) (.inl hl))) (runs_gap hs hb)

theorem runs_assigns {name : String} {values : List Shorthand} {t : List Char} (h : Assigns name values t) (hl : 2 ≤ name.toList.length) (r : List Char) :
    ∃ x y ps, Runs S .nonAtomic (.call .declaration) (t ++ r) (some ([.mk .declaration x [.mk .property name.toList [], .mk .values y ps]], r)) ∧ readShorthands ps = some values := by
  cases h with
  | @mk b1 b2 b3 t hn hb1 hb2 hb3 hv =>
    obtain ⟨y, ps, h1, h2⟩ := takes_values hv hb3 r
    have hp := runs_property hn hl hb1 (b2 ++ (t ++ (b3 ++ ';' :: r)))
    have hc : Takes S (Peg.word ":") (':' :: (b2 ++ (t ++ (b3 ++ ';' :: r)))) [] (t ++ (b3 ++ ';' :: r)) := .of (runs_word1 rfl) (runs_gap (values_solid hv _) hb2)
    have hall : Runs S .nonAtomic (cssBody .declaration) (name.toList ++ (b1 ++ ':' :: (b2 ++ (t ++ (b3 ++ ';' :: r))))) (some ([.mk .property name.toList [], .mk .values y ps], r)) :=
      hp.seq_runs (hc.seq_runs (h1.seq_runs (runs_word1 rfl)))
    obtain ⟨x, hx⟩ := Runs.call_pair (g := S) (a := .nonAtomic) (r := CssRule.declaration) rfl hall
    exact ⟨x, y, ps, by simpa using hx, h2⟩

theorem runs_declaration {d : Option Declaration} {t : List Char} (h : DeclarationText d t) (r : List Char) :
    ∃ p, Runs S .nonAtomic (.call .declaration) (t ++ r) (some ([p], r)) ∧ readDeclaration p = some d := by
  cases h with
  | @property name key values t hk ha =>
    obtain ⟨hl, hd, -⟩ := PropertyKey.name_shape hk
    obtain ⟨x, y, ps, h1, h2⟩ := runs_assigns ha hl r
    refine ⟨_, h1, ?_⟩
    have hv : ¬ "--".toList <+: name.toList := by
      rintro ⟨u, e⟩; rw [← e] at hd; exact hd rfl
    simp only [readDeclaration, Pair.str, String.ofList_toList, Pair.inner]
    rw [if_neg hv, PropertyKey.parse_iff.2 hk, h2]
    rfl
  | @«variable» name s l t hp ha =>
    have hl : 2 ≤ name.toList.length := by simpa using hp.length_le
    obtain ⟨x, y, ps, h1, h2⟩ := runs_assigns ha hl r
    refine ⟨_, h1, ?_⟩
    simp only [readDeclaration, Pair.str, String.ofList_toList, Pair.inner]
    rw [if_pos hp, h2]
  | @unknown name values t hk hp hl ha =>
    obtain ⟨x, y, ps, h1, h2⟩ := runs_assigns ha (by rw [String.length_toList]; exact hl) r
    refine ⟨_, h1, ?_⟩
    simp only [readDeclaration, Pair.str, String.ofList_toList, Pair.inner]
    rw [if_neg hp, PropertyKey.parse_none hk]

theorem declaration_none {i : List Char} (h : Ends isLetter i) : Runs S .nonAtomic (.call .declaration) i none :=
  Runs.call_none (Runs.seq_left (Runs.call_none ((letter_class _).plus_none h)))

theorem assigns_solid {name : String} {values : List Shorthand} {t : List Char} (h : Assigns name values t) (r : List Char) : Solid (t ++ r) := by
  cases h with
  | mk hn _ _ _ _ =>
    rw [List.append_assoc]; exact word_solid letter_plain hn

theorem declarationText_solid {d : Option Declaration} {t : List Char} (h : DeclarationText d t) (r : List Char) : Solid (t ++ r) := by
  cases h with
  | property _ h => exact assigns_solid h r
  | «variable» _ h => exact assigns_solid h r
  | unknown _ _ _ h => exact assigns_solid h r

theorem declarations_solid {ds : List Declaration} {t : List Char} (h : Declarations ds t) {r : List Char} (hr : Solid r) : Solid (t ++ r) := by
  cases h with
  | nil => exact hr
  | cons h _ _ => rw [List.append_assoc]; exact declarationText_solid h _

theorem declarations_many {ds : List Declaration} {t : List Char} (h : Declarations ds t) {r : List Char} (hs : Solid r) (hr : Ends isLetter r) :
    ∃ ps, Many S (.call .declaration) (t ++ r) ps r ∧ readDeclarations ps = some ds := by
  induction h with
  | nil => exact ⟨[], .nil (declaration_none hr) (runs_gap0 hs), rfl⟩
  | @cons d t bl ds u h hb hu ih =>
    obtain ⟨ps, h1, h2⟩ := ih
    obtain ⟨p, h3, h4⟩ := runs_declaration h (bl ++ (u ++ r))
    refine ⟨p :: ps, ?_, by simp [readDeclarations, h4, h2]⟩
    have := ManyIn.cons (.of h3 (runs_gap (declarations_solid hu hs) hb)) h1
    simpa using this

theorem takes_declarations {ds : List Declaration} {t : List Char} (h : Declarations ds t) {r : List Char} (hs : Solid r) (hr : Ends isLetter r) :
    ∃ x ps, Takes S (.call .declarations) (t ++ r) [.mk .declarations x ps] r ∧ readDeclarations ps = some ds := by
  obtain ⟨ps, h1, h2⟩ := declarations_many h hs hr
  obtain ⟨x, hx⟩ := Takes.call (g := S) (r := CssRule.declarations) rfl rfl h1.star
  exact ⟨x, ps, hx, h2⟩

theorem runs_block {ds : List Declaration} {t : List Char} (h : Block ds t) (r : List Char) :
    ∃ p, Runs S .nonAtomic (.call .declarationBlock) (t ++ r) (some ([p], r)) ∧ readBlock p = some ds := by
  cases h with
  | @mk bl ds t hb hd =>
    have hs : Solid ('}' :: r) := solid_cons (by decide) (by decide)
    obtain ⟨x, ps, h1, h2⟩ := takes_declarations hd hs (ends_cons (by decide))
    have ho : Takes S (Peg.word "{") ('{' :: (bl ++ (t ++ '}' :: r))) [] (t ++ '}' :: r) := .of (runs_word1 rfl) (runs_gap (declarations_solid hd hs) hb)
    have hall : Runs S .nonAtomic (cssBody .declarationBlock) ('{' :: (bl ++ (t ++ '}' :: r))) (some ([.mk .declarations x ps], r)) := ho.seq_runs (h1.seq_runs (runs_word1 rfl))
    obtain ⟨y, hy⟩ := Runs.call_pair (g := S) (a := .nonAtomic) (r := CssRule.declarationBlock) rfl hall
    exact ⟨_, by simpa using hy, by simp [readBlock, Pair.inner, h2]⟩

/-- Inline declarations are read as written. -/
theorem readInline_written {ds : List Declaration} {t : List Char} (h : Declarations ds t) : ∃ F, ∀ fuel ≥ F, readInline fuel (String.ofList t) = some (.ok ds) := by
  obtain ⟨x, ps, ⟨m, h1, -⟩, h2⟩ := takes_declarations h solid_nil (r := []) (fun c u e => (by cases e))
  obtain ⟨F, hF⟩ := h1.settles
  refine ⟨F, fun fuel hf => ?_⟩
  have := hF fuel hf
  rw [List.append_nil] at this
  unfold readInline Grammar.parse
  rw [String.toList_ofList, this]
  simp [Pair.inner, h2]

end Verif.Sheet
