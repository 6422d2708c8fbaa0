import Verif.Css.Declarations
/-!
# Selectors, read back
-/
namespace Verif.Sheet
open Written (IsWord isKeyChar)

local notation "S" => cssGrammar

/-- What must not follow a simple selector directly. -/
def isJoin (c : Char) : Bool := isKeyChar c || c == '('
/-- What a simple selector may start with. -/
def isMark (c : Char) : Bool := isKeyChar c || c == '*' || c == '#' || c == '.' || c == ':' || c == '['
/-- What must not follow a compound selector directly. -/
def isBound (c : Char) : Bool := isMark c || c == '('

theorem bound_join {r : List Char} (h : Ends isBound r) : Ends isJoin r := fun c u e => by
  have := h c u e
  simp only [isBound, isMark, isJoin, Bool.or_eq_false_iff] at this ⊢
  exact ⟨this.1.1.1.1.1.1, this.2⟩
theorem bound_mark {r : List Char} (h : Ends isBound r) : Ends isMark r := fun c u e => by
  have := h c u e; simp only [isBound, Bool.or_eq_false_iff] at this; exact this.1
theorem mark_key {r : List Char} (h : Ends isMark r) : Ends isKeyChar r := fun c u e => by
  have := h c u e; simp only [isMark, Bool.or_eq_false_iff] at this; exact this.1.1.1.1.1
theorem join_key {r : List Char} (h : Ends isJoin r) : Ends isKeyChar r := fun c u e => by
  have := h c u e; simp only [isJoin, Bool.or_eq_false_iff] at this; exact this.1
theorem ends_ne {p : Char → Bool} {r : List Char} (h : Ends p r) {d : Char} (hd : p d = true) : ∀ c u, r = c :: u → c ≠ d := by
  rintro c u e rfl; rw [h c u e] at hd; cases hd
theorem cons_ne {x d : Char} (h : x ≠ d) {r : List Char} : ∀ c u, x :: r = c :: u → c ≠ d := by
  rintro c u e rfl; injection e with e _; exact h e

/-! ## Simple selectors -/

section
variable {i : List Char}
theorem all_none (h : ∀ c u, i = c :: u → c ≠ '*') : Runs S .compound (.call .all) i none := Runs.call_none (runs_word1_none (d := '*') rfl h)
theorem id_none (h : ∀ c u, i = c :: u → c ≠ '#') : Runs S .compound (.call .id) i none := Runs.call_none (Runs.seq_left (runs_word1_none (d := '#') rfl h))
theorem class_none (h : ∀ c u, i = c :: u → c ≠ '.') : Runs S .compound (.call .class) i none := Runs.call_none (Runs.seq_left (runs_word1_none (d := '.') rfl h))
theorem root_none (h : ∀ c u, i = c :: u → c ≠ ':') : Runs S .compound (.call .root) i none := Runs.call_none (Runs.lit_ne (d := ':') h)
theorem pseudoClass_none (h : ∀ c u, i = c :: u → c ≠ ':') : Runs S .compound (.call .pseudoClass) i none :=
  Runs.call_none (Runs.alt_right (Runs.seq_left (runs_word1_none (d := ':') rfl h)) (Runs.seq_left (runs_word1_none (d := ':') rfl h)))
theorem pseudoElement_none (h : ∀ c u, i = c :: u → c ≠ ':') : Runs S .compound (.call .pseudoElement) i none := Runs.call_none (Runs.seq_left (Runs.lit_ne (d := ':') h))
theorem attribute_none (h : ∀ c u, i = c :: u → c ≠ '[') : Runs S .compound (.call .attribute) i none :=
  Runs.call_none (Runs.alt_right (Runs.seq_left (runs_word1_none (d := '[') rfl h)) (Runs.seq_left (runs_word1_none (d := '[') rfl h)))

theorem simple_none (h : Ends isMark i) : Runs S .compound (.call .simple) i none := by
  refine Runs.call_none (Runs.alts_none ?_)
  simp only [List.mem_cons, List.not_mem_nil, or_false]
  rintro y (rfl | rfl | rfl | rfl | rfl | rfl | rfl | rfl)
  · exact all_none (ends_ne h (by decide))
  · exact id_none (ends_ne h (by decide))
  · exact class_none (ends_ne h (by decide))
  · exact root_none (ends_ne h (by decide))
  · exact pseudoClass_none (ends_ne h (by decide))
  · exact pseudoElement_none (ends_ne h (by decide))
  · exact attribute_none (ends_ne h (by decide))
  · exact Runs.call_none (runs_ident_none (mark_key h))
end

theorem simple_some {pre post : List (Peg CssRule)} {x : Peg CssRule} {i r : List Char} {p : Pair CssRule} (hx : Runs S .compound x i (some ([p], r)))
    (hp : ∀ y ∈ pre, Runs S .compound y i none)
    (e : pre ++ x :: post = [.call .all, .call .id, .call .class, .call .root, .call .pseudoClass, .call .pseudoElement, .call .attribute, .call .type]) :
    Runs S .compound (.call .simple) i (some ([p], r)) := by
  refine Runs.call_hidden (g := S) (r := CssRule.simple) rfl ?_
  change Runs S .compound (Peg.alts _) _ _
  rw [← e]
  exact Runs.alts_some hx hp

theorem ident_c {n : String} (h : IsWord isKeyChar n.toList) {r : List Char} (hr : Ends isKeyChar r) :
    Runs S .compound (.call .ident) (n.toList ++ r) (some ([.mk .ident n.toList []], r)) := runs_ident (by decide) (by decide) h hr

theorem prefix_word {a n r : List Char} (ha : ∀ c ∈ a, isKeyChar c = true) (hr : Ends isKeyChar r) (h : a <+: n ++ r) : a <+: n := by
  obtain ⟨u, e⟩ := h
  rcases List.append_eq_append_iff.1 e with ⟨as, e1, e2⟩ | ⟨bs, e1, e2⟩
  · exact ⟨as, e1.symm⟩
  · cases bs with
    | nil => rw [List.append_nil] at e1; rw [e1]; exact List.prefix_rfl
    | cons c bs =>
      have h1 := hr c (bs ++ u) e2
      have h2 := ha c (by rw [e1]; simp)
      rw [h1] at h2; cases h2

/-- The start of an attribute selector with an operator. -/
theorem runs_operator {m : Matcher} {op : String} (h : (m, op) ∈ operators) (r : List Char) :
    Runs S .compound (.call .matcher) (op.toList ++ r) (some ([.mk .matcher op.toList []], r)) ∧ readMatcher op = some m ∧ ∃ c u, op.toList = c :: u ∧ isKeyChar c = false ∧ c ≠ ']' := by
  have eq0 : Runs S .compound (.opt (Peg.alts [Peg.word "~", Peg.word "|", Peg.word "^", Peg.word "$", Peg.word "*"])) ('=' :: r) (some ([], '=' :: r)) := by
    refine .opt_none (Runs.alts_none ?_)
    simp only [List.mem_cons, List.not_mem_nil, or_false]
    rintro y (rfl | rfl | rfl | rfl | rfl)
    · exact runs_word1_none (d := '~') rfl (cons_ne (by decide))
    · exact runs_word1_none (d := '|') rfl (cons_ne (by decide))
    · exact runs_word1_none (d := '^') rfl (cons_ne (by decide))
    · exact runs_word1_none (d := '$') rfl (cons_ne (by decide))
    · exact runs_word1_none (d := '*') rfl (cons_ne (by decide))
  have eq1 : Runs S .compound (Peg.word "=") ('=' :: r) (some ([], r)) := runs_word1 rfl
  have two : ∀ {y : Char}, Runs S .compound (Peg.alts [Peg.word "~", Peg.word "|", Peg.word "^", Peg.word "$", Peg.word "*"]) (y :: '=' :: r) (some ([], '=' :: r)) →
      Runs S .compound (.call .matcher) (y :: '=' :: r) (some ([.mk .matcher [y, '='] []], r)) :=
    fun {y} h => Runs.call_seen (t := [y, '=']) rfl ((Runs.opt_some h).seq c0 eq1)
  simp only [operators, List.mem_cons, Prod.mk.injEq, List.not_mem_nil, or_false] at h
  rcases h with ⟨rfl, rfl⟩ | ⟨rfl, rfl⟩ | ⟨rfl, rfl⟩ | ⟨rfl, rfl⟩ | ⟨rfl, rfl⟩ | ⟨rfl, rfl⟩
  · exact ⟨Runs.call_seen (t := ['=']) rfl (eq0.seq c0 eq1), by decide, _, _, rfl, by decide, by decide⟩
  · refine ⟨two (y := '~') ?_, by decide, _, _, rfl, by decide, by decide⟩
    exact Runs.alts_some (pre := []) (runs_word1 (d := '~') rfl) (by simp)
  · refine ⟨two (y := '|') ?_, by decide, _, _, rfl, by decide, by decide⟩
    refine Runs.alts_some (pre := [Peg.word "~"]) (runs_word1 (d := '|') rfl) ?_
    simp only [List.mem_cons, List.not_mem_nil, or_false]
    rintro y rfl
    exact runs_word1_none (d := '~') rfl (cons_ne (by decide))
  · refine ⟨two (y := '^') ?_, by decide, _, _, rfl, by decide, by decide⟩
    refine Runs.alts_some (pre := [Peg.word "~", Peg.word "|"]) (runs_word1 (d := '^') rfl) ?_
    simp only [List.mem_cons, List.not_mem_nil, or_false]
    rintro y (rfl | rfl)
    · exact runs_word1_none (d := '~') rfl (cons_ne (by decide))
    · exact runs_word1_none (d := '|') rfl (cons_ne (by decide))
  · refine ⟨two (y := '$') ?_, by decide, _, _, rfl, by decide, by decide⟩
    refine Runs.alts_some (pre := [Peg.word "~", Peg.word "|", Peg.word "^"]) (runs_word1 (d := '$') rfl) ?_
    simp only [List.mem_cons, List.not_mem_nil, or_false]
    rintro y (rfl | rfl | rfl)
    · exact runs_word1_none (d := '~') rfl (cons_ne (by decide))
    · exact runs_word1_none (d := '|') rfl (cons_ne (by decide))
    · exact runs_word1_none (d := '^') rfl (cons_ne (by decide))
  · refine ⟨two (y := '*') ?_, by decide, _, _, rfl, by decide, by decide⟩
    refine Runs.alts_some (pre := [Peg.word "~", Peg.word "|", Peg.word "^", Peg.word "$"]) (runs_word1 (d := '*') rfl) ?_
    simp only [List.mem_cons, List.not_mem_nil, or_false]
    rintro y (rfl | rfl | rfl | rfl)
    · exact runs_word1_none (d := '~') rfl (cons_ne (by decide))
    · exact runs_word1_none (d := '|') rfl (cons_ne (by decide))
    · exact runs_word1_none (d := '^') rfl (cons_ne (by decide))
    · exact runs_word1_none (d := '$') rfl (cons_ne (by decide))

theorem modifier_none {r : List Char} : Runs S .compound (.opt (.call .modifier)) (']' :: r) (some ([], ']' :: r)) :=
  .opt_none (Runs.call_none (Runs.alt_right (runs_word1_none (d := 'i') rfl (cons_ne (by decide))) (runs_word1_none (d := 's') rfl (cons_ne (by decide)))))

/-- An attribute selector with a value. -/
theorem runs_attribute {n : String} (hn : IsWord isKeyChar n.toList) {m : Matcher} {op : String} (ho : (m, op) ∈ operators) {v r : List Char} {q : Pair CssRule}
    (hv : Runs S .compound (.alt (.call .string) (.call .ident)) (v ++ ']' :: r) (some ([q], ']' :: r))) :
    ∃ x, Runs S .compound (.call .simple) ('[' :: (n.toList ++ (op.toList ++ (v ++ ']' :: r))))
      (some ([.mk .attribute x [.mk .ident n.toList [], .mk .matcher op.toList [], q]], r)) := by
  obtain ⟨h1, h2, c, u, e, hc, hb⟩ := runs_operator ho (v ++ ']' :: r)
  have hends : Ends isKeyChar (op.toList ++ (v ++ ']' :: r)) := by rw [e]; exact ends_cons hc
  have hid := ident_c hn hends
  have hopen : Runs S .compound (Peg.word "[") ('[' :: (n.toList ++ (op.toList ++ (v ++ ']' :: r)))) (some ([], n.toList ++ (op.toList ++ (v ++ ']' :: r)))) := runs_word1 rfl
  have body : Runs S .compound (cssBody .attribute) ('[' :: (n.toList ++ (op.toList ++ (v ++ ']' :: r)))) (some ([.mk .ident n.toList [], .mk .matcher op.toList [], q], r)) := by
    refine Runs.alt_right ?_ ?_
    · refine hopen.seq_right c0 (hid.seq_right c0 (runs_word1_none (d := ']') rfl ?_))
      rw [e]; exact cons_ne hb
    · exact hopen.seq c0 (hid.seq c0 (h1.seq c0 (hv.seq c0 (modifier_none.seq c0 (runs_word1 rfl)))))
  obtain ⟨x, hx⟩ := Runs.call_pair (g := S) (a := .compound) (r := CssRule.attribute) rfl body
  refine ⟨x, simple_some (pre := [.call .all, .call .id, .call .class, .call .root, .call .pseudoClass, .call .pseudoElement]) (post := [.call .type]) hx ?_ rfl⟩
  simp only [List.mem_cons, List.not_mem_nil, or_false]
  rintro y (rfl | rfl | rfl | rfl | rfl | rfl)
  · exact all_none (cons_ne (by decide))
  · exact id_none (cons_ne (by decide))
  · exact class_none (cons_ne (by decide))
  · exact root_none (cons_ne (by decide))
  · exact pseudoClass_none (cons_ne (by decide))
  · exact pseudoElement_none (cons_ne (by decide))

theorem runs_simple {s : Simple} {t : List Char} (h : SimpleText s t) {r : List Char} (hr : Ends isJoin r) :
    ∃ p, Runs S .compound (.call .simple) (t ++ r) (some ([p], r)) ∧ readSimple p = some s := by
  have hk := join_key hr
  cases h with
  | @id n hn =>
    obtain ⟨x, hx⟩ := Runs.call_pair (g := S) (a := .compound) (r := CssRule.id) rfl ((runs_word1 (s := "#") (d := '#') rfl).seq c0 (ident_c hn hk))
    refine ⟨_, simple_some (pre := [.call .all]) (post := [.call .class, .call .root, .call .pseudoClass, .call .pseudoElement, .call .attribute, .call .type]) hx ?_ rfl, by simp [readSimple, Pair.str]⟩
    simp only [List.mem_cons, List.not_mem_nil, or_false]
    rintro y rfl
    exact all_none (cons_ne (by decide))
  | @«class» n hn =>
    obtain ⟨x, hx⟩ := Runs.call_pair (g := S) (a := .compound) (r := CssRule.class) rfl ((runs_word1 (s := ".") (d := '.') rfl).seq c0 (ident_c hn hk))
    refine ⟨_, simple_some (pre := [.call .all, .call .id]) (post := [.call .root, .call .pseudoClass, .call .pseudoElement, .call .attribute, .call .type]) hx ?_ rfl, by simp [readSimple, Pair.str]⟩
    simp only [List.mem_cons, List.not_mem_nil, or_false]
    rintro y (rfl | rfl)
    · exact all_none (cons_ne (by decide))
    · exact id_none (cons_ne (by decide))
  | root =>
    have hx : Runs S .compound (.call .root) (":root".toList ++ r) (some ([.mk .root ":root".toList []], r)) := Runs.call_seen rfl (.lit (s := ":root".toList))
    refine ⟨_, simple_some (pre := [.call .all, .call .id, .call .class]) (post := [.call .pseudoClass, .call .pseudoElement, .call .attribute, .call .type]) hx ?_ rfl, by simp [readSimple]⟩
    simp only [List.mem_cons, List.not_mem_nil, or_false]
    rintro y (rfl | rfl | rfl)
    · exact all_none (cons_ne (by decide))
    · exact id_none (cons_ne (by decide))
    · exact class_none (cons_ne (by decide))
  | @pseudoClass n hn hroot =>
    have hid := ident_c hn hk
    have hcol : Runs S .compound (Peg.word ":") (':' :: (n.toList ++ r)) (some ([], n.toList ++ r)) := runs_word1 rfl
    have body : Runs S .compound (cssBody .pseudoClass) (':' :: (n.toList ++ r)) (some ([.mk .ident n.toList []], r)) := by
      refine Runs.alt_right ?_ (hcol.seq c0 hid)
      exact hcol.seq_right c0 (hid.seq_right c0 (Runs.seq_left (runs_word1_none (d := '(') rfl (ends_ne hr (by decide)))))
    obtain ⟨x, hx⟩ := Runs.call_pair (g := S) (a := .compound) (r := CssRule.pseudoClass) rfl body
    refine ⟨_, simple_some (pre := [.call .all, .call .id, .call .class, .call .root]) (post := [.call .pseudoElement, .call .attribute, .call .type]) hx ?_ rfl, by simp [readSimple, Pair.str]⟩
    simp only [List.mem_cons, List.not_mem_nil, or_false]
    rintro y (rfl | rfl | rfl | rfl)
    · exact all_none (cons_ne (by decide))
    · exact id_none (cons_ne (by decide))
    · exact class_none (cons_ne (by decide))
    · refine Runs.call_none (Runs.lit_not (s := ":root".toList) ?_)
      rintro ⟨u, e⟩
      have e' : "root".toList ++ u = n.toList ++ r := by injection e
      exact hroot (prefix_word (by decide) hk ⟨u, e'⟩)
  | @pseudoElement n hn =>
    have hid := ident_c hn hk
    have body : Runs S .compound (cssBody .pseudoElement) (':' :: ':' :: (n.toList ++ r)) (some ([.mk .ident n.toList []], r)) := (Runs.lit (s := "::".toList)).seq c0 hid
    obtain ⟨x, hx⟩ := Runs.call_pair (g := S) (a := .compound) (r := CssRule.pseudoElement) rfl body
    refine ⟨_, simple_some (pre := [.call .all, .call .id, .call .class, .call .root, .call .pseudoClass]) (post := [.call .attribute, .call .type]) hx ?_ rfl, by simp [readSimple, Pair.str]⟩
    have hno : Runs S .compound (.call .ident) (':' :: (n.toList ++ r)) none := runs_ident_none (ends_cons (by decide))
    have hcol : Runs S .compound (Peg.word ":") (':' :: ':' :: (n.toList ++ r)) (some ([], ':' :: (n.toList ++ r))) := runs_word1 rfl
    simp only [List.mem_cons, List.not_mem_nil, or_false]
    rintro y (rfl | rfl | rfl | rfl | rfl)
    · exact all_none (cons_ne (by decide))
    · exact id_none (cons_ne (by decide))
    · exact class_none (cons_ne (by decide))
    · refine Runs.call_none (Runs.lit_not (s := ":root".toList) ?_)
      rintro ⟨u, e⟩
      have e' : "root".toList ++ u = ':' :: (n.toList ++ r) := by injection e
      injection e' with e' _
      revert e'; decide
    · exact Runs.call_none (Runs.alt_right (hcol.seq_right c0 (Runs.seq_left hno)) (hcol.seq_right c0 hno))
  | @exist n hn =>
    have hid := ident_c hn (r := ']' :: r) (ends_cons (by decide))
    have body : Runs S .compound (cssBody .attribute) ('[' :: (n.toList ++ ']' :: r)) (some ([.mk .ident n.toList []], r)) :=
      Runs.alt_left ((runs_word1 rfl).seq c0 (hid.seq c0 (runs_word1 rfl)))
    obtain ⟨x, hx⟩ := Runs.call_pair (g := S) (a := .compound) (r := CssRule.attribute) rfl body
    have hs := simple_some (pre := [.call .all, .call .id, .call .class, .call .root, .call .pseudoClass, .call .pseudoElement]) (post := [.call .type]) hx (by
      simp only [List.mem_cons, List.not_mem_nil, or_false]
      rintro y (rfl | rfl | rfl | rfl | rfl | rfl)
      · exact all_none (cons_ne (by decide))
      · exact id_none (cons_ne (by decide))
      · exact class_none (cons_ne (by decide))
      · exact root_none (cons_ne (by decide))
      · exact pseudoClass_none (cons_ne (by decide))
      · exact pseudoElement_none (cons_ne (by decide))) rfl
    exact ⟨_, by simpa using hs, by simp [readSimple, Pair.str, readMatcher, readSearch]⟩
  | @string n m op s hn ho hs =>
    obtain ⟨y, hy⟩ := runs_string_css (r := ']' :: r) hs (a := .compound) (by decide) (by decide)
    obtain ⟨x, hx⟩ := runs_attribute hn ho (v := '"' :: (s.toList ++ ['"'])) (r := r) (by simpa using Runs.alt_left hy)
    exact ⟨_, by simpa using hx, by simp [readSimple, Pair.str, (runs_operator ho []).2.1, readSearch]⟩
  | @ident n m op s hn ho hs =>
    have hy := ident_c hs (r := ']' :: r) (ends_cons (by decide))
    obtain ⟨c, u, e, hc⟩ := word_cons hs
    have hno : Runs S .compound (.call .string) (s.toList ++ ']' :: r) none := runs_string_none_css (by
      rw [e]; rintro d w e' rfl; injection e' with e' _; subst e'; revert hc; decide)
    obtain ⟨x, hx⟩ := runs_attribute hn ho (v := s.toList) (r := r) (Runs.alt_right hno hy)
    exact ⟨_, by simpa using hx, by simp [readSimple, Pair.str, (runs_operator ho []).2.1, readSearch]⟩

theorem simpleText_head {s : Simple} {t : List Char} (h : SimpleText s t) : ∃ c u, t = c :: u ∧ isMark c = true ∧ isJoin c = false := by
  cases h <;> exact ⟨_, _, rfl, by decide, by decide⟩

theorem simpleText_plain {s : Simple} {t : List Char} (h : SimpleText s t) : s.isCombinator = false := by cases h <;> rfl

theorem simples_join {l : List Simple} {u : List Char} (h : SimplesText l u) {r : List Char} (hr : Ends isBound r) : Ends isJoin (u ++ r) := by
  cases h with
  | nil => exact bound_join hr
  | cons h _ => obtain ⟨c, w, rfl, -, hc⟩ := simpleText_head h; exact ends_cons hc

theorem simples_plain {l : List Simple} {u : List Char} (h : SimplesText l u) : ∀ s ∈ l, s.isCombinator = false := by
  induction h with
  | nil => simp
  | cons h _ ih =>
    intro s hs
    rcases List.mem_cons.1 hs with rfl | hs
    · exact simpleText_plain h
    · exact ih s hs

theorem simples_many {l : List Simple} {u : List Char} (h : SimplesText l u) {r : List Char} (hr : Ends isBound r) :
    ∃ ps, ManyIn S .compound (.call .simple) (u ++ r) ps r ∧ readSimples ps = some l := by
  induction h with
  | nil => exact ⟨[], .nil (simple_none (bound_mark hr)) c0, rfl⟩
  | @cons s t l u h hu ih =>
    obtain ⟨ps, h1, h2⟩ := ih
    obtain ⟨p, h3, h4⟩ := runs_simple h (simples_join hu hr)
    refine ⟨p :: ps, ?_, by simp [readSimples, h4, h2]⟩
    have := ManyIn.cons (ps := [p]) (.of h3 c0) h1
    simpa using this

/-! ## Compound selectors -/

theorem mark_plain : ∀ c, isMark c = true → isBlank c = false ∧ c ≠ '/' := fun c h =>
  ⟨not_blank' (p := isMark) (by decide) h, by rintro rfl; revert h; decide⟩

theorem compound_head {c : List Simple} {t : List Char} (h : Compound c t) : ∃ x u, t = x :: u ∧ isMark x = true := by
  cases h with
  | simples h _ => obtain ⟨x, u, rfl, hx, -⟩ := simpleText_head h; exact ⟨x, _, rfl, hx⟩
  | type h _ => obtain ⟨x, u, e, hx⟩ := word_cons h; rw [e]; exact ⟨x, _, rfl, by simp [isMark, hx]⟩
  | all _ => exact ⟨_, _, rfl, by decide⟩

theorem compound_solid {c : List Simple} {t : List Char} (h : Compound c t) (r : List Char) : Solid (t ++ r) := by
  obtain ⟨x, u, rfl, hx⟩ := compound_head h
  exact solid_cons (mark_plain x hx).1 (mark_plain x hx).2

theorem compound_plain {c : List Simple} {t : List Char} (h : Compound c t) : c ≠ [] ∧ ∀ s ∈ c, s.isCombinator = false := by
  cases h with
  | simples h hl => exact ⟨by simp, fun s hs => (List.mem_cons.1 hs).elim (fun e => e ▸ simpleText_plain h) (simples_plain hl s)⟩
  | type _ hl => exact ⟨by simp, fun s hs => (List.mem_cons.1 hs).elim (fun e => e ▸ rfl) (simples_plain hl s)⟩
  | all hl => exact ⟨by simp, fun s hs => (List.mem_cons.1 hs).elim (fun e => e ▸ rfl) (simples_plain hl s)⟩

theorem runs_compound {c : List Simple} {t : List Char} (h : Compound c t) {r : List Char} (hr : Ends isBound r) :
    ∃ x ps, Runs S .nonAtomic (.call .compound) (t ++ r) (some ([.mk .compound x ps], r)) ∧ readSimples ps = some c := by
  have key : ∃ p ps m, Runs S .compound (.call .simple) (t ++ r) (some ([p], m)) ∧ ManyIn S .compound (.call .simple) m ps r ∧ readSimples (p :: ps) = some c := by
    cases h with
    | @simples s t l u h hl =>
      obtain ⟨ps, h1, h2⟩ := simples_many hl hr
      obtain ⟨p, h3, h4⟩ := runs_simple h (simples_join hl hr)
      exact ⟨p, ps, u ++ r, by simpa using h3, h1, by simp [readSimples, h4, h2]⟩
    | @type n l u hn hl =>
      obtain ⟨ps, h1, h2⟩ := simples_many hl hr
      obtain ⟨x, hx⟩ := Runs.call_pair (g := S) (a := .compound) (r := CssRule.type) rfl (ident_c hn (join_key (simples_join hl hr)))
      obtain ⟨c, w, e, hc⟩ := word_cons hn
      have hne : ∀ d : Char, isKeyChar d = false → ∀ c' u', n.toList ++ (u ++ r) = c' :: u' → c' ≠ d := by
        rw [e]; rintro d hd c' u' e' rfl
        injection e' with e' _; subst e'; rw [hc] at hd; cases hd
      have hs := simple_some (pre := [.call .all, .call .id, .call .class, .call .root, .call .pseudoClass, .call .pseudoElement, .call .attribute]) (post := []) hx (by
        simp only [List.mem_cons, List.not_mem_nil, or_false]
        rintro y (rfl | rfl | rfl | rfl | rfl | rfl | rfl)
        · exact all_none (hne _ (by decide))
        · exact id_none (hne _ (by decide))
        · exact class_none (hne _ (by decide))
        · exact root_none (hne _ (by decide))
        · exact pseudoClass_none (hne _ (by decide))
        · exact pseudoElement_none (hne _ (by decide))
        · exact attribute_none (hne _ (by decide))) rfl
      exact ⟨_, ps, u ++ r, by simpa using hs, h1, by simp [readSimples, readSimple, Pair.str, h2]⟩
    | @all l u hl =>
      obtain ⟨ps, h1, h2⟩ := simples_many hl hr
      have hx : Runs S .compound (.call .all) ('*' :: (u ++ r)) (some ([.mk .all ['*'] []], u ++ r)) := Runs.call_seen (t := ['*']) rfl (runs_word1 rfl)
      have hs := simple_some (pre := []) (post := [.call .id, .call .class, .call .root, .call .pseudoClass, .call .pseudoElement, .call .attribute, .call .type]) hx (by simp) rfl
      exact ⟨_, ps, u ++ r, by simpa using hs, h1, by simp [readSimples, readSimple, h2]⟩
  obtain ⟨p, ps, m, h1, h2, h3⟩ := key
  obtain ⟨m', h4, h5⟩ := h2.star
  obtain ⟨-, rfl⟩ := Prod.mk.inj (Option.some.inj (h5.unique c0))
  obtain ⟨x, hx⟩ := Runs.call_pair (g := S) (a := .nonAtomic) (r := CssRule.compound) rfl (h1.seq c0 h4)
  exact ⟨x, _, hx, h3⟩

theorem compound_none {i : List Char} (h : Ends isMark i) : Runs S .nonAtomic (.call .compound) i none := Runs.call_none (Runs.seq_left (simple_none h))

/-! ## Complex selectors -/

/-- What a combinator is written with. -/
def isCombinatorChar (c : Char) : Bool := c == '>' || c == '+' || c == '~'

theorem combinator_none {i : List Char} (h : Ends isCombinatorChar i) : Runs S .nonAtomic (.call .combinator) i none := by
  refine Runs.call_none (Runs.alts_none ?_)
  simp only [List.mem_cons, List.not_mem_nil, or_false]
  rintro y (rfl | rfl | rfl)
  · exact runs_word1_none (d := '>') rfl (ends_ne h (by decide))
  · exact runs_word1_none (d := '+') rfl (ends_ne h (by decide))
  · exact runs_word1_none (d := '~') rfl (ends_ne h (by decide))

theorem runs_combinator {x : Char} (h : x ∈ ['>', '+', '~']) (r : List Char) : Runs S .nonAtomic (.call .combinator) (x :: r) (some ([.mk .combinator [x] []], r)) := by
  refine Runs.call_seen (t := [x]) rfl ?_
  simp only [List.mem_cons, List.not_mem_nil, or_false] at h
  rcases h with rfl | rfl | rfl
  · exact Runs.alts_some (pre := []) (runs_word1 (d := '>') rfl) (by simp)
  · refine Runs.alts_some (pre := [Peg.word ">"]) (runs_word1 (d := '+') rfl) ?_
    simp only [List.mem_cons, List.not_mem_nil, or_false]
    rintro y rfl
    exact runs_word1_none (d := '>') rfl (cons_ne (by decide))
  · refine Runs.alts_some (pre := [Peg.word ">", Peg.word "+"]) (runs_word1 (d := '~') rfl) ?_
    simp only [List.mem_cons, List.not_mem_nil, or_false]
    rintro y (rfl | rfl)
    · exact runs_word1_none (d := '>') rfl (cons_ne (by decide))
    · exact runs_word1_none (d := '+') rfl (cons_ne (by decide))

/-- One part of a complex selector. -/
abbrev part : Peg CssRule := .seq (.opt (.call .combinator)) (.call .compound)

theorem mark_combinator {c : Char} (h : isMark c = true) : isCombinatorChar c = false := by
  cases hc : isCombinatorChar c with
  | false => rfl
  | true =>
    simp only [isCombinatorChar, Bool.or_eq_true, beq_iff_eq] at hc
    rcases hc with (rfl | rfl) | rfl <;> revert h <;> decide

theorem takes_part {c : List Simple} {t : List Char} (h : Compound c t) {m j : List Char} (hm : Ends isBound m) (hg : Runs S .nonAtomic .gap m (some ([], j))) :
    ∃ x ps, Takes S part (t ++ m) [.mk .compound x ps] j ∧ readSimples ps = some c := by
  obtain ⟨x, ps, h1, h2⟩ := runs_compound h hm
  have ho : Runs S .nonAtomic (.opt (.call .combinator)) (t ++ m) (some ([], t ++ m)) := by
    refine .opt_none (combinator_none ?_)
    obtain ⟨d, u, rfl, hd⟩ := compound_head h
    exact ends_cons (mark_combinator hd)
  exact ⟨x, ps, .of (ho.seq (runs_gap0 (compound_solid h m)) h1) hg, h2⟩

/-- Where a complex selector ends. -/
structure ComplexEnd (r : List Char) : Prop where
  solid : Solid r
  bound : Ends isBound r
  comb : Ends isCombinatorChar r

theorem part_none {r : List Char} (h : ComplexEnd r) : Runs S .nonAtomic part r none :=
  (Runs.opt_none (combinator_none h.comb)).seq_right (runs_gap0 h.solid) (compound_none (bound_mark h.bound))

theorem blanks_bound {b r : List Char} (h : Blanks b) (hr : Ends isBound r) : Ends isBound (b ++ r) := blanks_ends (not_blank (by decide)) (by decide) h hr

theorem blanks_bound_ne {b r : List Char} (h : Blanks b) (hb : b ≠ []) : Ends isBound (b ++ r) := by
  cases b with
  | nil => exact absurd rfl hb
  | cons c b =>
    refine ends_cons ?_
    rcases blanks_head h rfl with ⟨hc, -⟩ | rfl
    · exact not_blank (p := isBound) (by decide) c hc
    · decide

theorem rest_bound {l : List Simple} {u : List Char} (h : Rest l u) {b r : List Char} (hb : Blanks b) (hr : ComplexEnd r) : Ends isBound (u ++ (b ++ r)) := by
  cases h with
  | nil => rw [List.nil_append]; exact blanks_bound hb hr.bound
  | descendant h1 h2 _ _ => rw [List.append_assoc]; exact blanks_bound_ne h1 h2
  | @combinator b1 x b2 c t l u h1 hx _ _ _ =>
    rw [List.append_assoc]
    refine blanks_bound h1 (ends_cons ?_)
    simp only [List.mem_cons, List.not_mem_nil, or_false] at hx
    rcases hx with rfl | rfl | rfl <;> decide

/-- Adding a compound selector. -/
theorem joinCompound_fresh {acc : Complex} (h1 : acc ≠ []) (h2 : ∀ s, acc.getLast? = some s → s.isCombinator = false) : joinCompound acc = acc ++ [.combinator ' '] := by
  unfold joinCompound
  cases h : acc.getLast? with
  | none => rw [List.getLast?_eq_none_iff] at h; exact absurd h h1
  | some s => simp [h2 s h]

theorem last_plain {acc c : Complex} (h1 : c ≠ []) (h2 : ∀ s ∈ c, s.isCombinator = false) : ∀ s, (acc ++ c).getLast? = some s → s.isCombinator = false := by
  intro s hs
  rw [List.getLast?_append_of_ne_nil _ h1] at hs
  exact h2 s (List.mem_of_getLast? hs)

theorem rest_many {l : List Simple} {u : List Char} (h : Rest l u) {b r : List Char} (hb : Blanks b) (hr : ComplexEnd r) :
    ∃ j ps, Runs S .nonAtomic .gap (u ++ (b ++ r)) (some ([], j)) ∧ Many S part j ps r ∧
      ∀ acc : Complex, acc ≠ [] → (∀ s, acc.getLast? = some s → s.isCombinator = false) → readComponents ps acc = some (acc ++ l) := by
  induction h with
  | nil => exact ⟨r, [], runs_gap hr.solid hb, .nil (part_none hr) (runs_gap0 hr.solid), fun acc _ _ => by simp [readComponents]⟩
  | @descendant b' c t l u h1 h2 hc hu ih =>
    obtain ⟨j, ps, i1, i2, i3⟩ := ih
    obtain ⟨x, qs, h3, h4⟩ := takes_part hc (rest_bound hu hb hr) i1
    refine ⟨t ++ (u ++ (b ++ r)), .mk .compound x qs :: ps, ?_, ManyIn.cons (ps := [_]) h3 i2, fun acc ha hl => ?_⟩
    · have := runs_gap (compound_solid hc (u ++ (b ++ r))) h1
      simpa using this
    · obtain ⟨c1, c2⟩ := compound_plain hc
      rw [readComponents, h4, joinCompound_fresh ha hl]
      simp only
      rw [i3 _ (by simp) (last_plain c1 c2)]
      simp
  | @combinator b1 y b2 c t l u h1 hy h2 hc hu ih =>
    obtain ⟨j, ps, i1, i2, i3⟩ := ih
    obtain ⟨x, qs, h3, h4⟩ := runs_compound hc (rest_bound hu hb hr)
    have hys : Solid (y :: (b2 ++ (t ++ (u ++ (b ++ r))))) := by
      simp only [List.mem_cons, List.not_mem_nil, or_false] at hy
      rcases hy with rfl | rfl | rfl <;> exact solid_cons (by decide) (by decide)
    have hpart : Takes S part (y :: (b2 ++ (t ++ (u ++ (b ++ r))))) [.mk .combinator [y] [], .mk .compound x qs] j :=
      .of ((Runs.opt_some (runs_combinator hy _)).seq (runs_gap (compound_solid hc _) h2) h3) i1
    refine ⟨y :: (b2 ++ (t ++ (u ++ (b ++ r)))), .mk .combinator [y] [] :: .mk .compound x qs :: ps, ?_, ManyIn.cons (ps := [_, _]) hpart i2, fun acc ha hl => ?_⟩
    · have := runs_gap hys h1
      simpa using this
    · obtain ⟨c1, c2⟩ := compound_plain hc
      have hj : joinCompound (acc ++ [.combinator y]) = acc ++ [.combinator y] := by
        unfold joinCompound
        rw [List.getLast?_append_of_ne_nil _ (by simp)]
        simp [Simple.isCombinator]
      rw [readComponents, readComponents, h4, hj]
      simp only
      rw [i3 _ (by simp) (last_plain c1 c2)]
      simp

theorem takes_complex {c : Complex} {t : List Char} (h : ComplexText c t) {b r : List Char} (hb : Blanks b) (hr : ComplexEnd r) :
    ∃ p, Takes S (.call .complex) (t ++ (b ++ r)) [p] r ∧ readComponents p.inner [] = some c := by
  cases h with
  | @mk c t l u hc hl =>
    obtain ⟨j, ps, h1, h2, h3⟩ := rest_many hl hb hr
    obtain ⟨x, qs, h4, h5⟩ := takes_part hc (rest_bound hl hb hr) h1
    have hm := (ManyIn.cons (ps := [_]) h4 h2).star
    obtain ⟨y, hy⟩ := Takes.call (g := S) (r := CssRule.complex) rfl rfl hm
    obtain ⟨c1, c2⟩ := compound_plain hc
    refine ⟨_, by simpa using hy, ?_⟩
    simp only [Pair.inner, List.cons_append, List.nil_append]
    rw [readComponents, h5]
    have hj : joinCompound [] = [] := rfl
    simp only [hj, List.nil_append]
    exact h3 c c1 (by simpa using last_plain (acc := []) c1 c2)

theorem complexText_solid {c : Complex} {t : List Char} (h : ComplexText c t) (r : List Char) : Solid (t ++ r) := by
  cases h with
  | mk hc _ => rw [List.append_assoc]; exact compound_solid hc _

theorem end_comma (r : List Char) : ComplexEnd (',' :: r) := ⟨solid_cons (by decide) (by decide), ends_cons (by decide), ends_cons (by decide)⟩
theorem end_brace (r : List Char) : ComplexEnd ('{' :: r) := ⟨solid_cons (by decide) (by decide), ends_cons (by decide), ends_cons (by decide)⟩

/-- The expression for further selectors. -/
abbrev moreSelector : Peg CssRule := .seq (Peg.word ",") (.call .complex)

theorem selectors_many {l : List Complex} {t : List Char} (h : Selectors l t) {b r : List Char} (hb : Blanks b) :
    ∃ q ps j, Takes S (.call .complex) (t ++ (b ++ '{' :: r)) [q] j ∧ Many S moreSelector j ps ('{' :: r) ∧ readSelectors (q :: ps) = some l := by
  induction h with
  | @one c t h =>
    obtain ⟨p, h1, h2⟩ := takes_complex h hb (end_brace r)
    refine ⟨p, [], _, h1, .nil ?_ (runs_gap0 (end_brace r).solid), by simp [readSelectors, h2]⟩
    exact Runs.seq_left (runs_word1_none (d := ',') rfl (cons_ne (by decide)))
  | @cons c t b1 b2 l u h hb1 hb2 hu ih =>
    obtain ⟨q, ps, j, h1, h2, h3⟩ := ih
    obtain ⟨p, h4, h5⟩ := takes_complex h hb1 (end_comma (b2 ++ (u ++ (b ++ '{' :: r))))
    have hsu : Solid (u ++ (b ++ '{' :: r)) := by
      cases hu with
      | one h => exact complexText_solid h _
      | cons h _ _ _ => rw [List.append_assoc]; exact complexText_solid h _
    refine ⟨p, q :: ps, _, by simpa using h4, ManyIn.cons (ps := [q]) ((Takes.of (runs_word1 (d := ',') rfl) (runs_gap hsu hb2)).seq h1) h2, ?_⟩
    rw [readSelectors, h5, h3]

theorem takes_selectors {l : List Complex} {t : List Char} (h : Selectors l t) {b : List Char} (hb : Blanks b) (r : List Char) :
    ∃ p, Takes S (.call .selectors) (t ++ (b ++ '{' :: r)) [p] ('{' :: r) ∧ readSelectors p.inner = some l := by
  obtain ⟨q, ps, j, h1, h2, h3⟩ := selectors_many h hb (r := r)
  have : Takes S (cssBody .selectors) (t ++ (b ++ '{' :: r)) (q :: ps) ('{' :: r) := h1.seq h2.star
  obtain ⟨x, hx⟩ := Takes.call (g := S) (r := CssRule.selectors) rfl rfl this
  exact ⟨_, hx, h3⟩

theorem selectors_head {l : List Complex} {t : List Char} (h : Selectors l t) : ∃ x u, t = x :: u ∧ isMark x = true := by
  cases h with
  | one h => cases h with | mk hc _ => obtain ⟨x, u, rfl, hx⟩ := compound_head hc; exact ⟨x, _, rfl, hx⟩
  | cons h _ _ _ => cases h with | mk hc _ => obtain ⟨x, u, rfl, hx⟩ := compound_head hc; exact ⟨x, _, rfl, hx⟩

end Verif.Sheet
