import Verif.Css.Numbers
/-!
# Values that are not computed, read back
-/
namespace Verif.Sheet
open Written (IsWord isKeyChar)

local notation "S" => cssGrammar

/-- What must not follow a value directly. -/
def isOpen (c : Char) : Bool := isKeyChar c || c == '.' || c == '%' || c == '('

theorem open_key {r : List Char} (h : Ends isOpen r) : Ends isKeyChar r := fun c u e => by
  have := h c u e; simp only [isOpen, Bool.or_eq_false_iff] at this; exact this.1.1.1
theorem open_ne {r : List Char} (h : Ends isOpen r) {d : Char} (hd : isOpen d = true) : ∀ c u, r = c :: u → c ≠ d := by
  rintro c u e rfl; rw [h c u e] at hd; cases hd
theorem key_letter {c : Char} (h : isKeyChar c = false) : isLetter c = false := by
  simp only [isKeyChar, isLetter, Bool.or_eq_false_iff] at h ⊢; exact ⟨⟨h.1.1.1, h.1.2⟩, h.2⟩
theorem key_alpha {c : Char} (h : isKeyChar c = false) : isAlpha c = false := by
  simp only [isKeyChar, Bool.or_eq_false_iff] at h; exact h.1.1.1
theorem letter_key {c : Char} (h : isLetter c = true) : isKeyChar c = true := by
  cases hk : isKeyChar c with
  | true => rfl
  | false => rw [key_letter hk] at h; cases h
theorem alpha_key {c : Char} (h : isAlpha c = true) : isKeyChar c = true := by simp [isKeyChar, h]
theorem open_num {r : List Char} (h : Ends isOpen r) : Ends isNum r := fun c u e => by
  have := h c u e
  simp only [isOpen, isKeyChar, isNum, Bool.or_eq_false_iff] at this ⊢
  exact ⟨⟨this.1.1.1.1.1.2, this.1.1.1.1.2⟩, this.1.1.2⟩

theorem alpha_num {c : Char} (h : isAlpha c = true) : isNum c = false := by
  cases hn : isNum c with
  | false => rfl
  | true =>
    simp only [isNum, Bool.or_eq_true, beq_iff_eq] at hn
    rcases hn with (hn | rfl) | rfl
    · rw [isAlpha_not_digit hn] at h; cases h
    · revert h; decide
    · revert h; decide

theorem runs_color_none {i : List Char} (h : ∀ c u, i = c :: u → c ≠ '#') : Runs S .compound (.call .color) i none :=
  Runs.call_none (Runs.seq_left (runs_word1_none (d := '#') rfl h))

theorem runs_string_css {s r : List Char} (h : '"' ∉ s) {a : Atomicity} (ha : a ≠ .nonAtomic) (hs : a ≠ .atomic) :
    ∃ x, Runs S a (.call .string) ('"' :: (s ++ '"' :: r)) (some ([.mk .string x [.mk .stringLiteral s []]], r)) := by
  have h1 : Runs S a (.call .stringLiteral) (s ++ '"' :: r) (some ([.mk .stringLiteral s []], '"' :: r)) := by
    refine .call_seen (by cases a <;> first | rfl | exact absurd rfl hs) ?_
    refine runs_until (g := S) (a := .atomic) (by decide) (stop := ['"']) (rest := r) ?_
    exact no_overlap (s := []) (x := '"') (by decide) (fun h' => h (h'.mem (by simp)))
  have h2 := (runs_word1 (a := a) (s := "\"") (d := '"') rfl (i := s ++ '"' :: r)).seq (.gap_off ha) (h1.seq (.gap_off ha) (runs_word1 (s := "\"") (d := '"') rfl))
  exact Runs.call_pair (g := S) (r := CssRule.string) (by cases a <;> first | rfl | exact absurd rfl hs) h2

theorem runs_string_none_css {i : List Char} {a : Atomicity} (h : ∀ c u, i = c :: u → c ≠ '"') : Runs S a (.call .string) i none :=
  Runs.call_none (Runs.seq_left (runs_word1_none (d := '"') rfl h))

theorem c0 {i : List Char} : Runs S .compound .gap i (some ([], i)) := .gap_off (by decide)

section
variable {t i : List Char} (ht : IsWord isNum t) (hi : Ends isNum i)
include ht hi

theorem percentage_none (h : ∀ c u, i = c :: u → c ≠ '%') : Runs S .compound (.call .percentage) (t ++ i) none :=
  Runs.call_none ((runs_number ht hi).seq_right c0 (runs_word1_none (d := '%') rfl h))

theorem time_none (h : ∀ c u, i = c :: u → c ≠ 's') (h' : ¬ "ms".toList <+: i) : Runs S .compound (.call .time) (t ++ i) none :=
  Runs.call_none ((runs_number ht hi).seq_right c0 (Runs.call_none (Runs.alt_right (.lit_not h') (runs_word1_none (d := 's') rfl h))))

theorem dimension_none (h : Ends isAlpha i) : Runs S .compound (.call .dimension) (t ++ i) none :=
  Runs.call_none ((runs_number ht hi).seq_right c0 (Runs.call_none ((Class.chr isAlpha).plus_none h)))
end

theorem explicit_some {pre post : List (Peg CssRule)} {x : Peg CssRule} {i r : List Char} {p : Pair CssRule} (hx : Runs S .compound x i (some ([p], r)))
    (hp : ∀ y ∈ pre, Runs S .compound y i none)
    (e : pre ++ x :: post = [.call .color, .call .keyword, .call .percentage, .call .time, .call .dimension, .call .zero, .call .number, .call .string]) :
    ∃ t, Runs S .compound (.call .explicit) i (some ([.mk .explicit t [p]], r)) := by
  refine Runs.call_pair (g := S) (r := CssRule.explicit) rfl ?_
  change Runs S .compound (Peg.alts _) _ _
  rw [← e]
  exact Runs.alts_some hx hp

theorem number_first {v : Rat} {t : List Char} (h : Number v t) : ∃ c u, t = c :: u ∧ isNum c = true := word_cons (number_word h)

theorem runs_explicit {v : ComputedValue} {t : List Char} (h : Explicit v t) {r : List Char} (hr : Ends isOpen r) :
    ∃ x p, Runs S .compound (.call .explicit) (t ++ r) (some ([.mk .explicit x [p]], r)) ∧ readExplicit p = some v := by
  have hkey := open_key hr
  have colorNone : ∀ {v t} {i : List Char}, Number v t → Runs S .compound (.call .color) (t ++ i) none := by
    intro v t i h
    obtain ⟨c, u, rfl, hc⟩ := number_first h
    refine runs_color_none ?_
    rintro d w e rfl
    injection e with e _; subst e; revert hc; decide
  have noMs : ∀ {i : List Char}, Ends isAlpha i → ¬ "ms".toList <+: i := by
    rintro i hi ⟨w, rfl⟩
    have := hi 'm' _ rfl
    revert this; decide
  have noS : ∀ {i : List Char}, Ends isAlpha i → ∀ c u, i = c :: u → c ≠ 's' := by
    rintro i hi c u e rfl
    have := hi _ _ e
    revert this; decide
  have hal : Ends isAlpha r := fun c u e => key_alpha (hkey c u e)
  cases h with
  | @keyword k hk =>
    have hl : Ends isLetter r := fun c u e => key_letter (hkey c u e)
    have h1 := runs_keyword hk hl
    obtain ⟨x, hx⟩ := explicit_some (pre := [.call .color]) (post := [.call .percentage, .call .time, .call .dimension, .call .zero, .call .number, .call .string]) h1 (by
      simp only [List.mem_singleton, forall_eq]
      refine runs_color_none ?_
      obtain ⟨c, u, e, hc⟩ := word_cons hk.1
      rw [e]
      rintro d w e' rfl
      injection e' with e' _; subst e'; revert hc; decide) rfl
    exact ⟨x, _, hx, by simp [readExplicit]⟩
  | zero =>
    have hn : Number (decimal ['0']) ['0'] := .plain (.int ⟨by simp, by decide⟩)
    have hw := number_word hn
    have h1 : Runs S .compound (.call .zero) ('0' :: r) (some ([.mk .zero ['0'] []], r)) := by
      refine Runs.call_seen (t := ['0']) rfl ?_
      exact (runs_word1 rfl).seq c0 (.neg (runs_word1_none (d := '.') rfl (open_ne hr (by decide))))
    obtain ⟨x, hx⟩ := explicit_some (pre := [.call .color, .call .keyword, .call .percentage, .call .time, .call .dimension]) (post := [.call .number, .call .string]) h1 (by
      simp only [List.mem_cons, List.not_mem_nil, or_false]
      rintro y (rfl | rfl | rfl | rfl | rfl)
      · exact colorNone hn
      · exact number_keyword_none hn
      · exact percentage_none hw (open_num hr) (open_ne hr (by decide))
      · exact time_none hw (open_num hr) (noS hal) (noMs hal)
      · exact dimension_none hw (open_num hr) hal) rfl
    exact ⟨x, _, hx, rfl⟩
  | @number v t hn hz =>
    have hw := number_word hn
    have h1 := runs_number hw (open_num hr)
    obtain ⟨x, hx⟩ := explicit_some (pre := [.call .color, .call .keyword, .call .percentage, .call .time, .call .dimension, .call .zero]) (post := [.call .string]) h1 (by
      simp only [List.mem_cons, List.not_mem_nil, or_false]
      rintro y (rfl | rfl | rfl | rfl | rfl | rfl)
      · exact colorNone hn
      · exact number_keyword_none hn
      · exact percentage_none hw (open_num hr) (open_ne hr (by decide))
      · exact time_none hw (open_num hr) (noS hal) (noMs hal)
      · exact dimension_none hw (open_num hr) hal
      · obtain ⟨c, u, rfl, -⟩ := number_first hn
        by_cases hc : c = '0'
        · subst hc
          obtain ⟨w, rfl⟩ := hz u rfl
          exact Runs.call_none ((runs_word1 (d := '0') rfl).seq_right c0 (.neg_not (runs_word1 (d := '.') rfl)))
        · exact Runs.call_none (Runs.seq_left (runs_word1_none (d := '0') rfl (by rintro d w e rfl; injection e with e _; exact hc e)))) rfl
    exact ⟨x, _, hx, by simp [readExplicit, readNumber_written hn]⟩
  | @percentage v t hn =>
    have hw := number_word hn
    have h0 := (runs_number hw (r := '%' :: r) (ends_cons (by decide))).seq c0 (runs_word1 (s := "%") (d := '%') rfl)
    obtain ⟨x0, h1⟩ := Runs.call_pair (g := S) (a := .compound) (r := CssRule.percentage) rfl h0
    obtain ⟨x, hx⟩ := explicit_some (pre := [.call .color, .call .keyword]) (post := [.call .time, .call .dimension, .call .zero, .call .number, .call .string]) h1 (by
      simp only [List.mem_cons, List.not_mem_nil, or_false]
      rintro y (rfl | rfl)
      · exact colorNone hn
      · exact number_keyword_none hn) rfl
    exact ⟨x, _, by simpa using hx, by simp [readExplicit, Pair.str, readNumber_written hn]⟩
  | @seconds v t hn =>
    have hw := number_word hn
    have hu : Runs S .compound (.call .timeUnit) ('s' :: r) (some ([.mk .timeUnit ['s'] []], r)) :=
      Runs.call_seen (t := ['s']) rfl (Runs.alt_right (.lit_not (by rintro ⟨w, e⟩; injection e with e _; revert e; decide)) (runs_word1 rfl))
    have h0 := (runs_number hw (r := 's' :: r) (ends_cons (by decide))).seq c0 hu
    obtain ⟨x0, h1⟩ := Runs.call_pair (g := S) (a := .compound) (r := CssRule.time) rfl h0
    obtain ⟨x, hx⟩ := explicit_some (pre := [.call .color, .call .keyword, .call .percentage]) (post := [.call .dimension, .call .zero, .call .number, .call .string]) h1 (by
      simp only [List.mem_cons, List.not_mem_nil, or_false]
      rintro y (rfl | rfl | rfl)
      · exact colorNone hn
      · exact number_keyword_none hn
      · exact percentage_none hw (ends_cons (by decide)) (by rintro c u e rfl; injection e with e _; revert e; decide)) rfl
    exact ⟨x, _, by simpa using hx, by simp [readExplicit, Pair.str, readNumber_written hn]⟩
  | @milliseconds v t hn =>
    have hw := number_word hn
    have hu : Runs S .compound (.call .timeUnit) ('m' :: 's' :: r) (some ([.mk .timeUnit ['m', 's'] []], r)) :=
      Runs.call_seen (t := ['m', 's']) rfl (Runs.alt_left (.lit (s := "ms".toList)))
    have h0 := (runs_number hw (r := 'm' :: 's' :: r) (ends_cons (by decide))).seq c0 hu
    obtain ⟨x0, h1⟩ := Runs.call_pair (g := S) (a := .compound) (r := CssRule.time) rfl h0
    obtain ⟨x, hx⟩ := explicit_some (pre := [.call .color, .call .keyword, .call .percentage]) (post := [.call .dimension, .call .zero, .call .number, .call .string]) h1 (by
      simp only [List.mem_cons, List.not_mem_nil, or_false]
      rintro y (rfl | rfl | rfl)
      · exact colorNone hn
      · exact number_keyword_none hn
      · exact percentage_none hw (ends_cons (by decide)) (by rintro c u e rfl; injection e with e _; revert e; decide)) rfl
    exact ⟨x, _, by simpa using hx, by simp [readExplicit, Pair.str, readNumber_written hn]⟩
  | @dimension v t name unit hn hu =>
    have hw := number_word hn
    obtain ⟨c, u, e, hal1, hcs, hms, hall, hp⟩ : ∃ c u, name.toList = c :: u ∧ isAlpha c = true ∧ c ≠ 's' ∧ (c = 'm' → False) ∧ (∀ d ∈ name.toList, isAlpha d = true) ∧ Units.parse name = some unit := by
      simp only [unitNames, List.mem_cons, Prod.mk.injEq, List.not_mem_nil, or_false] at hu
      rcases hu with ⟨rfl, rfl⟩ | ⟨rfl, rfl⟩ | ⟨rfl, rfl⟩ | ⟨rfl, rfl⟩ | ⟨rfl, rfl⟩ | ⟨rfl, rfl⟩ | ⟨rfl, rfl⟩ <;>
        exact ⟨_, _, rfl, by decide, by decide, by decide, by decide, by decide⟩
    have hnum : Ends isNum (name.toList ++ r) := by rw [e]; exact ends_cons (alpha_num hal1)
    have hunit : Runs S .compound (.call .unit) (name.toList ++ r) (some ([.mk .unit name.toList []], r)) :=
      Runs.call_seen rfl ((Class.chr isAlpha).plus (by decide) ⟨by rw [e]; simp, hall⟩ hal)
    have h0 := (runs_number hw hnum).seq c0 hunit
    obtain ⟨x0, h1⟩ := Runs.call_pair (g := S) (a := .compound) (r := CssRule.dimension) rfl h0
    obtain ⟨x, hx⟩ := explicit_some (pre := [.call .color, .call .keyword, .call .percentage, .call .time]) (post := [.call .zero, .call .number, .call .string]) h1 (by
      simp only [List.mem_cons, List.not_mem_nil, or_false]
      rintro y (rfl | rfl | rfl | rfl)
      · exact colorNone hn
      · exact number_keyword_none hn
      · refine percentage_none hw hnum ?_
        rw [e]; rintro d w e' rfl; injection e' with e' _; subst e'; revert hal1; decide
      · refine time_none hw hnum ?_ ?_
        · rw [e]; rintro d w e' rfl; injection e' with e' _; exact hcs e'
        · rw [e]; rintro ⟨w, e'⟩; injection e' with e' _; exact hms e'.symm) rfl
    exact ⟨x, _, by simpa using hx, by simp [readExplicit, Pair.str, readNumber_written hn, hp]⟩
  | @«opaque» _ _ _ r1 r2 g1 g2 e1 e2 hr1 hg1 hb1 =>
    obtain ⟨a1, a2, a3⟩ := hexByte_written hr1
    obtain ⟨b1, b2, b3⟩ := hexByte_written hg1
    obtain ⟨c1, c2, c3⟩ := hexByte_written hb1
    obtain ⟨x, hx⟩ := explicit_some (pre := []) (post := [.call .keyword, .call .percentage, .call .time, .call .dimension, .call .zero, .call .number, .call .string])
      (runs_color (t := [r1, r2, g1, g2, e1, e2]) ⟨by simp, by simp [a1, a2, b1, b2, c1, c2]⟩ hkey) (by simp) rfl
    exact ⟨x, _, hx, by simp [readExplicit, readColor, a3, b3, c3]⟩
  | @color _ _ _ _ r1 r2 g1 g2 e1 e2 f1 f2 hr1 hg1 hb1 hd1 =>
    obtain ⟨a1, a2, a3⟩ := hexByte_written hr1
    obtain ⟨b1, b2, b3⟩ := hexByte_written hg1
    obtain ⟨c1, c2, c3⟩ := hexByte_written hb1
    obtain ⟨d1, d2, d3⟩ := hexByte_written hd1
    obtain ⟨x, hx⟩ := explicit_some (pre := []) (post := [.call .keyword, .call .percentage, .call .time, .call .dimension, .call .zero, .call .number, .call .string])
      (runs_color (t := [r1, r2, g1, g2, e1, e2, f1, f2]) ⟨by simp, by simp [a1, a2, b1, b2, c1, c2, d1, d2]⟩ hkey) (by simp) rfl
    exact ⟨x, _, hx, by simp [readExplicit, readColor, a3, b3, c3, d3]⟩
  | @string s hs =>
    obtain ⟨x0, h1⟩ := runs_string_css (r := r) hs (a := .compound) (by decide) (by decide)
    have hq : Ends isNum ('"' :: (s.toList ++ '"' :: r)) := ends_cons (by decide)
    obtain ⟨x, hx⟩ := explicit_some (pre := [.call .color, .call .keyword, .call .percentage, .call .time, .call .dimension, .call .zero, .call .number]) (post := []) h1 (by
      simp only [List.mem_cons, List.not_mem_nil, or_false]
      have num := runs_number_none hq
      rintro y (rfl | rfl | rfl | rfl | rfl | rfl | rfl)
      · exact runs_color_none (by rintro c u e rfl; injection e with e _; revert e; decide)
      · exact runs_keyword_none (ends_cons (by decide))
      · exact Runs.call_none num.seq_left
      · exact Runs.call_none num.seq_left
      · exact Runs.call_none num.seq_left
      · exact Runs.call_none (Runs.seq_left (runs_word1_none (d := '0') rfl (by rintro c u e rfl; injection e with e _; revert e; decide)))
      · exact num) rfl
    exact ⟨x, _, by simpa using hx, by simp [readExplicit, Pair.str]⟩

end Verif.Sheet
