import Verif.Float.Lengths
import Verif.Css.Explicit
/-!
# Values that are not computed, read back in rounded arithmetic

The proof is that of `Css/Explicit.lean`.
-/
namespace Verif.Sheet
open Written (IsWord isKeyChar)

local notation "S" => cssGrammar

/-- The text is read as the value, wherever a value may end after it. -/
def ReadsAs (q : Rat → Rat) (t : List Char) (v : ComputedValue) : Prop :=
  ∀ rest, Ends isOpen rest → ∃ x p, Runs cssGrammar .compound (.call .explicit) (t ++ rest) (some ([.mk .explicit x [p]], rest)) ∧ readExplicitIn q p = some v

/-- The values a text stands for, with their numbers rounded. -/
inductive ExplicitIn (q : Rat → Rat) : ComputedValue → List Char → Prop
  | keyword {k} : Keyword k → ExplicitIn q (.keyword k) k.toList
  | zero : ExplicitIn q .zero ['0']
  | number {v t} : Number v t → (∀ u, t = '0' :: u → ∃ w, u = '.' :: w) → ExplicitIn q (.number (q v)) t
  | percentage {v t} : Number v t → ExplicitIn q (.percentage (q (q v / 100))) (t ++ ['%'])
  | seconds {v t} : Number v t → ExplicitIn q (.time (q v)) (t ++ ['s'])
  | milliseconds {v t} : Number v t → ExplicitIn q (.time (q (q v / 1000))) (t ++ ['m', 's'])
  | dimension {v t name unit} : Number v t → (name, unit) ∈ unitNames → ExplicitIn q (.dimension ⟨q v, unit⟩) (t ++ name.toList)
  | opaque {r g b r1 r2 g1 g2 b1 b2} : HexByte r r1 r2 → HexByte g g1 g2 → HexByte b b1 b2 → ExplicitIn q (.color ⟨r, g, b, 255⟩) ['#', r1, r2, g1, g2, b1, b2]
  | color {r g b a r1 r2 g1 g2 b1 b2 a1 a2} : HexByte r r1 r2 → HexByte g g1 g2 → HexByte b b1 b2 → HexByte a a1 a2 →
      ExplicitIn q (.color ⟨r, g, b, a⟩) ['#', r1, r2, g1, g2, b1, b2, a1, a2]
  | string {s : String} : '"' ∉ s.toList → ExplicitIn q (.str s) ('"' :: (s.toList ++ ['"']))

theorem runs_explicitIn {q : Rat → Rat} {v : ComputedValue} {t : List Char} (h : ExplicitIn q v t) : ReadsAs q t v := by
  intro r hr
  have hkey := open_key hr
  have colorNone : ∀ {v t} {i : List Char}, Number v t → Runs S .compound (.call .color) (t ++ i) none := by
    intro v t i h
    obtain ⟨c, u, rfl, hc⟩ := number_first h
    refine runs_color_none ?_
    rintro d w e rfl
    injection e with e _; subst e; revert hc; decide
  have noMs : ∀ {i : List Char}, Ends isAlpha i → ¬ "ms".toList <+: i := by
    rintro i hi ⟨w, rfl⟩
    have := hi 'm' _ rfl
    revert this; decide
  have noS : ∀ {i : List Char}, Ends isAlpha i → ∀ c u, i = c :: u → c ≠ 's' := by
    rintro i hi c u e rfl
    have := hi _ _ e
    revert this; decide
  have hal : Ends isAlpha r := fun c u e => key_alpha (hkey c u e)
  cases h with
  | @keyword k hk =>
    have hl : Ends isLetter r := fun c u e => key_letter (hkey c u e)
    have h1 := runs_keyword hk hl
    obtain ⟨x, hx⟩ := explicit_some (pre := [.call .color]) (post := [.call .percentage, .call .time, .call .dimension, .call .zero, .call .number, .call .string]) h1 (by
      simp only [List.mem_singleton, forall_eq]
      refine runs_color_none ?_
      obtain ⟨c, u, e, hc⟩ := word_cons hk.1
      rw [e]
      rintro d w e' rfl
      injection e' with e' _; subst e'; revert hc; decide) rfl
    exact ⟨x, _, hx, by simp [readExplicitIn]⟩
  | zero =>
    have hn : Number (decimal ['0']) ['0'] := .plain (.int ⟨by simp, by decide⟩)
    have hw := number_word hn
    have h1 : Runs S .compound (.call .zero) ('0' :: r) (some ([.mk .zero ['0'] []], r)) := by
      refine Runs.call_seen (t := ['0']) rfl ?_
      exact (runs_word1 rfl).seq c0 (.neg (runs_word1_none (d := '.') rfl (open_ne hr (by decide))))
    obtain ⟨x, hx⟩ := explicit_some (pre := [.call .color, .call .keyword, .call .percentage, .call .time, .call .dimension]) (post := [.call .number, .call .string]) h1 (by
      simp only [List.mem_cons, List.not_mem_nil, or_false]
      rintro y (rfl | rfl | rfl | rfl | rfl)
      · exact colorNone hn
      · exact number_keyword_none hn
      · exact percentage_none hw (open_num hr) (open_ne hr (by decide))
      · exact time_none hw (open_num hr) (noS hal) (noMs hal)
      · exact dimension_none hw (open_num hr) hal) rfl
    exact ⟨x, _, hx, rfl⟩
  | @number v t hn hz =>
    have hw := number_word hn
    have h1 := runs_number hw (open_num hr)
    obtain ⟨x, hx⟩ := explicit_some (pre := [.call .color, .call .keyword, .call .percentage, .call .time, .call .dimension, .call .zero]) (post := [.call .string]) h1 (by
      simp only [List.mem_cons, List.not_mem_nil, or_false]
      rintro y (rfl | rfl | rfl | rfl | rfl | rfl)
      · exact colorNone hn
      · exact number_keyword_none hn
      · exact percentage_none hw (open_num hr) (open_ne hr (by decide))
      · exact time_none hw (open_num hr) (noS hal) (noMs hal)
      · exact dimension_none hw (open_num hr) hal
      · obtain ⟨c, u, rfl, -⟩ := number_first hn
        by_cases hc : c = '0'
        · subst hc
          obtain ⟨w, rfl⟩ := hz u rfl
          exact Runs.call_none ((runs_word1 (d := '0') rfl).seq_right c0 (.neg_not (runs_word1 (d := '.') rfl)))
        · exact Runs.call_none (Runs.seq_left (runs_word1_none (d := '0') rfl (by rintro d w e rfl; injection e with e _; exact hc e)))) rfl
    exact ⟨x, _, hx, by simp [readExplicitIn, readNumberIn, readNumber_written hn]⟩
  | @percentage v t hn =>
    have hw := number_word hn
    have h0 := (runs_number hw (r := '%' :: r) (ends_cons (by decide))).seq c0 (runs_word1 (s := "%") (d := '%') rfl)
    obtain ⟨x0, h1⟩ := Runs.call_pair (g := S) (a := .compound) (r := CssRule.percentage) rfl h0
    obtain ⟨x, hx⟩ := explicit_some (pre := [.call .color, .call .keyword]) (post := [.call .time, .call .dimension, .call .zero, .call .number, .call .string]) h1 (by
      simp only [List.mem_cons, List.not_mem_nil, or_false]
      rintro y (rfl | rfl)
      · exact colorNone hn
      · exact number_keyword_none hn) rfl
    exact ⟨x, _, by simpa using hx, by simp [readExplicitIn, readNumberIn, Pair.str, readNumber_written hn]⟩
  | @seconds v t hn =>
    have hw := number_word hn
    have hu : Runs S .compound (.call .timeUnit) ('s' :: r) (some ([.mk .timeUnit ['s'] []], r)) :=
      Runs.call_seen (t := ['s']) rfl (Runs.alt_right (.lit_not (by rintro ⟨w, e⟩; injection e with e _; revert e; decide)) (runs_word1 rfl))
    have h0 := (runs_number hw (r := 's' :: r) (ends_cons (by decide))).seq c0 hu
    obtain ⟨x0, h1⟩ := Runs.call_pair (g := S) (a := .compound) (r := CssRule.time) rfl h0
    obtain ⟨x, hx⟩ := explicit_some (pre := [.call .color, .call .keyword, .call .percentage]) (post := [.call .dimension, .call .zero, .call .number, .call .string]) h1 (by
      simp only [List.mem_cons, List.not_mem_nil, or_false]
      rintro y (rfl | rfl | rfl)
      · exact colorNone hn
      · exact number_keyword_none hn
      · exact percentage_none hw (ends_cons (by decide)) (by rintro c u e rfl; injection e with e _; revert e; decide)) rfl
    exact ⟨x, _, by simpa using hx, by simp [readExplicitIn, readNumberIn, Pair.str, readNumber_written hn]⟩
  | @milliseconds v t hn =>
    have hw := number_word hn
    have hu : Runs S .compound (.call .timeUnit) ('m' :: 's' :: r) (some ([.mk .timeUnit ['m', 's'] []], r)) :=
      Runs.call_seen (t := ['m', 's']) rfl (Runs.alt_left (.lit (s := "ms".toList)))
    have h0 := (runs_number hw (r := 'm' :: 's' :: r) (ends_cons (by decide))).seq c0 hu
    obtain ⟨x0, h1⟩ := Runs.call_pair (g := S) (a := .compound) (r := CssRule.time) rfl h0
    obtain ⟨x, hx⟩ := explicit_some (pre := [.call .color, .call .keyword, .call .percentage]) (post := [.call .dimension, .call .zero, .call .number, .call .string]) h1 (by
      simp only [List.mem_cons, List.not_mem_nil, or_false]
      rintro y (rfl | rfl | rfl)
      · exact colorNone hn
      · exact number_keyword_none hn
      · exact percentage_none hw (ends_cons (by decide)) (by rintro c u e rfl; injection e with e _; revert e; decide)) rfl
    exact ⟨x, _, by simpa using hx, by simp [readExplicitIn, readNumberIn, Pair.str, readNumber_written hn]⟩
  | @dimension v t name unit hn hu =>
    have hw := number_word hn
    obtain ⟨c, u, e, hal1, hcs, hms, hall, hp⟩ : ∃ c u, name.toList = c :: u ∧ isAlpha c = true ∧ c ≠ 's' ∧ (c = 'm' → False) ∧ (∀ d ∈ name.toList, isAlpha d = true) ∧ Units.parse name = some unit := by
      simp only [unitNames, List.mem_cons, Prod.mk.injEq, List.not_mem_nil, or_false] at hu
      rcases hu with ⟨rfl, rfl⟩ | ⟨rfl, rfl⟩ | ⟨rfl, rfl⟩ | ⟨rfl, rfl⟩ | ⟨rfl, rfl⟩ | ⟨rfl, rfl⟩ | ⟨rfl, rfl⟩ <;>
        exact ⟨_, _, rfl, by decide, by decide, by decide, by decide, by decide⟩
    have hnum : Ends isNum (name.toList ++ r) := by rw [e]; exact ends_cons (alpha_num hal1)
    have hunit : Runs S .compound (.call .unit) (name.toList ++ r) (some ([.mk .unit name.toList []], r)) :=
      Runs.call_seen rfl ((Class.chr isAlpha).plus (by decide) ⟨by rw [e]; simp, hall⟩ hal)
    have h0 := (runs_number hw hnum).seq c0 hunit
    obtain ⟨x0, h1⟩ := Runs.call_pair (g := S) (a := .compound) (r := CssRule.dimension) rfl h0
    obtain ⟨x, hx⟩ := explicit_some (pre := [.call .color, .call .keyword, .call .percentage, .call .time]) (post := [.call .zero, .call .number, .call .string]) h1 (by
      simp only [List.mem_cons, List.not_mem_nil, or_false]
      rintro y (rfl | rfl | rfl | rfl)
      · exact colorNone hn
      · exact number_keyword_none hn
      · refine percentage_none hw hnum ?_
        rw [e]; rintro d w e' rfl; injection e' with e' _; subst e'; revert hal1; decide
      · refine time_none hw hnum ?_ ?_
        · rw [e]; rintro d w e' rfl; injection e' with e' _; exact hcs e'
        · rw [e]; rintro ⟨w, e'⟩; injection e' with e' _; exact hms e'.symm) rfl
    exact ⟨x, _, by simpa using hx, by simp [readExplicitIn, readNumberIn, Pair.str, readNumber_written hn, hp]⟩
  | @«opaque» _ _ _ r1 r2 g1 g2 e1 e2 hr1 hg1 hb1 =>
    obtain ⟨a1, a2, a3⟩ := hexByte_written hr1
    obtain ⟨b1, b2, b3⟩ := hexByte_written hg1
    obtain ⟨c1, c2, c3⟩ := hexByte_written hb1
    obtain ⟨x, hx⟩ := explicit_some (pre := []) (post := [.call .keyword, .call .percentage, .call .time, .call .dimension, .call .zero, .call .number, .call .string])
      (runs_color (t := [r1, r2, g1, g2, e1, e2]) ⟨by simp, by simp [a1, a2, b1, b2, c1, c2]⟩ hkey) (by simp) rfl
    exact ⟨x, _, hx, by simp [readExplicitIn, readNumberIn, readColor, a3, b3, c3]⟩
  | @color _ _ _ _ r1 r2 g1 g2 e1 e2 f1 f2 hr1 hg1 hb1 hd1 =>
    obtain ⟨a1, a2, a3⟩ := hexByte_written hr1
    obtain ⟨b1, b2, b3⟩ := hexByte_written hg1
    obtain ⟨c1, c2, c3⟩ := hexByte_written hb1
    obtain ⟨d1, d2, d3⟩ := hexByte_written hd1
    obtain ⟨x, hx⟩ := explicit_some (pre := []) (post := [.call .keyword, .call .percentage, .call .time, .call .dimension, .call .zero, .call .number, .call .string])
      (runs_color (t := [r1, r2, g1, g2, e1, e2, f1, f2]) ⟨by simp, by simp [a1, a2, b1, b2, c1, c2, d1, d2]⟩ hkey) (by simp) rfl
    exact ⟨x, _, hx, by simp [readExplicitIn, readNumberIn, readColor, a3, b3, c3, d3]⟩
  | @string s hs =>
    obtain ⟨x0, h1⟩ := runs_string_css (r := r) hs (a := .compound) (by decide) (by decide)
    have hq : Ends isNum ('"' :: (s.toList ++ '"' :: r)) := ends_cons (by decide)
    obtain ⟨x, hx⟩ := explicit_some (pre := [.call .color, .call .keyword, .call .percentage, .call .time, .call .dimension, .call .zero, .call .number]) (post := []) h1 (by
      simp only [List.mem_cons, List.not_mem_nil, or_false]
      have num := runs_number_none hq
      rintro y (rfl | rfl | rfl | rfl | rfl | rfl | rfl)
      · exact runs_color_none (by rintro c u e rfl; injection e with e _; revert e; decide)
      · exact runs_keyword_none (ends_cons (by decide))
      · exact Runs.call_none num.seq_left
      · exact Runs.call_none num.seq_left
      · exact Runs.call_none num.seq_left
      · exact Runs.call_none (Runs.seq_left (runs_word1_none (d := '0') rfl (by rintro c u e rfl; injection e with e _; revert e; decide)))
      · exact num) rfl
    exact ⟨x, _, by simpa using hx, by simp [readExplicitIn, readNumberIn, Pair.str]⟩

end Verif.Sheet
