import Verif.Css.Words
/-!
# Numbers and colours in stylesheets
-/
namespace Verif.Sheet
open Written (IsWord isKeyChar)

local notation "S" => cssGrammar

theorem digit_key {c : Char} (h : isDigit c = true) : isKeyChar c = true := by simp [isKeyChar, h]
theorem digit_num {c : Char} (h : isDigit c = true) : isNum c = true := by simp [isNum, h]

theorem isAlpha_not_digit {c : Char} (h : isDigit c = true) : isAlpha c = false := by
  simp only [isDigit, Bool.and_eq_true, decide_eq_true_eq, Char.le_def, UInt32.le_iff_toNat_le] at h
  have h' : 48 ≤ c.val.toNat ∧ c.val.toNat ≤ 57 := h
  simp only [isAlpha, Bool.or_eq_false_iff, Bool.and_eq_false_iff, decide_eq_false_iff_not, Char.le_def, UInt32.le_iff_toNat_le]
  have h1 : ¬ 97 ≤ c.val.toNat := by omega
  have h2 : ¬ 65 ≤ c.val.toNat := by omega
  exact ⟨.inl h1, .inl h2⟩

theorem digit_letter {c : Char} (h : isDigit c = true) : isLetter c = false := by
  have h1 := isAlpha_not_digit h
  have h2 : c ≠ '-' := by rintro rfl; revert h; decide
  have h3 : c ≠ '_' := by rintro rfl; revert h; decide
  simp [isLetter, h1, h2, h3]

/-! ## Numbers -/

theorem unsigned_word {v : Rat} {t : List Char} (h : Unsigned v t) : IsWord isNum t := by
  cases h with
  | int h => exact ⟨h.1, fun c hc => digit_num (h.2 c hc)⟩
  | @frac t u h1 h2 =>
    refine ⟨by simp, fun c hc => ?_⟩
    simp only [List.mem_append, List.mem_cons] at hc
    rcases hc with hc | rfl | hc
    · exact digit_num (h1 c hc)
    · decide
    · exact digit_num (h2.2 c hc)

/-- The first character is a digit or a point. -/
theorem unsigned_head {v : Rat} {t : List Char} (h : Unsigned v t) : ∃ c u, t = c :: u ∧ (isDigit c = true ∨ c = '.') := by
  cases h with
  | int h => obtain ⟨c, u, e, hc⟩ := word_cons h; exact ⟨c, u, e, .inl hc⟩
  | @frac t u h1 h2 =>
    cases t with
    | nil => exact ⟨_, _, rfl, .inr rfl⟩
    | cons c t => exact ⟨c, _, rfl, .inl (h1 c List.mem_cons_self)⟩

theorem unsigned_letter {v : Rat} {t r : List Char} (h : Unsigned v t) : Ends isLetter (t ++ r) := by
  obtain ⟨c, u, rfl, hc⟩ := unsigned_head h
  refine ends_cons ?_
  rcases hc with hc | rfl
  · exact digit_letter hc
  · decide

theorem number_word {v : Rat} {t : List Char} (h : Number v t) : IsWord isNum t := by
  cases h with
  | plain h => exact unsigned_word h
  | minus h =>
    refine ⟨by simp, fun c hc => ?_⟩
    rcases List.mem_cons.1 hc with rfl | hc
    · decide
    · exact (unsigned_word h).2 c hc

theorem unsigned_value {v : Rat} {t : List Char} (h : Unsigned v t) : parseUnsigned t = some v := by
  unfold parseUnsigned
  cases h with
  | int h =>
    have h1 : t.takeWhile isDigit = t := by simpa using List.takeWhile_append_of_pos (l₂ := []) h.2
    have h2 : t.dropWhile isDigit = [] := by simpa using List.dropWhile_append_of_pos (l₂ := []) h.2
    have h3 : t.isEmpty = false := by simpa using h.1
    simp [h1, h2, h3]
  | @frac t u ht hu =>
    have h1 : (t ++ '.' :: u).takeWhile isDigit = t := by rw [List.takeWhile_append_of_pos ht]; simp [show isDigit '.' = false from rfl]
    have h2 : (t ++ '.' :: u).dropWhile isDigit = '.' :: u := by rw [List.dropWhile_append_of_pos ht]; simp [show isDigit '.' = false from rfl]
    have h3 : u.isEmpty = false := by simpa using hu.1
    have h4 : u.all isDigit = true := by simpa using hu.2
    simp [h1, h2, h3, h4]

/-- Numbers are read exactly. -/
theorem readNumber_written {v : Rat} {t : List Char} (h : Number v t) : readNumber t = v := by
  unfold readNumber
  cases h with
  | plain h =>
    obtain ⟨c, u, e, hc⟩ := unsigned_head h
    have h1 : c ≠ '-' := by rintro rfl; rcases hc with hc | hc <;> revert hc <;> decide
    have h2 : parseNumber t = parseUnsigned t := by
      rw [e, parseNumber]
      intro t' e'
      injection e' with e' _
      exact h1 e'
    rw [h2, unsigned_value h]
    rfl
  | minus h => rw [parseNumber, unsigned_value h]; rfl

theorem runs_number {t r : List Char} (h : IsWord isNum t) (hr : Ends isNum r) : Runs S .compound (.call .number) (t ++ r) (some ([.mk .number t []], r)) :=
  .call_seen rfl ((num_class _).plus (by decide) h hr)

theorem runs_number_none {i : List Char} (h : Ends isNum i) : Runs S .compound (.call .number) i none := Runs.call_none ((num_class _).plus_none h)

theorem number_keyword_none {v : Rat} {t r : List Char} (h : Number v t) : Runs S .compound (.call .keyword) (t ++ r) none := by
  cases h with
  | plain h => exact runs_keyword_none (unsigned_letter h)
  | minus h => exact runs_keyword_dash (unsigned_letter h)

/-! ## Colours -/

theorem lower_inv {c d : Char} (h : lowerAscii c = d) : c = d ∨ (65 ≤ c.toNat ∧ c.toNat ≤ 90 ∧ d.toNat = c.toNat + 32) := by
  unfold lowerAscii at h
  split at h
  · rename_i hc
    refine .inr ?_
    simp only [Char.le_def, UInt32.le_iff_toNat_le] at hc
    change 65 ≤ c.toNat ∧ c.toNat ≤ 90 at hc
    refine ⟨hc.1, hc.2, ?_⟩
    have hv : (c.toNat + 32).isValidChar := .inl (by omega)
    rw [← h, Char.ofNat, dif_pos hv]
    exact UInt32.toNat_ofNatLT
  · exact .inl h

theorem hexDigit_char {n : Nat} {c : Char} (h : HexDigit n c) : isHex c = true ∧ hexValue c = n := by
  unfold HexDigit at h
  have upper : ∀ {m : Nat}, c.toNat = m → c = Char.ofNat m := by rintro m rfl; exact (Char.ofNat_toNat c).symm
  have low : ∀ {d : Char}, some d = some (lowerAscii c) → d.toNat < 97 → c = d := by
    intro d hd hl
    rcases lower_inv (Option.some.inj hd).symm with h | ⟨h1, h2, h3⟩
    · exact h
    · omega
  have high : ∀ {d : Char}, some d = some (lowerAscii c) → c = d ∨ c = Char.ofNat (d.toNat - 32) := by
    intro d hd
    rcases lower_inv (Option.some.inj hd).symm with h | ⟨h1, h2, h3⟩
    · exact .inl h
    · exact .inr (upper (by omega))
  rcases n with _ | _ | _ | _ | _ | _ | _ | _ | _ | _ | _ | _ | _ | _ | _ | _ | n
  · obtain rfl := low (d := '0') h (by decide); decide
  · obtain rfl := low (d := '1') h (by decide); decide
  · obtain rfl := low (d := '2') h (by decide); decide
  · obtain rfl := low (d := '3') h (by decide); decide
  · obtain rfl := low (d := '4') h (by decide); decide
  · obtain rfl := low (d := '5') h (by decide); decide
  · obtain rfl := low (d := '6') h (by decide); decide
  · obtain rfl := low (d := '7') h (by decide); decide
  · obtain rfl := low (d := '8') h (by decide); decide
  · obtain rfl := low (d := '9') h (by decide); decide
  · rcases high (d := 'a') h with rfl | rfl <;> decide
  · rcases high (d := 'b') h with rfl | rfl <;> decide
  · rcases high (d := 'c') h with rfl | rfl <;> decide
  · rcases high (d := 'd') h with rfl | rfl <;> decide
  · rcases high (d := 'e') h with rfl | rfl <;> decide
  · rcases high (d := 'f') h with rfl | rfl <;> decide
  · have hl : hexDigits.length = 16 := by decide
    rw [List.getElem?_eq_none (by omega)] at h; cases h

/-- Two digits are read as their value. -/
theorem hexByte_written {n : Nat} {a b : Char} (h : HexByte n a b) : isHex a = true ∧ isHex b = true ∧ hexByte a b = n := by
  obtain ⟨x, y, h1, h2, rfl⟩ := h
  obtain ⟨h3, h4⟩ := hexDigit_char h1
  obtain ⟨h5, h6⟩ := hexDigit_char h2
  exact ⟨h3, h5, by simp [hexByte, h3, h5, h4, h6, Nat.mul_comm]⟩

theorem hex_key {c : Char} (h : isKeyChar c = false) : isHex c = false := by
  simp only [isKeyChar, isAlpha, isHex, Bool.or_eq_false_iff, Bool.and_eq_false_iff, decide_eq_false_iff_not] at h ⊢
  obtain ⟨⟨⟨⟨h1, h2⟩, h3⟩, -⟩, -⟩ := h
  refine ⟨⟨h3, ?_⟩, ?_⟩
  · rcases h1 with h | h
    · exact .inl h
    · exact .inr fun h' => h (Char.le_trans h' (by decide))
  · rcases h2 with h | h
    · exact .inl h
    · exact .inr fun h' => h (Char.le_trans h' (by decide))

theorem runs_color {t r : List Char} (h : IsWord isHex t) (hr : Ends isKeyChar r) : Runs S .compound (.call .color) ('#' :: (t ++ r)) (some ([.mk .color ('#' :: t) []], r)) := by
  refine Runs.call_seen (t := '#' :: t) rfl ?_
  exact (runs_word1 rfl).seq (.gap_off (by decide)) ((Class.chr isHex).plus (by decide) h fun c u e => hex_key (hr c u e))

end Verif.Sheet
