import Verif.Css.Explicit
/-!
# Values and shorthands, read back
-/
namespace Verif.Sheet
open Written (IsWord isKeyChar)

local notation "S" => cssGrammar

/-- What a value may start with. -/
def isStart (c : Char) : Bool := isKeyChar c || c == '.' || c == '#' || c == '"'

theorem start_key {r : List Char} (h : Ends isStart r) : Ends isKeyChar r := fun c u e => by
  have := h c u e; simp only [isStart, Bool.or_eq_false_iff] at this; exact this.1.1.1
theorem start_ne {r : List Char} (h : Ends isStart r) {d : Char} (hd : isStart d = true) : ∀ c u, r = c :: u → c ≠ d := by
  rintro c u e rfl; rw [h c u e] at hd; cases hd

/-- There is no name followed by a parenthesis. -/
def NoCall (i : List Char) : Prop := ∀ u, i.dropWhile isKeyChar ≠ '(' :: u

theorem drop_var (u : List Char) : ("var".toList ++ '(' :: u).dropWhile isKeyChar = '(' :: u := by
  have h : ∀ c ∈ "var".toList, isKeyChar c = true := by decide
  rw [List.dropWhile_append_of_pos h]; simp [show isKeyChar '(' = false from rfl]

theorem take_word {w r : List Char} (hw : ∀ c ∈ w, isKeyChar c = true) (hr : Ends isKeyChar r) : (w ++ r).takeWhile isKeyChar = w ∧ (w ++ r).dropWhile isKeyChar = r := by
  rw [List.takeWhile_append_of_pos hw, List.dropWhile_append_of_pos hw]
  cases r with
  | nil => simp
  | cons c u => have := hr c u rfl; simp [this]

theorem var_none {i : List Char} (h : NoCall i) : Runs S .compound (.call .var) i none := by
  refine Runs.call_none ?_
  change Runs S .compound (.seq (Peg.word "var") (.seq (Peg.word "(") _)) i none
  by_cases hv : "var".toList <+: i
  · obtain ⟨u, rfl⟩ := hv
    refine (Runs.lit (s := "var".toList)).seq_right c0 (Runs.seq_left (runs_word1_none (d := '(') rfl ?_))
    rintro c w rfl rfl
    exact h w (drop_var w)
  · exact Runs.seq_left (.lit_not hv)

theorem function_none {i : List Char} (h : NoCall i) : Runs S .compound (.call .function) i none := by
  refine Runs.call_none ?_
  have he : i.takeWhile isKeyChar ++ i.dropWhile isKeyChar = i := List.takeWhile_append_dropWhile
  have hd : Ends isKeyChar (i.dropWhile isKeyChar) := fun c u e => by
    have := List.head?_dropWhile_not isKeyChar i
    rw [e] at this
    simpa using this
  have key : ∀ {y : Peg CssRule}, Runs S .compound (.seq (.call .ident) (.seq (Peg.word "(") y)) i none := by
    intro y
    by_cases hw : i.takeWhile isKeyChar = []
    · rw [hw, List.nil_append] at he
      rw [he] at hd
      exact Runs.seq_left (runs_ident_none hd)
    · have hr := runs_ident (a := .compound) (by decide) (by decide) (t := i.takeWhile isKeyChar) ⟨hw, fun c hc => by
        have := List.all_takeWhile (l := i) (p := isKeyChar)
        rw [List.all_eq_true] at this; exact this c hc⟩ hd
      rw [he] at hr
      exact hr.seq_right c0 (Runs.seq_left (runs_word1_none (d := '(') rfl (by rintro c u e rfl; exact h u e)))
  exact Runs.alt_right key key

theorem noCall_ends {i : List Char} (h : Ends isKeyChar i) (h' : ∀ c u, i = c :: u → c ≠ '(') : NoCall i := by
  intro u e
  cases i with
  | nil => cases e
  | cons c i =>
    have := h c i rfl
    rw [List.dropWhile_cons, this] at e
    simp only [Bool.false_eq_true, if_false] at e
    injection e with e1 e2
    exact h' c i rfl e1

theorem noCall_text {t r : List Char} (ht : '(' ∉ t) (hr : Ends isOpen r) : NoCall (t ++ r) := by
  induction t with
  | nil => exact noCall_ends (open_key hr) (open_ne hr (by decide))
  | cons c t ih =>
    intro u e
    rw [List.cons_append, List.dropWhile_cons] at e
    split at e
    · exact ih (fun h => ht (List.mem_cons_of_mem _ h)) u e
    · injection e with e1 e2; exact ht (e1 ▸ List.mem_cons_self)

theorem noCall_explicit {v : ComputedValue} {t : List Char} (h : Explicit v t) {r : List Char} (hr : Ends isOpen r) : NoCall (t ++ r) := by
  have num : ∀ {v t}, Number v t → '(' ∉ t := fun h hm => by have := (number_word h).2 _ hm; revert this; decide
  have hex : ∀ {n a b}, HexByte n a b → a ≠ '(' ∧ b ≠ '(' := by
    intro n a b h
    obtain ⟨h1, h2, -⟩ := hexByte_written h
    exact ⟨by rintro rfl; revert h1; decide, by rintro rfl; revert h2; decide⟩
  cases h with
  | keyword h => exact noCall_text (fun hm => by have := h.1.2 _ hm; revert this; decide) hr
  | zero => exact noCall_text (by decide) hr
  | number h _ => exact noCall_text (num h) hr
  | percentage h => exact noCall_text (by simp [num h]) hr
  | seconds h => exact noCall_text (by simp [num h]) hr
  | milliseconds h => exact noCall_text (by simp [num h]) hr
  | @dimension v t name unit h hu =>
    refine noCall_text ?_ hr
    have : '(' ∉ name.toList := by
      simp only [unitNames, List.mem_cons, Prod.mk.injEq, List.not_mem_nil, or_false] at hu
      rcases hu with ⟨rfl, rfl⟩ | ⟨rfl, rfl⟩ | ⟨rfl, rfl⟩ | ⟨rfl, rfl⟩ | ⟨rfl, rfl⟩ | ⟨rfl, rfl⟩ | ⟨rfl, rfl⟩ <;> decide
    simp [num h, this]
  | «opaque» h1 h2 h3 => exact noCall_text (by simp [(hex h1).1.symm, (hex h1).2.symm, (hex h2).1.symm, (hex h2).2.symm, (hex h3).1.symm, (hex h3).2.symm]) hr
  | color h1 h2 h3 h4 => exact noCall_text (by simp [(hex h1).1.symm, (hex h1).2.symm, (hex h2).1.symm, (hex h2).2.symm, (hex h3).1.symm, (hex h3).2.symm, (hex h4).1.symm, (hex h4).2.symm]) hr
  | string h => exact noCall_ends (ends_cons (by decide)) (by rintro c u e rfl; injection e with e _; revert e; decide)

theorem value_none {i : List Char} (h : Ends isStart i) : Runs S .compound (.call .value) i none := by
  have hk := start_key h
  have hnum : Ends isNum i := fun c u e => by
    have := h c u e
    simp only [isStart, isKeyChar, isNum, Bool.or_eq_false_iff] at this ⊢
    exact ⟨⟨this.1.1.1.1.1.2, this.1.1.1.1.2⟩, this.1.1.2⟩
  have num := runs_number_none hnum
  refine Runs.call_none (Runs.alts_none ?_)
  simp only [List.mem_cons, List.not_mem_nil, or_false]
  rintro y (rfl | rfl | rfl)
  · refine Runs.call_none (Runs.seq_left (.lit_ne ?_))
    exact start_ne h (by decide)
  · exact Runs.call_none (Runs.alt_right (Runs.seq_left (runs_ident_none hk)) (Runs.seq_left (runs_ident_none hk)))
  · refine Runs.call_none (Runs.alts_none ?_)
    simp only [List.mem_cons, List.not_mem_nil, or_false]
    rintro y (rfl | rfl | rfl | rfl | rfl | rfl | rfl | rfl)
    · exact runs_color_none (start_ne h (by decide))
    · exact runs_keyword_none fun c u e => key_letter (hk c u e)
    · exact Runs.call_none num.seq_left
    · exact Runs.call_none num.seq_left
    · exact Runs.call_none num.seq_left
    · exact Runs.call_none (Runs.seq_left (runs_word1_none (d := '0') rfl (start_ne h (by decide))))
    · exact num
    · exact runs_string_none_css (start_ne h (by decide))

theorem key_start {c : Char} (h : isKeyChar c = true) : isStart c = true := by simp [isStart, h]
theorem num_start {c : Char} (h : isNum c = true) : isStart c = true := by
  simp only [isNum, isStart, isKeyChar, Bool.or_eq_true] at h ⊢
  rcases h with (h | h) | h
  · exact .inl (.inl (.inl (.inl (.inl (.inr h)))))
  · exact .inl (.inl (.inl (.inl (.inr h))))
  · exact .inl (.inl (.inr h))

theorem explicit_head {v : ComputedValue} {t : List Char} (h : Explicit v t) : ∃ c u, t = c :: u ∧ isStart c = true := by
  have num : ∀ {v t}, Number v t → ∀ s, ∃ c u, t ++ s = c :: u ∧ isStart c = true := by
    intro v t h s
    obtain ⟨c, u, rfl, hc⟩ := number_first h
    exact ⟨c, _, rfl, num_start hc⟩
  cases h with
  | keyword h => obtain ⟨c, u, e, hc⟩ := word_cons h.1; exact ⟨c, u, e, key_start (letter_key hc)⟩
  | zero => exact ⟨_, _, rfl, by decide⟩
  | number h _ => simpa using num h []
  | percentage h => exact num h _
  | seconds h => exact num h _
  | milliseconds h => exact num h _
  | dimension h hu => exact num h _
  | «opaque» _ _ _ => exact ⟨_, _, rfl, by decide⟩
  | color _ _ _ _ => exact ⟨_, _, rfl, by decide⟩
  | string _ => exact ⟨_, _, rfl, by decide⟩

theorem value_head {d : Definition} {t : List Char} (h : Value d t) : ∃ c u, t = c :: u ∧ isStart c = true := by
  cases h with
  | var h => exact ⟨_, _, rfl, by decide⟩
  | function h _ _ => obtain ⟨c, u, e, hc⟩ := word_cons h; rw [e]; exact ⟨c, _, rfl, key_start hc⟩
  | explicit h => exact explicit_head h

theorem more_head {ds : List Definition} {u : List Char} (h : More ds u) (r : List Char) : Ends isOpen (u ++ ')' :: r) := by
  cases h with
  | nil => exact ends_cons (by decide)
  | cons _ _ _ => exact ends_cons (by decide)

theorem start_blank : ∀ {c : Char}, isStart c = true → isBlank c = false := not_blank' (p := isStart) (by decide)

/-- The expression for further arguments. -/
abbrev moreArg : Peg CssRule := Peg.seqs [Peg.word ",", .star (.chr isBlank), .call .value]

theorem more_end {r : List Char} : ManyIn S .compound moreArg (')' :: r) [] (')' :: r) :=
  .nil (Runs.seq_left (runs_word1_none (d := ',') rfl (by rintro c u e rfl; injection e with e _; revert e; decide))) c0

theorem function_var {name : String} (hn : IsWord isKeyChar name.toList) (hv : name ≠ "var") (i : List Char) : Runs S .compound (.call .var) (name.toList ++ '(' :: i) none := by
  refine Runs.call_none ?_
  change Runs S .compound (.seq (Peg.word "var") (.seq (Peg.word "(") _)) _ none
  by_cases hp : "var".toList <+: name.toList ++ '(' :: i
  · obtain ⟨u, e⟩ := hp
    rw [← e]
    refine (Runs.lit (s := "var".toList)).seq_right c0 (Runs.seq_left (runs_word1_none (d := '(') rfl ?_))
    rintro c w rfl rfl
    apply hv
    have h1 := (take_word hn.2 (r := '(' :: i) (ends_cons (by decide))).1
    have h2 := (take_word (w := "var".toList) (by decide) (r := '(' :: w) (ends_cons (by decide))).1
    rw [e] at h2
    exact String.toList_inj.1 (h1.symm.trans h2)
  · exact Runs.seq_left (.lit_not hp)

mutual
theorem runs_value {d : Definition} {t : List Char} (h : Value d t) {r : List Char} (hr : Ends isOpen r) :
    ∃ p, Runs S .compound (.call .value) (t ++ r) (some ([p], r)) ∧ readValue p = some d := by
  match d, t, h with
  | _, _, .var (k := k) hk =>
    have h1 : Runs S .compound (cssBody .var) ("var".toList ++ '(' :: (k.toList ++ ')' :: r)) (some ([.mk .keyword k.toList []], r)) := by
      have hk' := runs_keyword hk (r := ')' :: r) (ends_cons (by decide))
      have ho : Runs S .compound (.opt (.seq (Peg.word ",") (.call .value))) (')' :: r) (some ([], ')' :: r)) :=
        .opt_none (Runs.seq_left (runs_word1_none (d := ',') rfl (by rintro c u e rfl; injection e with e _; revert e; decide)))
      exact (Runs.lit (s := "var".toList)).seq c0 ((runs_word1 rfl).seq c0 (hk'.seq c0 (ho.seq c0 (runs_word1 rfl))))
    obtain ⟨x, hx⟩ := Runs.call_pair (g := S) (a := .compound) (r := CssRule.var) rfl h1
    have hx' : Runs S .compound (.call .value) ("var".toList ++ '(' :: (k.toList ++ ')' :: r)) _ :=
      .call_hidden rfl (Runs.alts_some (pre := []) hx (by simp))
    exact ⟨_, by simpa using hx', by simp [readValue]⟩
  | _, _, .function (name := name) (args := args) (t := t) hn hv ha =>
    have h0 := function_var hn hv (t ++ ')' :: r)
    have hid := runs_ident (a := .compound) (by decide) (by decide) hn (r := '(' :: (t ++ ')' :: r)) (ends_cons (by decide))
    have hpar : Runs S .compound (Peg.word "(") ('(' :: (t ++ ')' :: r)) (some ([], t ++ ')' :: r)) := runs_word1 rfl
    have h1 : ∃ ps, Runs S .compound (cssBody .function) (name.toList ++ '(' :: (t ++ ')' :: r)) (some (.mk .ident name.toList [] :: ps, r)) ∧ readValues ps = some args := by
      match args, t, ha with
      | _, _, .nil => exact ⟨[], Runs.alt_left (hid.seq c0 (hpar.seq c0 (runs_word1 rfl))), rfl⟩
      | _, _, .cons (d := d) (t := t) (ds := ds) (u := u) hd hm =>
        obtain ⟨p, h2, h3⟩ := runs_value hd (more_head hm r)
        obtain ⟨ps, h4, h5⟩ := runs_more hm r
        obtain ⟨m, h6, h7⟩ := h4.star
        obtain ⟨-, rfl⟩ := Prod.mk.inj (Option.some.inj (h7.unique c0))
        rw [List.append_assoc] at *
        refine ⟨p :: ps, Runs.alt_right ?_ ?_, by simp [readValues, h3, h5]⟩
        · refine hid.seq_right c0 (hpar.seq_right c0 (runs_word1_none (d := ')') rfl ?_))
          obtain ⟨c, w, rfl, hc⟩ := value_head hd
          rintro d' w' e rfl
          injection e with e _; subst e; revert hc; decide
        · have := hid.seq c0 (hpar.seq c0 (h2.seq c0 (h6.seq c0 (runs_word1 (s := ")") (d := ')') rfl (i := r)))))
          simp only [List.append_nil, List.nil_append, List.cons_append] at this
          exact this
    obtain ⟨ps, h1, h2⟩ := h1
    obtain ⟨x, hx⟩ := Runs.call_pair (g := S) (a := .compound) (r := CssRule.function) rfl h1
    have hx' : Runs S .compound (.call .value) _ _ := .call_hidden rfl (Runs.alts_some (pre := [.call .var]) hx (by simpa using h0))
    exact ⟨_, by simpa using hx', by simp [readValue, h2]⟩
  | _, _, .explicit (v := v) (t := t) he =>
    obtain ⟨x, p, h1, h2⟩ := runs_explicit he hr
    have hc := noCall_explicit he hr
    exact ⟨_, .call_hidden rfl (Runs.alts_some (pre := [.call .var, .call .function]) h1 (by simp [var_none hc, function_none hc])), by simp [readValue, h2]⟩
theorem runs_more {ds : List Definition} {u : List Char} (h : More ds u) (r : List Char) :
    ∃ ps, ManyIn S .compound moreArg (u ++ ')' :: r) ps (')' :: r) ∧ readValues ps = some ds := by
  match ds, u, h with
  | _, _, .nil => exact ⟨[], more_end, rfl⟩
  | _, _, .cons (bl := bl) (d := d) (t := t) (ds := ds) (u := u) hb hd hm =>
    obtain ⟨p, h1, h2⟩ := runs_value hd (more_head hm r)
    obtain ⟨ps, h3, h4⟩ := runs_more hm r
    have hs : Ends isBlank (t ++ (u ++ ')' :: r)) := by
      obtain ⟨c, w, rfl, hc⟩ := value_head hd; exact ends_cons (start_blank hc)
    have h5 : Runs S .compound moreArg (',' :: (bl ++ (t ++ (u ++ ')' :: r)))) (some ([p], u ++ ')' :: r)) :=
      (runs_word1 rfl).seq c0 (((Class.chr isBlank).star (by decide) hb hs).seq c0 h1)
    have := ManyIn.cons (.of h5 c0) h3
    exact ⟨_, by simpa using this, by simp [readValues, h2, h4]⟩
end

end Verif.Sheet
