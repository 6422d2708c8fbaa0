import Verif.Html.Binders
import Verif.Css.Sound
import Verif.Spec.Sheet
/-!
# Blanks and words in stylesheets
-/
namespace Verif.Sheet
open Written (IsWord isKeyChar)

local notation "S" => cssGrammar

/-! ## Blanks -/

/-- Does not start with white space or a comment. -/
def Solid (t : List Char) : Prop := (∀ c u, t = c :: u → isBlank c = false) ∧ ¬ "/*".toList <+: t

theorem solid_cons {c : Char} {t : List Char} (h1 : isBlank c = false) (h2 : c ≠ '/') : Solid (c :: t) :=
  ⟨fun d u e => by injection e with e _; exact e ▸ h1, by rintro ⟨u, e⟩; injection e with e _; exact h2 e.symm⟩
theorem solid_nil : Solid [] := ⟨fun c u e => (by cases e), (by rintro ⟨u, e⟩; cases e)⟩

theorem runs_white {i : List Char} (h : ∀ c u, i = c :: u → isBlank c = false) : Runs S .atomic (.rep (.chr isBlank)) i (some ([], i)) :=
  .rep_stop (.chr_not h)

theorem runs_comment {c rest : List Char} (h : ¬ "*/".toList <:+: c) : Runs S .atomic (S).comment ("/*".toList ++ (c ++ ("*/".toList ++ rest))) (some ([], rest)) := by
  have h1 : Runs S .atomic (Peg.word "/*") ("/*".toList ++ (c ++ ("*/".toList ++ rest))) (some ([], c ++ ("*/".toList ++ rest))) := .lit
  have h2 := runs_until (g := S) (a := .atomic) (by decide) (stop := "*/".toList) (rest := rest) (no_overlap (s := ['*']) (x := '/') (by decide) h)
  have h3 : Runs S .atomic (Peg.word "*/") ("*/".toList ++ rest) (some ([], rest)) := .lit
  exact h1.seq (.gap_off (by decide)) (h2.seq (.gap_off (by decide)) h3)

theorem runs_comment_none {i : List Char} (h : ¬ "/*".toList <+: i) : Runs S .atomic (S).comment i none := Runs.seq_left (.lit_not h)

theorem runs_skip {rest : List Char} (hs : Solid rest) {b : List Char} (hb : Blanks b) : Runs S .atomic (S).skip (b ++ rest) (some ([], rest)) := by
  have both : ∃ i1, Runs S .atomic (.rep (.chr isBlank)) (b ++ rest) (some ([], i1)) ∧
      Runs S .atomic (.rep (.cat (S).comment (.rep (.chr isBlank)))) i1 (some ([], rest)) := by
    induction hb with
    | nil => exact ⟨rest, runs_white hs.1, .rep_stop (runs_comment_none hs.2).cat_left⟩
    | @space c t hc _ ih =>
      obtain ⟨i1, h1, h2⟩ := ih
      exact ⟨i1, (Runs.chr hc).rep_step h1, h2⟩
    | @comment c t hc _ ih =>
      obtain ⟨i1, h1, h2⟩ := ih
      refine ⟨"/*".toList ++ (c ++ ("*/".toList ++ (t ++ rest))), ?_, ?_⟩
      · have : Runs S .atomic (.rep (.chr isBlank)) ("/*".toList ++ (c ++ ("*/".toList ++ (t ++ rest)))) (some ([], "/*".toList ++ (c ++ ("*/".toList ++ (t ++ rest))))) :=
          runs_white (fun d u e => by injection e with e1 _; subst e1; decide)
        simpa only [List.append_assoc] using this
      · exact ((runs_comment hc).cat h1).rep_step h2
  obtain ⟨i1, h1, h2⟩ := both
  exact h1.cat h2

theorem runs_gap {rest : List Char} (hs : Solid rest) {b : List Char} (hb : Blanks b) : Runs S .nonAtomic .gap (b ++ rest) (some ([], rest)) := (runs_skip hs hb).gap
theorem runs_gap0 {rest : List Char} (hs : Solid rest) : Runs S .nonAtomic .gap rest (some ([], rest)) := runs_gap hs .nil

/-- A comment or white space starts with `/` or white space. -/
theorem blanks_ends {p : Char → Bool} (hb : ∀ c, isBlank c = true → p c = false) (hlt : p '/' = false) {b r : List Char} (h : Blanks b) (hr : Ends p r) : Ends p (b ++ r) := by
  cases h with
  | nil => exact hr
  | space h1 _ => intro c u e; injection e with e _; subst e; exact hb _ h1
  | comment h1 _ =>
    intro c u e
    have : c = '/' := by
      have e' := congrArg List.head? e
      simp at e'
      exact e'.symm
    subst this; exact hlt

theorem blanks_head {b : List Char} (h : Blanks b) {c : Char} {u : List Char} (e : b = c :: u) : isBlank c = true ∧ Blanks u ∨ c = '/' := by
  cases h with
  | nil => cases e
  | space h1 h2 => injection e with e1 e2; subst e1 e2; exact .inl ⟨h1, h2⟩
  | comment h1 _ =>
    have e' := congrArg List.head? e
    simp at e'
    exact .inr e'.symm

/-- A test is false of white space if it is false of the four characters. -/
theorem not_blank {p : Char → Bool} (h : [' ', '\t', '\r', '\n'].all (fun c => !p c) = true) : ∀ c, isBlank c = true → p c = false := by
  intro c hc
  simp only [isBlank, Bool.or_eq_true, beq_iff_eq] at hc
  simp only [List.all_cons, List.all_nil, Bool.and_true, Bool.and_eq_true, Bool.not_eq_true'] at h
  obtain ⟨h1, h2, h3, h4⟩ := h
  rcases hc with ((rfl | rfl) | rfl) | rfl <;> assumption

/-- So a character of which it is true is no white space. -/
theorem not_blank' {p : Char → Bool} (h : [' ', '\t', '\r', '\n'].all (fun c => !p c) = true) {c : Char} (hc : p c = true) : isBlank c = false := by
  cases hb : isBlank c with
  | false => rfl
  | true => rw [not_blank h c hb] at hc; cases hc

/-! ## Classes of characters -/

/-- The expression matches one character of which `p` is true. -/
structure Class (a : Atomicity) (x : Peg CssRule) (p : Char → Bool) : Prop where
  some : ∀ c i, p c = true → Runs S a x (c :: i) (some ([], i))
  none : ∀ i, Ends p i → Runs S a x i none

theorem Class.chr {a : Atomicity} (p : Char → Bool) : Class a (.chr p) p := ⟨fun _ _ h => .chr h, fun _ h => .chr_not h⟩

theorem Class.word {a : Atomicity} {s : String} {d : Char} (hs : s.toList = [d]) : Class a (Peg.word s) (· == d) := by
  unfold Peg.word
  rw [hs]
  exact ⟨fun c i h => by rw [beq_iff_eq.1 h]; exact .lit (s := [d]), fun i h => .lit_ne fun c u e => by simpa using h c u e⟩

theorem Class.alt {a : Atomicity} {x y : Peg CssRule} {p q : Char → Bool} (hx : Class a x p) (hy : Class a y q) : Class a (.alt x y) (fun c => p c || q c) := by
  refine ⟨fun c i h => ?_, fun i h => ?_⟩
  · cases hp : p c with
    | true => exact (hx.some c i hp).alt_left
    | false => exact (hx.none _ (ends_cons hp)).alt_right (hy.some c i (by simpa [hp] using h))
  · have := fun c u e => h c u e
    simp only [Bool.or_eq_false_iff] at this
    exact (hx.none i fun c u e => (this c u e).1).alt_right (hy.none i fun c u e => (this c u e).2)

theorem Class.congr {a : Atomicity} {x : Peg CssRule} {p q : Char → Bool} (h : Class a x p) (e : p = q) : Class a x q := e ▸ h

theorem letter_class (a : Atomicity) : Class a (Peg.alts [.chr isAlpha, Peg.word "-", Peg.word "_"]) isLetter :=
  ((Class.chr isAlpha).alt ((Class.word (d := '-') rfl).alt (Class.word (d := '_') rfl))).congr (by funext c; simp [isLetter, Bool.or_assoc])

theorem key_class (a : Atomicity) : Class a (Peg.alts [.chr isAlpha, .chr isDigit, Peg.word "-", Peg.word "_"]) isKeyChar :=
  ((Class.chr isAlpha).alt ((Class.chr isDigit).alt ((Class.word (d := '-') rfl).alt (Class.word (d := '_') rfl)))).congr (by funext c; simp [isKeyChar, Bool.or_assoc])

/-- A character of a number. -/
def isNum (c : Char) : Bool := isDigit c || c == '-' || c == '.'

theorem num_class (a : Atomicity) : Class a (Peg.alts [.chr isDigit, Peg.word "-", Peg.word "."]) isNum :=
  ((Class.chr isDigit).alt ((Class.word (d := '-') rfl).alt (Class.word (d := '.') rfl))).congr (by funext c; simp [isNum, Bool.or_assoc])

variable {a : Atomicity} {x : Peg CssRule} {p : Char → Bool}

theorem Class.plus (h : Class a x p) (ha : a ≠ .nonAtomic) {t r : List Char} (ht : IsWord p t) (hr : Ends p r) : Runs S a (.plus x) (t ++ r) (.some ([], r)) :=
  .plus_word ha h.some h.none hr ht.1 ht.2

theorem Class.plus_none (h : Class a x p) {r : List Char} (hr : Ends p r) : Runs S a (.plus x) r .none := Runs.seq_left (h.none _ hr)

theorem Class.star (h : Class a x p) (ha : a ≠ .nonAtomic) {t r : List Char} (ht : ∀ c ∈ t, p c = true) (hr : Ends p r) : Runs S a (.star x) (t ++ r) (.some ([], r)) :=
  .star_word ha h.some h.none hr ht

/-- Where blanks are skipped, the word ends before the blanks unless it has a single character. -/
theorem Class.plus_skip (h : Class .nonAtomic x p) (hp : ∀ c, p c = true → isBlank c = false ∧ c ≠ '/') {t b r : List Char} (ht : IsWord p t) (hb : Blanks b) (hs : Solid r)
    (hr : Ends p r) (hl : 2 ≤ t.length ∨ b = []) : Runs S .nonAtomic (.plus x) (t ++ (b ++ r)) (.some ([], b ++ r)) := by
  have hsol : ∀ {c u}, p c = true → Solid (c :: u) := fun hc => solid_cons (hp _ hc).1 (hp _ hc).2
  have reps : ∀ {t : List Char}, (∀ c ∈ t, p c = true) → Runs S .nonAtomic (.rep (.cat .gap x)) (t ++ (b ++ r)) (.some ([], b ++ r)) := by
    intro t
    induction t with
    | nil => intro _; exact .rep_stop ((runs_gap hs hb).cat_right (h.none _ hr))
    | cons c t ih =>
      intro ht
      have hc := ht c List.mem_cons_self
      exact ((runs_gap0 (hsol hc)).cat (h.some c (t ++ (b ++ r)) hc)).rep_step (ih fun d hd => ht d (List.mem_cons_of_mem _ hd))
  obtain ⟨hne, hall⟩ := ht
  match t, hne, hall, hl with
  | [c], _, hall, .inr e =>
    subst e
    exact (h.some c _ (hall c (by simp))).seq (runs_gap0 hs) (.star_nil (h.none _ hr))
  | [c], _, _, .inl e => simp at e
  | c :: d :: t, _, hall, _ =>
    have hd := hall d (by simp)
    exact (h.some c _ (hall c (by simp))).seq (runs_gap0 (hsol hd)) (.star_cons (h.some d _ hd) (reps fun e he => hall e (by simp [he])))

theorem runs_word1 {s : String} {d : Char} (hs : s.toList = [d]) {i : List Char} : Runs S a (Peg.word s) (d :: i) (.some ([], i)) := (Class.word hs).some d i (by simp)
theorem runs_word1_none {s : String} {d : Char} (hs : s.toList = [d]) {i : List Char} (h : ∀ c u, i = c :: u → c ≠ d) : Runs S a (Peg.word s) i .none :=
  (Class.word hs).none i fun c u e => by simpa using h c u e

/-! ## Words -/

theorem runs_ident (ha : a ≠ .nonAtomic) (hs : a ≠ .atomic) {t r : List Char} (h : IsWord isKeyChar t) (hr : Ends isKeyChar r) :
    Runs S a (.call .ident) (t ++ r) (.some ([.mk .ident t []], r)) :=
  .call_seen (by cases a <;> first | rfl | exact absurd rfl hs) ((key_class a).plus ha h hr)

theorem runs_ident_none {i : List Char} (h : Ends isKeyChar i) : Runs S a (.call .ident) i .none := Runs.call_none ((key_class _).plus_none h)

theorem letter_plain : ∀ c, isLetter c = true → isBlank c = false ∧ c ≠ '/' := fun c h =>
  ⟨not_blank' (p := isLetter) (by decide) h, by rintro rfl; revert h; decide⟩

theorem key_plain : ∀ c, isKeyChar c = true → isBlank c = false ∧ c ≠ '/' := fun c h =>
  ⟨not_blank' (p := isKeyChar) (by decide) h, by rintro rfl; revert h; decide⟩

theorem num_plain : ∀ c, isNum c = true → isBlank c = false ∧ c ≠ '/' := fun c h =>
  ⟨not_blank' (p := isNum) (by decide) h, by rintro rfl; revert h; decide⟩

theorem word_solid {q : Char → Bool} (hq : ∀ c, q c = true → isBlank c = false ∧ c ≠ '/') {t r : List Char} (h : IsWord q t) : Solid (t ++ r) := by
  obtain ⟨h1, h2⟩ := h
  cases t with
  | nil => exact absurd rfl h1
  | cons c t => obtain ⟨h3, h4⟩ := hq c (h2 c List.mem_cons_self); exact solid_cons h3 h4

theorem word_cons {q : Char → Bool} {t : List Char} (h : IsWord q t) : ∃ c u, t = c :: u ∧ q c = true := by
  obtain ⟨h1, h2⟩ := h
  cases t with
  | nil => exact absurd rfl h1
  | cons c t => exact ⟨c, t, rfl, h2 c List.mem_cons_self⟩

/-- A keyword, without skipping. -/
theorem runs_keyword {k : String} (h : Keyword k) {r : List Char} (hr : Ends isLetter r) : Runs S .compound (.call .keyword) (k.toList ++ r) (.some ([.mk .keyword k.toList []], r)) := by
  obtain ⟨hw, h1, h2⟩ := h
  refine .call_seen rfl ?_
  change Runs S .compound (Peg.seqs [.opt (Peg.word "-"), .opt (Peg.word "-"), .plus (Peg.alts [.chr isAlpha, Peg.word "-", Peg.word "_"])]) _ _
  have g0 : ∀ {i}, Runs S .compound .gap i (.some ([], i)) := Runs.gap_off (by decide)
  have one : ∀ {i : List Char}, Runs S .compound (.opt (Peg.word "-")) ('-' :: i) (.some ([], i)) := .opt_some (runs_word1 rfl)
  have zero : ∀ {c : Char} {i : List Char}, c ≠ '-' → Runs S .compound (.opt (Peg.word "-")) (c :: i) (.some ([], c :: i)) :=
    fun h => .opt_none (runs_word1_none (d := '-') rfl (by simpa using h))
  obtain ⟨hne, hall⟩ := hw
  have e1 : k.toList ≠ ['-'] := fun e => h1 (String.toList_inj.1 e)
  have e2 : k.toList ≠ ['-', '-'] := fun e => h2 (String.toList_inj.1 e)
  generalize k.toList = t at *
  match t, hne with
  | c :: t, _ =>
    by_cases hc : c = '-'
    · subst hc
      match t, e1 with
      | d :: t, _ =>
        by_cases hd : d = '-'
        · subst hd
          match t, e2 with
          | e :: t, _ => exact one.seq g0 (one.seq g0 ((letter_class _).plus (by decide) ⟨by simp, fun x hx => hall x (by simp at hx; simp [hx])⟩ hr))
        · exact one.seq g0 ((zero hd).seq g0 ((letter_class _).plus (t := d :: t) (by decide) ⟨by simp, fun x hx => hall x (by simp at hx; simp [hx])⟩ hr))
    · exact (zero hc).seq g0 ((zero hc).seq g0 ((letter_class _).plus (t := c :: t) (by decide) ⟨by simp, hall⟩ hr))

theorem runs_keyword_none {i : List Char} (h : Ends isLetter i) : Runs S .compound (.call .keyword) i .none := by
  have hd : ∀ c u, i = c :: u → c ≠ '-' := by rintro c u e rfl; have := h '-' u e; revert this; decide
  have zero : Runs S .compound (.opt (Peg.word "-")) i (.some ([], i)) := .opt_none (runs_word1_none (d := '-') rfl hd)
  exact Runs.call_none (zero.seq_right (.gap_off (by decide)) (zero.seq_right (.gap_off (by decide)) ((letter_class _).plus_none h)))

/-- A dash followed by something else than a letter is no keyword. -/
theorem runs_keyword_dash {i : List Char} (h : Ends isLetter i) : Runs S .compound (.call .keyword) ('-' :: i) .none := by
  have hd : ∀ c u, i = c :: u → c ≠ '-' := by rintro c u e rfl; have := h '-' u e; revert this; decide
  have zero : Runs S .compound (.opt (Peg.word "-")) i (.some ([], i)) := .opt_none (runs_word1_none (d := '-') rfl hd)
  have one : Runs S .compound (.opt (Peg.word "-")) ('-' :: i) (.some ([], i)) := .opt_some (runs_word1 rfl)
  exact Runs.call_none (one.seq_right (.gap_off (by decide)) (zero.seq_right (.gap_off (by decide)) ((letter_class _).plus_none h)))

end Verif.Sheet
