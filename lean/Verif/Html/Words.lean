import Verif.Peg.Words
import Verif.Peg.Derive
import Verif.Html.Sound
import Verif.Spec.Written
/-!
# Blanks, words, values and binders in templates
-/
namespace Verif
open Written

local notation "H" => htmlGrammar

/-! ## Blanks -/

theorem runs_white {i : List Char} (h : ∀ c u, i = c :: u → isBlank c = false) : Runs H .atomic (.rep (.chr isBlank)) i (some ([], i)) :=
  .rep_stop (.chr_not h)

theorem not_prefix_of_infix {s c : List Char} (h : ¬ s <:+: c) {d : Char} {t : List Char} (hc : c = d :: t) : ¬ s <:+: t := fun ⟨u, v, e⟩ => h ⟨d :: u, v, by rw [hc, ← e]; rfl⟩

/-- Everything up to the first place where `stop` stands. -/
theorem runs_until {R : Type} {g : Grammar R} {a : Atomicity} (ha : a ≠ .nonAtomic) {stop : List Char} {rest : List Char} :
    ∀ {c : List Char}, (∀ u v, c = u ++ v → v ≠ [] → ¬ stop <+: v ++ (stop ++ rest)) →
      Runs g a (.star (.seq (.neg (.lit stop)) Peg.any)) (c ++ (stop ++ rest)) (some ([], stop ++ rest)) := by
  have one : ∀ {d : Char} {i : List Char}, ¬ stop <+: d :: i → Runs g a (.seq (.neg (.lit stop)) Peg.any) (d :: i) (some ([], i)) := by
    intro d i h
    exact Runs.seq (.neg (.lit_not h)) (.gap_off ha) (.chr rfl)
  have fin : Runs g a (.seq (.neg (.lit stop)) Peg.any) (stop ++ rest) none := Runs.seq_left (.neg_not .lit)
  have reps : ∀ {c : List Char}, (∀ u v, c = u ++ v → v ≠ [] → ¬ stop <+: v ++ (stop ++ rest)) →
      Runs g a (.rep (.cat .gap (.seq (.neg (.lit stop)) Peg.any))) (c ++ (stop ++ rest)) (some ([], stop ++ rest)) := by
    intro c
    induction c with
    | nil => intro _; exact .rep_stop ((Runs.gap_off ha).cat_right fin)
    | cons d c ih =>
      intro h
      have h1 := one (h [] (d :: c) rfl (by simp))
      exact ((Runs.gap_off ha).cat h1).rep_step (ih fun u v e hv => h (d :: u) v (by rw [e]; rfl) hv)
  intro c h
  cases c with
  | nil => exact .star_nil fin
  | cons d c => exact .star_cons (one (h [] (d :: c) rfl (by simp))) (reps fun u v e hv => h (d :: u) v (by rw [e]; rfl) hv)

/-- `stop` cannot begin inside a text that does not contain it if its last character is found nowhere else in it. -/
theorem no_overlap {s : List Char} {x : Char} (hx : x ∉ s) {c rest : List Char} (h : ¬ (s ++ [x]) <:+: c) :
    ∀ u v, c = u ++ v → v ≠ [] → ¬ (s ++ [x]) <+: v ++ ((s ++ [x]) ++ rest) := by
  rintro u v rfl hv ⟨w, e⟩
  rcases List.append_eq_append_iff.1 e with ⟨as, e1, e2⟩ | ⟨bs, e1, e2⟩
  · exact h ⟨u, as, by rw [e1, List.append_assoc]⟩
  · have hl : s.length + 1 = v.length + bs.length := by simpa using congrArg List.length e1
    have hv' := List.length_pos_of_ne_nil hv
    rcases List.eq_nil_or_concat bs with rfl | ⟨bs', y, rfl⟩
    · rw [List.append_nil] at e1
      exact h ⟨u, [], by rw [e1]; simp⟩
    · have e3 : x = y := by
        have := congrArg List.getLast? e1
        simpa using this
      subst e3
      have hlen : bs'.length < s.length := by simp at hl; omega
      have e4 : (s ++ [x] ++ rest)[bs'.length]? = some x := by rw [e2]; simp
      rw [List.getElem?_append_left (by simp; omega), List.getElem?_append_left hlen] at e4
      exact hx (List.mem_of_getElem? e4)

theorem runs_comment {c rest : List Char} (h : ¬ "-->".toList <:+: c) : Runs H .atomic (H).comment ("<!--".toList ++ (c ++ ("-->".toList ++ rest))) (some ([], rest)) := by
  have h1 : Runs H .atomic (Peg.word "<!--") ("<!--".toList ++ (c ++ ("-->".toList ++ rest))) (some ([], c ++ ("-->".toList ++ rest))) := .lit
  have h2 := runs_until (g := H) (a := .atomic) (by decide) (stop := "-->".toList) (rest := rest) (no_overlap (s := ['-', '-']) (x := '>') (by decide) h)
  have h3 : Runs H .atomic (Peg.word "-->") ("-->".toList ++ rest) (some ([], rest)) := .lit
  exact h1.seq (.gap_off (by decide)) (h2.seq (.gap_off (by decide)) h3)

theorem runs_comment_none {i : List Char} (h : ¬ "<!--".toList <+: i) : Runs H .atomic (H).comment i none := Runs.seq_left (.lit_not h)

theorem Blanks.solid_or {t : List Char} (h : Blanks t) : t = [] ∨ (∃ c u, t = c :: u ∧ isBlank c = true ∧ Blanks u) ∨
    ∃ c u, t = "<!--".toList ++ (c ++ ("-->".toList ++ u)) ∧ ¬ "-->".toList <:+: c ∧ Blanks u := by
  cases h with
  | nil => exact .inl rfl
  | space h1 h2 => exact .inr (.inl ⟨_, _, rfl, h1, h2⟩)
  | comment h1 h2 => exact .inr (.inr ⟨_, _, by simp only [List.append_assoc], h1, h2⟩)

theorem runs_skip {rest : List Char} (hs : Solid rest) {b : List Char} (hb : Blanks b) : Runs H .atomic (H).skip (b ++ rest) (some ([], rest)) := by
  have both : ∃ i1, Runs H .atomic (.rep (.chr isBlank)) (b ++ rest) (some ([], i1)) ∧
      Runs H .atomic (.rep (.cat (H).comment (.rep (.chr isBlank)))) i1 (some ([], rest)) := by
    induction hb with
    | nil => exact ⟨rest, runs_white hs.1, .rep_stop (runs_comment_none hs.2).cat_left⟩
    | @space c t hc _ ih =>
      obtain ⟨i1, h1, h2⟩ := ih
      exact ⟨i1, (Runs.chr hc).rep_step h1, h2⟩
    | @comment c t hc _ ih =>
      obtain ⟨i1, h1, h2⟩ := ih
      refine ⟨"<!--".toList ++ (c ++ ("-->".toList ++ (t ++ rest))), ?_, ?_⟩
      · have : Runs H .atomic (.rep (.chr isBlank)) ("<!--".toList ++ (c ++ ("-->".toList ++ (t ++ rest)))) (some ([], "<!--".toList ++ (c ++ ("-->".toList ++ (t ++ rest))))) :=
          runs_white (fun d u e => by injection e with e1 _; subst e1; decide)
        simpa only [List.append_assoc] using this
      · exact ((runs_comment hc).cat h1).rep_step h2
  obtain ⟨i1, h1, h2⟩ := both
  exact h1.cat h2

theorem runs_gap {rest : List Char} (hs : Solid rest) {b : List Char} (hb : Blanks b) : Runs H .nonAtomic .gap (b ++ rest) (some ([], rest)) := (runs_skip hs hb).gap
theorem runs_gap0 {rest : List Char} (hs : Solid rest) : Runs H .nonAtomic .gap rest (some ([], rest)) := runs_gap hs .nil

theorem gap_pairs {i i' : List Char} {ps} (h : Runs H .nonAtomic .gap i (some (ps, i'))) : ps = [] := by
  obtain ⟨_, _, h⟩ := h.derives
  exact derives_gap htmlSkip_plain h

theorem solid_cons {c : Char} {t : List Char} (h1 : isBlank c = false) (h2 : c ≠ '<') : Solid (c :: t) :=
  ⟨fun d u e => by injection e with e _; exact e ▸ h1, by rintro ⟨u, e⟩; injection e with e _; exact h2 e.symm⟩
theorem solid_nil : Solid [] := ⟨fun c u e => (by cases e), (by rintro ⟨u, e⟩; cases e)⟩

theorem solid_append {s t : List Char} (hs : Solid s) (hne : s ≠ []) (hlt : ∀ c ∈ s, c ≠ '<') : Solid (s ++ t) := by
  cases s with
  | nil => exact absurd rfl hne
  | cons c s => exact solid_cons (hs.1 c s rfl) (hlt c List.mem_cons_self)

/-! ## Characters -/

theorem kChar_some {c : Char} {i : List Char} (h : isKeyChar c = true) : Runs H .atomic (.call .kChar) (c :: i) (some ([], i)) := by
  refine Runs.call_hidden rfl ?_
  change Runs H .atomic (Peg.alts [.chr isAlpha, .chr isDigit, Peg.word "-", Peg.word "_"]) _ _
  by_cases h1 : isAlpha c = true
  · exact Runs.alts_some (pre := []) (.chr h1) (by simp)
  by_cases h2 : isDigit c = true
  · exact Runs.alts_some (pre := [.chr isAlpha]) (.chr h2) (by simpa using Runs.chr_not (by simpa using h1))
  have d1 : Runs H .atomic (.chr isAlpha) (c :: i) none := Runs.chr_not (by simpa using h1)
  have d2 : Runs H .atomic (.chr isDigit) (c :: i) none := Runs.chr_not (by simpa using h2)
  by_cases h3 : c = '-'
  · subst h3
    exact Runs.alts_some (pre := [.chr isAlpha, .chr isDigit]) (.lit (s := ['-'])) (by simp [d1, d2])
  have h4 : c = '_' := by simpa [isKeyChar, h1, h2, h3] using h
  have d3 : Runs H .atomic (Peg.word "-") (c :: i) none := Runs.lit_ne (d := '-') (s := []) (by simpa using h3)
  subst h4
  exact Runs.alts_some (pre := [.chr isAlpha, .chr isDigit, Peg.word "-"]) (.lit (s := ['_'])) (by simp [d1, d2, d3])

theorem kChar_none {i : List Char} (h : ∀ c u, i = c :: u → isKeyChar c = false) : Runs H .atomic (.call .kChar) i none := by
  refine Runs.call_none ?_
  refine Runs.alts_none (l := [.chr isAlpha, .chr isDigit, Peg.word "-", Peg.word "_"]) ?_
  simp only [List.mem_cons, List.not_mem_nil, or_false, forall_eq_or_imp, forall_eq]
  refine ⟨.chr_not fun c u e => ?_, .chr_not fun c u e => ?_, Runs.lit_ne (d := '-') (s := []) fun c u e => ?_, Runs.lit_ne (d := '_') (s := []) fun c u e => ?_⟩ <;>
    have := h c u e <;> simp [isKeyChar] at this <;> simp_all

theorem tChar_some {c : Char} {i : List Char} (h : isTagChar c = true) : Runs H .atomic (.call .tChar) (c :: i) (some ([], i)) := by
  refine Runs.call_hidden rfl ?_
  change Runs H .atomic (Peg.alts [.chr isAlpha, .chr isDigit, Peg.word "-"]) _ _
  by_cases h1 : isAlpha c = true
  · exact Runs.alts_some (pre := []) (.chr h1) (by simp)
  by_cases h2 : isDigit c = true
  · exact Runs.alts_some (pre := [.chr isAlpha]) (.chr h2) (by simpa using Runs.chr_not (by simpa using h1))
  have d1 : Runs H .atomic (.chr isAlpha) (c :: i) none := Runs.chr_not (by simpa using h1)
  have d2 : Runs H .atomic (.chr isDigit) (c :: i) none := Runs.chr_not (by simpa using h2)
  have h3 : c = '-' := by simpa [isTagChar, h1, h2] using h
  subst h3
  exact Runs.alts_some (pre := [.chr isAlpha, .chr isDigit]) (.lit (s := ['-'])) (by simp [d1, d2])

theorem tChar_none {i : List Char} (h : ∀ c u, i = c :: u → isTagChar c = false) : Runs H .atomic (.call .tChar) i none := by
  refine Runs.call_none ?_
  refine Runs.alts_none (l := [.chr isAlpha, .chr isDigit, Peg.word "-"]) ?_
  simp only [List.mem_cons, List.not_mem_nil, or_false, forall_eq_or_imp, forall_eq]
  refine ⟨.chr_not fun c u e => ?_, .chr_not fun c u e => ?_, Runs.lit_ne (d := '-') (s := []) fun c u e => ?_⟩ <;>
    have := h c u e <;> simp [isTagChar] at this <;> simp_all

/-- Any character but some. -/
theorem except_some {a : Atomicity} (ha : a ≠ .nonAtomic) {l : List (Peg HtmlRule)} {c : Char} {i : List Char} (h : ∀ x ∈ l, Runs H a x (c :: i) none) :
    Runs H a (.seq (.neg (Peg.alts l)) Peg.any) (c :: i) (some ([], i)) :=
  Runs.seq (.neg (.alts_none h)) (.gap_off ha) (.chr rfl)

theorem except_none {a : Atomicity} {pre post : List (Peg HtmlRule)} {x : Peg HtmlRule} {i r : List Char}
    (hp : ∀ y ∈ pre, Runs H a y i none) (hx : Runs H a x i (some ([], r))) :
    Runs H a (.seq (.neg (Peg.alts (pre ++ x :: post))) Peg.any) i none := Runs.seq_left (.neg_not (.alts_some hx hp))

theorem except_nil {a : Atomicity} (ha : a ≠ .nonAtomic) {l : List (Peg HtmlRule)} (h : ∀ x ∈ l, Runs H a x [] none) :
    Runs H a (.seq (.neg (Peg.alts l)) Peg.any) [] none :=
  Runs.seq_right (.neg (.alts_none h)) (.gap_off ha) (.chr_not (by simp))

theorem char_word {a : Atomicity} {s : String} {d c : Char} {i : List Char} (hs : s.toList = [d]) :
    (c = d → Runs H a (Peg.word s) (c :: i) (some ([], i))) ∧ (c ≠ d → Runs H a (Peg.word s) (c :: i) none) ∧ Runs H a (Peg.word s) [] none := by
  unfold Peg.word
  rw [hs]
  exact ⟨fun h => by subst h; exact .lit (s := [c]), fun h => .lit_ne (by simpa using h), .lit_ne (by simp)⟩

/-- A class of characters given by what it leaves out: each word is one character. -/
theorem except_words {a : Atomicity} (ha : a ≠ .nonAtomic) (p : Char → Bool) : ∀ (l : List (Peg HtmlRule)),
    (∀ x ∈ l, (∃ q : Char → Bool, (∀ c i, (q c = true → Runs H a x (c :: i) (some ([], i))) ∧ (q c = false → Runs H a x (c :: i) none)) ∧ Runs H a x [] none ∧
      (∀ c, q c = true → p c = false))) →
    (∀ c, p c = false → ∃ x ∈ l, ∀ i, ∃ r, Runs H a x (c :: i) (some ([], r))) →
    (∀ c i, p c = true → Runs H a (.seq (.neg (Peg.alts l)) Peg.any) (c :: i) (some ([], i))) ∧
    (∀ i, (∀ c u, i = c :: u → p c = false) → Runs H a (.seq (.neg (Peg.alts l)) Peg.any) i none) := by
  intro l h1 h2
  constructor
  · intro c i hp
    refine except_some ha fun x hx => ?_
    obtain ⟨q, hq, -, hqp⟩ := h1 x hx
    refine (hq c i).2 ?_
    cases hqc : q c with
    | false => rfl
    | true => rw [hqp c hqc] at hp; cases hp
  · intro i hi
    cases i with
    | nil =>
      refine except_nil ha fun x hx => ?_
      obtain ⟨q, -, hn, -⟩ := h1 x hx
      exact hn
    | cons c i =>
      obtain ⟨x, hx, hr⟩ := h2 c (hi c i rfl)
      have : ∃ pre y post r, l = pre ++ y :: post ∧ (∀ z ∈ pre, Runs H a z (c :: i) none) ∧ Runs H a y (c :: i) (some ([], r)) := by
        obtain ⟨r, hr⟩ := hr i
        clear h2
        induction l with
        | nil => cases hx
        | cons z l ih =>
          obtain ⟨q, hq, -, -⟩ := h1 z List.mem_cons_self
          cases hqc : q c with
          | true => exact ⟨[], z, l, i, rfl, by simp, (hq c i).1 hqc⟩
          | false =>
            have hz := (hq c i).2 hqc
            rcases List.mem_cons.1 hx with rfl | hx
            · have := hz.unique hr; cases this
            · obtain ⟨pre, y, post, r', rfl, h3, h4⟩ := ih (fun x hx => h1 x (List.mem_cons_of_mem _ hx)) hx
              exact ⟨z :: pre, y, post, r', rfl, by simpa using ⟨hz, h3⟩, h4⟩
      obtain ⟨pre, y, post, r, rfl, h3, h4⟩ := this
      exact except_none h3 h4

theorem word_class {a : Atomicity} {s : String} {d : Char} {p : Char → Bool} (hs : s.toList = [d]) (hp : p d = false) :
    ∃ q : Char → Bool, (∀ c i, (q c = true → Runs H a (Peg.word s) (c :: i) (some ([], i))) ∧ (q c = false → Runs H a (Peg.word s) (c :: i) none)) ∧ Runs H a (Peg.word s) [] none ∧
      (∀ c, q c = true → p c = false) := by
  refine ⟨fun c => decide (c = d), fun c i => ⟨fun h => (char_word hs).1 (by simpa using h), fun h => (char_word hs).2.1 (by simpa using h)⟩, (char_word (c := d) (i := []) hs).2.2, ?_⟩
  intro c hc
  have : c = d := by simpa using hc
  rw [this]; exact hp

theorem sChar_class : (∀ c i, isTextChar c = true → Runs H .atomic (.call .sChar) (c :: i) (some ([], i))) ∧
    (∀ i, (∀ c u, i = c :: u → isTextChar c = false) → Runs H .atomic (.call .sChar) i none) := by
  have := except_words (a := .atomic) (by decide) isTextChar [Peg.word "<", Peg.word ">", Peg.word "{"] (by
    simp only [List.mem_cons, List.not_mem_nil, or_false, forall_eq_or_imp, forall_eq]
    exact ⟨word_class (d := '<') rfl (by decide), word_class (d := '>') rfl (by decide), word_class (d := '{') rfl (by decide)⟩) (by
    intro c hc
    have : c = '<' ∨ c = '>' ∨ c = '{' := by simp [isTextChar] at hc; grind
    rcases this with rfl | rfl | rfl
    · exact ⟨_, List.mem_cons_self, fun i => ⟨i, (char_word rfl).1 rfl⟩⟩
    · exact ⟨Peg.word ">", by simp, fun i => ⟨i, (char_word rfl).1 rfl⟩⟩
    · exact ⟨Peg.word "{", by simp, fun i => ⟨i, (char_word rfl).1 rfl⟩⟩)
  exact ⟨fun c i h => Runs.call_hidden rfl (this.1 c i h), fun i h => Runs.call_none (this.2 i h)⟩

theorem quotedChar_class : (∀ c i, isQuotedChar c = true → Runs H .atomic (.call .quotedChar) (c :: i) (some ([], i))) ∧
    (∀ i, (∀ c u, i = c :: u → isQuotedChar c = false) → Runs H .atomic (.call .quotedChar) i none) := by
  have := except_words (a := .atomic) (by decide) isQuotedChar [Peg.word "<", Peg.word ">", Peg.word "{", Peg.word "\""] (by
    simp only [List.mem_cons, List.not_mem_nil, or_false, forall_eq_or_imp, forall_eq]
    exact ⟨word_class (d := '<') rfl (by decide), word_class (d := '>') rfl (by decide), word_class (d := '{') rfl (by decide), word_class (d := '"') rfl (by decide)⟩) (by
    intro c hc
    have : c = '<' ∨ c = '>' ∨ c = '{' ∨ c = '"' := by simp [isQuotedChar, isTextChar] at hc; grind
    rcases this with rfl | rfl | rfl | rfl
    · exact ⟨_, List.mem_cons_self, fun i => ⟨i, (char_word rfl).1 rfl⟩⟩
    · exact ⟨Peg.word ">", by simp, fun i => ⟨i, (char_word rfl).1 rfl⟩⟩
    · exact ⟨Peg.word "{", by simp, fun i => ⟨i, (char_word rfl).1 rfl⟩⟩
    · exact ⟨Peg.word "\"", by simp, fun i => ⟨i, (char_word rfl).1 rfl⟩⟩)
  exact ⟨fun c i h => Runs.call_hidden rfl (this.1 c i h), fun i h => Runs.call_none (this.2 i h)⟩

theorem nChar_class : (∀ c i, isNameChar c = true → Runs H .atomic (.call .nChar) (c :: i) (some ([], i))) ∧
    (∀ i, (∀ c u, i = c :: u → isNameChar c = false) → Runs H .atomic (.call .nChar) i none) := by
  have := except_words (a := .atomic) (by decide) isNameChar [Peg.word "\"", Peg.word "\\", Peg.word "'", Peg.word ">", Peg.word "/", Peg.word "=", Peg.word "\x00", .chr isBlank,
      Peg.word "@", Peg.word "?", Peg.word "!", Peg.word "*", Peg.word "+", Peg.word "^", Peg.word "#"] (by
    simp only [List.mem_cons, List.not_mem_nil, or_false, forall_eq_or_imp, forall_eq]
    refine ⟨word_class (d := '"') rfl (by decide), word_class (d := '\\') rfl (by decide), word_class (d := '\'') rfl (by decide), word_class (d := '>') rfl (by decide),
      word_class (d := '/') rfl (by decide), word_class (d := '=') rfl (by decide), word_class (d := '\x00') rfl (by decide), ?_, word_class (d := '@') rfl (by decide),
      word_class (d := '?') rfl (by decide), word_class (d := '!') rfl (by decide), word_class (d := '*') rfl (by decide), word_class (d := '+') rfl (by decide),
      word_class (d := '^') rfl (by decide), word_class (d := '#') rfl (by decide)⟩
    exact ⟨isBlank, fun c i => ⟨fun h => .chr h, fun h => .chr_not (by simpa using h)⟩, .chr_not (by simp), fun c h => by simp [isNameChar, h]⟩) (by
    intro c hc
    have : isBlank c = true ∨ c ∈ "\"\\'>/=\x00@?!*+^#".toList := by
      simp only [isNameChar, Bool.and_eq_false_iff, Bool.not_eq_false', List.contains_iff_mem] at hc
      exact hc
    rcases this with h | h
    · exact ⟨.chr isBlank, by simp, fun i => ⟨i, .chr h⟩⟩
    · change c ∈ ['"', '\\', '\'', '>', '/', '=', '\x00', '@', '?', '!', '*', '+', '^', '#'] at h
      simp only [List.mem_cons, List.not_mem_nil, or_false] at h
      rcases h with rfl | rfl | rfl | rfl | rfl | rfl | rfl | rfl | rfl | rfl | rfl | rfl | rfl | rfl
      · exact ⟨Peg.word "\"", by simp, fun i => ⟨i, (char_word rfl).1 rfl⟩⟩
      · exact ⟨Peg.word "\\", by simp, fun i => ⟨i, (char_word rfl).1 rfl⟩⟩
      · exact ⟨Peg.word "'", by simp, fun i => ⟨i, (char_word rfl).1 rfl⟩⟩
      · exact ⟨Peg.word ">", by simp, fun i => ⟨i, (char_word rfl).1 rfl⟩⟩
      · exact ⟨Peg.word "/", by simp, fun i => ⟨i, (char_word rfl).1 rfl⟩⟩
      · exact ⟨Peg.word "=", by simp, fun i => ⟨i, (char_word rfl).1 rfl⟩⟩
      · exact ⟨Peg.word "\x00", by simp, fun i => ⟨i, (char_word rfl).1 rfl⟩⟩
      · exact ⟨Peg.word "@", by simp, fun i => ⟨i, (char_word rfl).1 rfl⟩⟩
      · exact ⟨Peg.word "?", by simp, fun i => ⟨i, (char_word rfl).1 rfl⟩⟩
      · exact ⟨Peg.word "!", by simp, fun i => ⟨i, (char_word rfl).1 rfl⟩⟩
      · exact ⟨Peg.word "*", by simp, fun i => ⟨i, (char_word rfl).1 rfl⟩⟩
      · exact ⟨Peg.word "+", by simp, fun i => ⟨i, (char_word rfl).1 rfl⟩⟩
      · exact ⟨Peg.word "^", by simp, fun i => ⟨i, (char_word rfl).1 rfl⟩⟩
      · exact ⟨Peg.word "#", by simp, fun i => ⟨i, (char_word rfl).1 rfl⟩⟩)
  exact ⟨fun c i h => Runs.call_hidden rfl (this.1 c i h), fun i h => Runs.call_none (this.2 i h)⟩

/-! ## Words -/

/-- What follows a word does not continue it. -/
def Ends (p : Char → Bool) (rest : List Char) : Prop := ∀ c u, rest = c :: u → p c = false

theorem runs_key {t rest : List Char} (h : IsWord isKeyChar t) (hr : Ends isKeyChar rest) : Runs H .nonAtomic (.call .key) (t ++ rest) (some ([.mk .key t []], rest)) :=
  .call_seen rfl (.plus_word (by decide) (fun _ _ => kChar_some) (fun _ => kChar_none) hr h.1 h.2)

theorem runs_key_none {i : List Char} (h : Ends isKeyChar i) : Runs H .nonAtomic (.call .key) i none := Runs.call_none (Runs.seq_left (kChar_none h))

theorem runs_tag {t rest : List Char} (h : IsWord isTagChar t) (hr : Ends isTagChar rest) : Runs H .nonAtomic (.call .tag) (t ++ rest) (some ([.mk .tag t []], rest)) :=
  .call_seen rfl (.plus_word (by decide) (fun _ _ => tChar_some) (fun _ => tChar_none) hr h.1 h.2)

theorem runs_tag_none {i : List Char} (h : Ends isTagChar i) : Runs H .nonAtomic (.call .tag) i none := Runs.call_none (Runs.seq_left (tChar_none h))

theorem runs_string {t rest : List Char} (h : IsWord isTextChar t) (hr : Ends isTextChar rest) : Runs H .compound (.call .string) (t ++ rest) (some ([.mk .string t []], rest)) :=
  .call_seen rfl (.plus_word (by decide) sChar_class.1 sChar_class.2 hr h.1 h.2)

theorem runs_string_none {i : List Char} (h : Ends isTextChar i) : Runs H .compound (.call .string) i none := Runs.call_none (Runs.seq_left (sChar_class.2 i h))

theorem runs_quoted {t rest : List Char} (h : IsWord isQuotedChar t) (hr : Ends isQuotedChar rest) : Runs H .nonAtomic (.call .quotedString) (t ++ rest) (some ([.mk .quotedString t []], rest)) :=
  .call_seen rfl (.plus_word (by decide) quotedChar_class.1 quotedChar_class.2 hr h.1 h.2)

theorem runs_quoted_none {i : List Char} (h : Ends isQuotedChar i) : Runs H .nonAtomic (.call .quotedString) i none := Runs.call_none (Runs.seq_left (quotedChar_class.2 i h))

theorem runs_name {t rest : List Char} (h : IsWord isNameChar t) (hr : Ends isNameChar rest) : Runs H .nonAtomic (.call .name) (t ++ rest) (some ([.mk .name t []], rest)) :=
  .call_seen rfl (.plus_word (by decide) nChar_class.1 nChar_class.2 hr h.1 h.2)

theorem runs_name_none {i : List Char} (h : Ends isNameChar i) : Runs H .nonAtomic (.call .name) i none := Runs.call_none (Runs.seq_left (nChar_class.2 i h))

end Verif
