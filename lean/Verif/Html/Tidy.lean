import Verif.Html.Reader
import Verif.Spec.Text
/-!
# Line breaks and words in texts
-/
namespace Verif

theorem splitOnP_append {p : Char → Bool} {c : Char} (hc : p c = true) (b : List Char) : ∀ a : List Char, (a ++ c :: b).splitOnP p = a.splitOnP p ++ b.splitOnP p
  | [] => by simp [List.splitOnP_cons, hc]
  | d :: a => by
    rw [List.cons_append, List.splitOnP_cons, List.splitOnP_cons, splitOnP_append hc b a]
    split
    · rfl
    · cases h : a.splitOnP p with
      | nil => exact absurd h (List.splitOnP_ne_nil p a)
      | cons x l => rfl

theorem words_append {p : Char → Bool} {c : Char} (hc : p c = true) (a b : List Char) : words p (a ++ c :: b) = words p a ++ words p b := by
  rw [words, splitOnP_append hc, List.filter_append]; rfl

theorem words_nil {p : Char → Bool} : words p [] = [] := rfl

theorem words_cons {p : Char → Bool} {c : Char} (hc : p c = true) (b : List Char) : words p (c :: b) = words p b := by
  have := words_append hc [] b
  simpa [words_nil] using this

theorem words_dropWhile {p : Char → Bool} : ∀ s : List Char, words p (s.dropWhile p) = words p s
  | [] => rfl
  | c :: s => by
    rw [List.dropWhile_cons]
    split
    · rename_i h; rw [words_dropWhile s, words_cons h]
    · rfl

theorem splitOn_lines (s : List Char) : ∃ first lines, s.splitOn '\n' = first :: lines ∧ s = first ++ lines.flatMap (fun l => '\n' :: l) ∧ '\n' ∉ first ∧ ∀ l ∈ lines, '\n' ∉ l := by
  induction s with
  | nil => exact ⟨[], [], rfl, rfl, by simp, by simp⟩
  | cons c s ih =>
    obtain ⟨first, lines, e1, e2, h1, h2⟩ := ih
    rw [List.splitOn, List.splitOnP_cons]
    rw [List.splitOn] at e1
    rw [e1]
    by_cases hc : c = '\n'
    · subst hc
      refine ⟨[], first :: lines, by simp, by simp [← e2], by simp, ?_⟩
      simp only [List.mem_cons, forall_eq_or_imp]
      exact ⟨h1, h2⟩
    · refine ⟨c :: first, lines, by simp [hc], by simp [← e2], ?_, h2⟩
      simp only [List.mem_cons, not_or]
      exact ⟨fun e => hc e.symm, h1⟩

theorem isSpace_newline : isSpace '\n' = true := by decide
theorem isSpace_space : isSpace ' ' = true := by decide

theorem words_lines (first : List Char) : ∀ lines : List (List Char), words isSpace (first ++ lines.flatMap (fun l => '\n' :: l)) = words isSpace first ++ lines.flatMap (words isSpace)
  | [] => by simp
  | l :: lines => by
    rw [List.flatMap_cons, List.cons_append, words_append isSpace_newline, words_lines l lines, List.flatMap_cons]

/-- The piece of text of one line. -/
def tidyLine (isLast : Bool) (line : List Char) : List Char :=
  let line := line.dropWhile isSpace
  if !line.isEmpty || !isLast then ' ' :: line else []

theorem tidyLine_cases (isLast : Bool) (line : List Char) : (tidyLine isLast line = ' ' :: line.dropWhile isSpace) ∨ (tidyLine isLast line = [] ∧ line.dropWhile isSpace = []) := by
  simp only [tidyLine]
  split
  · exact .inl rfl
  · rename_i h
    simp only [Bool.or_eq_true, not_or, Bool.not_eq_true, Bool.not_eq_false', List.isEmpty_iff] at h
    exact .inr ⟨rfl, h.1⟩

theorem tidy_lines (isLast : Bool) (first : List Char) : ∀ lines : List (List Char), words isSpace (first ++ lines.flatMap (tidyLine isLast)) = words isSpace first ++ lines.flatMap (words isSpace)
  | [] => by simp
  | l :: lines => by
    rw [List.flatMap_cons, List.flatMap_cons]
    rcases tidyLine_cases isLast l with e | ⟨e, e2⟩
    · rw [e, List.cons_append, words_append isSpace_space, tidy_lines isLast _ lines, words_dropWhile]
    · rw [e, List.nil_append, tidy_lines isLast first lines, ← words_dropWhile l, e2, words_nil, List.nil_append]

theorem tidyText_words (isLast : Bool) (s : List Char) : words isSpace (tidyText isLast s) = words isSpace s := by
  obtain ⟨first, lines, e1, e2, _, _⟩ := splitOn_lines s
  have : tidyText isLast s = first ++ lines.flatMap (tidyLine isLast) := by rw [tidyText, e1]; rfl
  rw [this, tidy_lines, ← words_lines, ← e2]

theorem tidyText_newline (isLast : Bool) (s : List Char) : '\n' ∉ tidyText isLast s := by
  obtain ⟨first, lines, e1, _, h1, h2⟩ := splitOn_lines s
  have : tidyText isLast s = first ++ lines.flatMap (tidyLine isLast) := by rw [tidyText, e1]; rfl
  rw [this, List.mem_append, List.mem_flatMap]
  rintro (h | ⟨l, hl, h⟩)
  · exact h1 h
  · rcases tidyLine_cases isLast l with e | ⟨e, _⟩
    · rw [e] at h
      rcases List.mem_cons.1 h with h | h
      · exact absurd h (by decide)
      · exact h2 l hl ((List.dropWhile_suffix _).subset h)
    · rw [e] at h; cases h

theorem tidyText_line (isLast : Bool) (s : List Char) (h : '\n' ∉ s) : tidyText isLast s = s := by
  have : s.splitOn '\n' = [s] := List.splitOnP_eq_singleton fun x hx => by
    simp only [beq_eq_false_iff_ne]
    rintro rfl
    exact h hx
  rw [tidyText, this]
  simp

theorem tidySpans_binders (isLast : Bool) (spans : List TextSpan) : TextSpan.binders (tidySpans isLast spans) = TextSpan.binders spans := by
  induction spans with
  | nil => rfl
  | cons s l ih =>
    rw [tidySpans, List.flatMap_cons, ← tidySpans]
    simp only [TextSpan.binders] at ih ⊢
    rw [List.filterMap_append, ih]
    cases s with
    | string s =>
      simp only [List.filterMap_cons]
      split <;> simp
    | binder b => simp

theorem tidySpans_newline {isLast : Bool} {spans : List TextSpan} {s : String} (h : .string s ∈ tidySpans isLast spans) : '\n' ∉ s.toList := by
  rw [tidySpans, List.mem_flatMap] at h
  obtain ⟨x, _, h⟩ := h
  cases x with
  | string u =>
    simp only at h
    split at h
    · cases h
    · simp only [List.mem_singleton, TextSpan.string.injEq] at h
      subst h
      simpa using tidyText_newline isLast u.toList
  | binder b => simp at h

theorem tidySpans_lines {isLast : Bool} {spans : List TextSpan} (h : ∀ s, .string s ∈ spans → '\n' ∉ s.toList ∧ s ≠ "") : tidySpans isLast spans = spans := by
  induction spans with
  | nil => rfl
  | cons x l ih =>
    rw [tidySpans, List.flatMap_cons, ← tidySpans, ih fun s hs => h s (List.mem_cons_of_mem _ hs)]
    cases x with
    | string s =>
      obtain ⟨h1, h2⟩ := h s List.mem_cons_self
      have h3 : s.toList.isEmpty = false := by
        cases hs : s.toList with
        | nil => exact absurd (by rw [← String.ofList_toList (s := s), hs]) h2
        | cons _ _ => rfl
      simp [tidyText_line isLast s.toList h1, h3]
    | binder b => rfl

theorem tidySpans_words (isLast : Bool) (spans : List TextSpan) :
    (TextSpan.words (tidySpans isLast spans)).filter (!·.isEmpty) = (TextSpan.words spans).filter (!·.isEmpty) := by
  induction spans with
  | nil => rfl
  | cons x l ih =>
    rw [tidySpans, List.flatMap_cons, ← tidySpans]
    cases x with
    | string s =>
      have hw := tidyText_words isLast s.toList
      simp only [TextSpan.words] at ih ⊢
      split
      · rename_i he
        rw [List.isEmpty_iff] at he
        rw [he, words_nil] at hw
        simp [← hw, ih]
      · simp [List.filter_cons, hw, ih]
    | binder b =>
      simp only [TextSpan.words] at ih ⊢
      simpa [List.filterMap_cons] using ih

/-! ## Every text of a document that was read is tidy -/

theorem readContents_mem : ∀ {ps : List (Pair HtmlRule)} {cs : List Html}, readContents ps = some cs → ∀ c ∈ cs, ∃ b p, readContent b p = some c
  | [], cs, h, c, hc => by rw [readContents] at h; injection h with h; subst h; cases hc
  | p :: ps, cs, h, c, hc => by
    rw [readContents] at h
    split at h
    · rename_i c' cs' h1 h2
      injection h with h; subst h
      rcases List.mem_cons.1 hc with rfl | hc
      · exact ⟨_, _, h1⟩
      · exact readContents_mem h2 c hc
    · cases h

theorem readContent_tidy {html : Html} {spans : List TextSpan} (ht : html.HasText spans) : ∀ {isLast : Bool} {p : Pair HtmlRule}, readContent isLast p = some html → ∃ b l, spans = tidySpans b l := by
  induction ht with
  | here =>
    intro isLast p h
    rw [readContent.eq_def] at h
    split at h
    · split at h
      · cases h
      · cases h
    · rw [Option.map_eq_some_iff] at h
      obtain ⟨l, _, e⟩ := h
      injection e with _ _ e _
      injection e with e
      exact ⟨_, _, e.symm⟩
    · rw [Option.map_eq_some_iff] at h
      obtain ⟨l, _, e⟩ := h
      cases e
    · cases h
    · cases h
  | deeper hc _ ih =>
    intro isLast p h
    rw [readContent.eq_def] at h
    split at h
    · split at h
      · rename_i hcs
        injection h with h
        injection h with _ _ _ h
        subst h
        obtain ⟨b, p', hp⟩ := readContents_mem hcs _ hc
        exact ih hp
      · cases h
    · rw [Option.map_eq_some_iff] at h
      obtain ⟨l, _, e⟩ := h
      injection e with _ _ _ e
      subst e; cases hc
    · rw [Option.map_eq_some_iff] at h
      obtain ⟨l, _, e⟩ := h
      injection e with _ _ _ e
      subst e; cases hc
    · injection h with h
      injection h with _ _ _ e
      subst e; cases hc
    · cases h

theorem readHtml_tidy {fuel : Nat} {text : String} {html : Html} (h : readHtml fuel text = some (.ok html)) {spans : List TextSpan} (ht : html.HasText spans) :
    ∃ b l, spans = tidySpans b l := by
  unfold readHtml at h
  split at h
  · cases h
  · cases h
  · cases h
  · split at h
    · rename_i hr
      simp only [Option.some.injEq, Except.ok.injEq] at h
      subst h
      exact readContent_tidy ht hr
    · cases h

end Verif
