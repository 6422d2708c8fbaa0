import Verif.Html.Binders
/-!
# Written bindings are read back
-/
namespace Verif
open Written

local notation "H" => htmlGrammar

/-! ## Values -/

theorem vChar_none {r : List Char} : Runs H .atomic (.call .vChar) ('"' :: r) none := by
  refine Runs.call_none (Runs.alts_none (l := [_, _, _]) ?_)
  simp only [List.mem_cons, List.not_mem_nil, or_false, forall_eq_or_imp, forall_eq]
  refine ⟨Runs.seq_left (.neg_not (.alt_left (runs_word1 rfl))), Runs.seq_left (runs_word1_none (d := '\\') rfl (by simp)), Runs.seq_left (runs_word1_none (d := '\\') rfl (by simp))⟩

theorem vChar_plain {c : Char} {i : List Char} (h1 : c ≠ '"') (h2 : c ≠ '\\') : Runs H .atomic (.call .vChar) (c :: i) (some ([], i)) := by
  refine Runs.call_hidden rfl (Runs.alts_some (pre := []) (post := [_, _]) ?_ (by simp))
  exact Runs.seq (.neg (.alt_right (runs_word1_none (d := '"') rfl (by simpa using h1)) (runs_word1_none (d := '\\') rfl (by simpa using h2)))) (.gap_off (by decide)) (.chr rfl)

theorem vChar_first {i : List Char} : Runs H .atomic (.seq (.neg (.alt (Peg.word "\"") (Peg.word "\\"))) Peg.any) ('\\' :: i) none :=
  Runs.seq_left (.neg_not (.alt_right (runs_word1_none (d := '"') rfl (by simp)) (runs_word1 rfl)))

theorem runs_escape {c : Char} {i : List Char} (h : c ∈ "\"\\/bfnrt".toList) :
    Runs H .atomic (Peg.alts [Peg.word "\"", Peg.word "\\", Peg.word "/", Peg.word "b", Peg.word "f", Peg.word "n", Peg.word "r", Peg.word "t"]) (c :: i) (some ([], i)) := by
  change c ∈ ['"', '\\', '/', 'b', 'f', 'n', 'r', 't'] at h
  simp only [List.mem_cons, List.not_mem_nil, or_false] at h
  have no : ∀ {s : String} {d e : Char}, s.toList = [d] → e ≠ d → Runs H .atomic (Peg.word s) (e :: i) none := fun hs hne => (char_word hs).2.1 hne
  rcases h with rfl | rfl | rfl | rfl | rfl | rfl | rfl | rfl
  · exact .alt_left (runs_word1 rfl)
  · exact .alt_right (no (d := '"') rfl (by decide)) (.alt_left (runs_word1 rfl))
  · exact .alt_right (no (d := '"') rfl (by decide)) (.alt_right (no (d := '\\') rfl (by decide)) (.alt_left (runs_word1 rfl)))
  · exact .alt_right (no (d := '"') rfl (by decide)) (.alt_right (no (d := '\\') rfl (by decide)) (.alt_right (no (d := '/') rfl (by decide)) (.alt_left (runs_word1 rfl))))
  · exact .alt_right (no (d := '"') rfl (by decide)) (.alt_right (no (d := '\\') rfl (by decide)) (.alt_right (no (d := '/') rfl (by decide)) (.alt_right (no (d := 'b') rfl (by decide))
      (.alt_left (runs_word1 rfl)))))
  · exact .alt_right (no (d := '"') rfl (by decide)) (.alt_right (no (d := '\\') rfl (by decide)) (.alt_right (no (d := '/') rfl (by decide)) (.alt_right (no (d := 'b') rfl (by decide))
      (.alt_right (no (d := 'f') rfl (by decide)) (.alt_left (runs_word1 rfl))))))
  · exact .alt_right (no (d := '"') rfl (by decide)) (.alt_right (no (d := '\\') rfl (by decide)) (.alt_right (no (d := '/') rfl (by decide)) (.alt_right (no (d := 'b') rfl (by decide))
      (.alt_right (no (d := 'f') rfl (by decide)) (.alt_right (no (d := 'n') rfl (by decide)) (.alt_left (runs_word1 rfl)))))))
  · exact .alt_right (no (d := '"') rfl (by decide)) (.alt_right (no (d := '\\') rfl (by decide)) (.alt_right (no (d := '/') rfl (by decide)) (.alt_right (no (d := 'b') rfl (by decide))
      (.alt_right (no (d := 'f') rfl (by decide)) (.alt_right (no (d := 'n') rfl (by decide)) (.alt_right (no (d := 'r') rfl (by decide)) (runs_word1 rfl)))))))

theorem vChar_escape {c : Char} {i : List Char} (h : c ∈ "\"\\/bfnrt".toList) : Runs H .atomic (.call .vChar) ('\\' :: c :: i) (some ([], i)) := by
  refine Runs.call_hidden rfl (.alt_right vChar_first (.alt_left ?_))
  exact Runs.seq (runs_word1 rfl) (.gap_off (by decide)) (runs_escape h)

theorem vChar_unicode {a b c d : Char} {i : List Char} (ha : isHex a = true) (hb : isHex b = true) (hc : isHex c = true) (hd : isHex d = true) :
    Runs H .atomic (.call .vChar) ('\\' :: 'u' :: a :: b :: c :: d :: i) (some ([], i)) := by
  have g : ∀ {i}, Runs H .atomic .gap i (some ([], i)) := .gap_off (by decide)
  have no : ∀ {s : String} {d : Char} {i}, s.toList = [d] → 'u' ≠ d → Runs H .atomic (Peg.word s) ('u' :: i) none := fun hs hne => (char_word hs).2.1 hne
  refine Runs.call_hidden rfl (.alt_right vChar_first (.alt_right ?_ ?_))
  · refine Runs.seq_right (runs_word1 rfl) g (Runs.alts_none (l := [_, _, _, _, _, _, _, _]) ?_)
    simp only [List.mem_cons, List.not_mem_nil, or_false, forall_eq_or_imp, forall_eq]
    exact ⟨no (d := '"') rfl (by decide), no (d := '\\') rfl (by decide), no (d := '/') rfl (by decide), no (d := 'b') rfl (by decide), no (d := 'f') rfl (by decide),
      no (d := 'n') rfl (by decide), no (d := 'r') rfl (by decide), no (d := 't') rfl (by decide)⟩
  · exact Runs.seq (ps := []) (runs_word1 rfl) g (Runs.seq (ps := []) (runs_word1 rfl) g (Runs.seq (ps := []) (.chr ha) g (Runs.seq (ps := []) (.chr hb) g (Runs.seq (ps := []) (.chr hc) g (.chr hd)))))

theorem runs_value {v rest : List Char} (h : Value v) : Runs H .nonAtomic (.call .value) (v ++ '"' :: rest) (some ([.mk .value v []], '"' :: rest)) := by
  have g : ∀ {i}, Runs H .atomic .gap i (some ([], i)) := .gap_off (by decide)
  have one : ∀ {v}, Value v → v = [] ∨ ∃ c u, v = c ++ u ∧ Value u ∧ (∀ i, Runs H .atomic (.call .vChar) (c ++ i) (some ([], i))) := by
    intro v h
    cases h with
    | nil => exact .inl rfl
    | plain h1 h2 h3 => exact .inr ⟨[_], _, rfl, h3, fun i => vChar_plain h1 h2⟩
    | escape h1 h3 => exact .inr ⟨[_, _], _, rfl, h3, fun i => vChar_escape h1⟩
    | unicode h1 h2 h3 h4 h5 => exact .inr ⟨[_, _, _, _, _, _], _, rfl, h5, fun i => vChar_unicode h1 h2 h3 h4⟩
  have reps : ∀ {v}, Value v → Runs H .atomic (.rep (.cat .gap (.call .vChar))) (v ++ '"' :: rest) (some ([], '"' :: rest)) := by
    intro v h
    induction h with
    | nil => exact .rep_stop (g.cat_right vChar_none)
    | plain h1 h2 _ ih => exact (g.cat (vChar_plain h1 h2)).rep_step ih
    | escape h1 _ ih => exact (g.cat (vChar_escape h1)).rep_step ih
    | unicode h1 h2 h3 h4 _ ih => exact (g.cat (vChar_unicode h1 h2 h3 h4)).rep_step ih
  refine .call_seen rfl ?_
  change Runs H .atomic (.star (.call .vChar)) _ _
  rcases one h with rfl | ⟨c, u, rfl, hu, hc⟩
  · exact .star_nil vChar_none
  · rw [List.append_assoc]
    exact .star_cons (hc _) (reps hu)

/-! ## Spans and arguments -/

theorem quote_solid {rest : List Char} : Solid ('"' :: rest) := solid_cons (by decide) (by decide)

theorem quoted_solid {s r : List Char} (h : IsWord isQuotedChar s) (hs : Solid s) : Solid (s ++ r) :=
  solid_append hs h.1 fun c hc e => by subst e; exact absurd (h.2 _ hc) (by decide)

theorem quoted_head {b : Binder} {l : List TextSpan} {u : List Char} (h : Quoted (.binder b :: l) u) : ∃ v, u = '{' :: v := by
  cases h with
  | lastBinder h1 _ => obtain ⟨v, rfl⟩ := binder_head h1; exact ⟨_, rfl⟩
  | binder h1 _ _ => obtain ⟨v, rfl⟩ := binder_head h1; exact ⟨_, rfl⟩

theorem quoted_many {spans : List TextSpan} {t : List Char} (h : Quoted spans t) (rest : List Char) :
    Solid (t ++ '"' :: rest) ∧ ∃ ps, Many H (.alt (.call .binder) (.call .quotedString)) (t ++ '"' :: rest) ps ('"' :: rest) ∧ readSpans .quotedString ps = some spans := by
  have fin : Many H (.alt (.call .binder) (.call .quotedString)) ('"' :: rest) [] ('"' :: rest) :=
    .nil (.alt_right (runs_binder_none (by simp)) (runs_quoted_none (ends_cons (by decide)))) (runs_gap0 quote_solid)
  have str : ∀ {s r : List Char}, IsWord isQuotedChar s → Ends isQuotedChar r → Solid r →
      Takes H (.alt (.call .binder) (.call .quotedString)) (s ++ r) [.mk .quotedString s []] r := by
    intro s r h1 h2 h3
    refine .of (.alt_right (runs_binder_none ?_) (runs_quoted h1 h2)) (runs_gap0 h3)
    rintro c u e rfl
    obtain ⟨hne, hall⟩ := h1
    cases s with
    | nil => exact absurd rfl hne
    | cons d s => injection e with e _; subst e; exact absurd (hall _ List.mem_cons_self) (by decide)
  have bnd : ∀ {b : Binder} {t bl r : List Char}, BinderText b t → Blanks bl → Solid r →
      ∃ p, Takes H (.alt (.call .binder) (.call .quotedString)) (t ++ (bl ++ r)) [p] r ∧ p.rule = .binder ∧ readBinder p = some b := by
    intro b t bl r h1 h2 h3
    obtain ⟨p, hp, hr, hb⟩ := runs_binder h1 (bl ++ r) .nonAtomic
    exact ⟨p, .of (.alt_left hp) (runs_gap h3 h2), hr, hb⟩
  induction h with
  | @lastString s h1 h2 =>
    refine ⟨quoted_solid h1 h2, _, .cons (str h1 (ends_cons (by decide)) quote_solid) fin, ?_⟩
    simp [readSpans, Pair.rule, Pair.str]
  | @lastBinder b t bl h1 h2 =>
    obtain ⟨p, hp, hr, hb⟩ := bnd h1 h2 quote_solid
    refine ⟨?_, _, by rw [List.append_assoc]; exact .cons hp fin, ?_⟩
    · obtain ⟨v, rfl⟩ := binder_head h1; exact solid_cons (by decide) (by decide)
    · simp [readSpans, hr, hb]
  | @string s b l u h1 h2 h3 ih =>
    obtain ⟨ih1, ps, ih2, ih3⟩ := ih
    obtain ⟨v, rfl⟩ := quoted_head h3
    refine ⟨by rw [List.append_assoc]; exact quoted_solid h1 h2, _, by rw [List.append_assoc]; exact .cons (str h1 (ends_cons (by decide)) ih1) ih2, ?_⟩
    simp [readSpans, Pair.rule, Pair.str, ih3]
  | @binder b t bl l u h1 h2 h3 ih =>
    obtain ⟨ih1, ps, ih2, ih3⟩ := ih
    obtain ⟨p, hp, hr, hb⟩ := bnd h1 h2 ih1
    refine ⟨?_, _, by rw [List.append_assoc, List.append_assoc]; exact .cons hp ih2, ?_⟩
    · obtain ⟨v, rfl⟩ := binder_head h1; exact solid_cons (by decide) (by decide)
    · simp [readSpans, hr, hb, ih3]

theorem quoted_ne {spans : List TextSpan} {t : List Char} (h : Quoted spans t) : spans ≠ [] := by cases h <;> simp

theorem key_ne {t r : List Char} {d : Char} (h : IsWord isKeyChar t) (hd : isKeyChar d = false) : ∀ c u, t ++ r = c :: u → c ≠ d := by
  rintro c u e rfl
  obtain ⟨hne, hall⟩ := h
  cases t with
  | nil => exact absurd rfl hne
  | cons a t => injection e with e _; subst e; rw [hall _ List.mem_cons_self] at hd; cases hd

theorem event_none {i : List Char} (h : ∀ c u, i = c :: u → c ≠ '$') : Runs H .nonAtomic (.call .event) i none :=
  Runs.call_none (Runs.lit_ne (d := '$') (s := ['e', 'v', 'e', 'n', 't']) h)

theorem runs_argument {x : CallbackArgument} {t r : List Char} (h : Argument x t) (hr : Ends isKeyChar r) :
    ∃ p, Runs H .nonAtomic (Peg.alts [.call .event, .call .binder, .call .key]) (t ++ r) (some ([p], r)) ∧ Solid (t ++ r) ∧ ∀ ps l, readArguments ps = some l → readArguments (p :: ps) = some (x :: l) := by
  cases h with
  | @keyword k h1 =>
    refine ⟨_, .alt_right (event_none (key_ne h1 (by decide))) (.alt_right (runs_binder_none (key_ne h1 (by decide))) (runs_key h1 hr)), key_solid h1, ?_⟩
    intro ps l hl
    simp [readArguments, Pair.rule, Pair.str, hl]
  | event =>
    refine ⟨_, .alt_left (Runs.call_seen (ps := []) rfl .lit), solid_cons (by decide) (by decide), ?_⟩
    intro ps l hl
    simp [readArguments, Pair.rule, hl]
  | @binder b t h1 =>
    obtain ⟨p, hp, hpr, hb⟩ := runs_binder h1 r .nonAtomic
    refine ⟨p, .alt_right (event_none ?_) (.alt_left hp), ?_, ?_⟩
    · obtain ⟨v, rfl⟩ := binder_head h1; simp
    · obtain ⟨v, rfl⟩ := binder_head h1; exact solid_cons (by decide) (by decide)
    · intro ps l hl
      simp [readArguments, hpr, hb, hl]

theorem arguments_many {l : List CallbackArgument} {t : List Char} (h : Arguments l t) (rest : List Char) :
    Solid (t ++ '"' :: rest) ∧ ∃ ps, Many H (Peg.alts [.call .event, .call .binder, .call .key]) (t ++ '"' :: rest) ps ('"' :: rest) ∧ readArguments ps = some l := by
  have fin : Many H (Peg.alts [.call .event, .call .binder, .call .key]) ('"' :: rest) [] ('"' :: rest) :=
    .nil (.alt_right (event_none (by simp)) (.alt_right (runs_binder_none (by simp)) (runs_key_none (ends_cons (by decide))))) (runs_gap0 quote_solid)
  induction h with
  | nil => exact ⟨quote_solid, [], fin, rfl⟩
  | @last x t bl h1 h2 =>
    obtain ⟨p, hp, hs, hr⟩ := runs_argument (r := bl ++ '"' :: rest) h1 (blanks_ends key_ends_blank (by decide) h2 (ends_cons (by decide)))
    exact ⟨by rw [List.append_assoc]; exact hs, _, by rw [List.append_assoc]; exact .cons (.of hp (runs_gap quote_solid h2)) fin, hr _ _ rfl⟩
  | @cons x t bl l u h1 h2 h3 h4 h5 ih =>
    obtain ⟨ih1, ps, ih2, ih3⟩ := ih
    have hend : Ends isKeyChar (bl ++ (u ++ '"' :: rest)) := by
      cases h2 with
      | nil => exact absurd rfl h3
      | space hc _ => exact ends_cons (key_ends_blank _ hc)
      | comment _ _ => simp only [List.append_assoc]; exact ends_cons (by decide)
    obtain ⟨p, hp, hs, hr⟩ := runs_argument (r := bl ++ (u ++ '"' :: rest)) h1 hend
    exact ⟨by simp only [List.append_assoc]; exact hs, _, by simp only [List.append_assoc]; exact .cons (.of hp (runs_gap ih1 h2)) ih2, hr _ _ ih3⟩

/-! ## Each kind of binding -/

theorem runs_signed {sign : Char} {key : String} {content u : List Char} (h : Signed sign key content u) {s : String} (hsign : s.toList = [sign]) {rest : List Char}
    (hsol : Solid (content ++ '"' :: rest)) {y : Peg HtmlRule} {ps r} (hy : Runs H .nonAtomic y (content ++ '"' :: rest) (some (ps, r))) :
    Runs H .nonAtomic (.seq (Peg.word s) (.seq (.call .key) (.seq (Peg.word "=") (.seq (Peg.word "\"") y)))) (u ++ rest) (some (.mk .key key.toList [] :: ps, r)) ∧ ∃ v, u = sign :: v := by
  cases h with
  | @mk b1 b2 b3 b4 h1 h2 h3 h4 hk =>
    refine ⟨?_, _, rfl⟩
    have a1 : Takes H (Peg.word s) (sign :: (b1 ++ (key.toList ++ (b2 ++ '=' :: (b3 ++ '"' :: (b4 ++ (content ++ '"' :: rest))))))) [] (key.toList ++ (b2 ++ '=' :: (b3 ++ '"' :: (b4 ++ (content ++ '"' :: rest))))) :=
      .of (runs_word1 hsign) (runs_gap (key_solid hk) h1)
    have seq : Solid ('=' :: (b3 ++ '"' :: (b4 ++ (content ++ '"' :: rest)))) := solid_cons (by decide) (by decide)
    have a2 : Takes H (.call .key) (key.toList ++ (b2 ++ '=' :: (b3 ++ '"' :: (b4 ++ (content ++ '"' :: rest))))) [.mk .key key.toList []] ('=' :: (b3 ++ '"' :: (b4 ++ (content ++ '"' :: rest)))) :=
      .of (runs_key hk (blanks_ends key_ends_blank (by decide) h2 (ends_cons (by decide)))) (runs_gap seq h2)
    have a3 : Takes H (Peg.word "=") ('=' :: (b3 ++ '"' :: (b4 ++ (content ++ '"' :: rest)))) [] ('"' :: (b4 ++ (content ++ '"' :: rest))) := .of (runs_word1 rfl) (runs_gap quote_solid h3)
    have a4 : Takes H (Peg.word "\"") ('"' :: (b4 ++ (content ++ '"' :: rest))) [] (content ++ '"' :: rest) := .of (runs_word1 rfl) (runs_gap hsol h4)
    have := a1.seq_runs (a2.seq_runs (a3.seq_runs (a4.seq_runs hy)))
    simpa using this

/-- What may follow a binding. -/
def Delimited (r : List Char) : Prop := ∀ c u, r = c :: u → isBlank c = true ∨ c = '>' ∨ c = '/'

theorem Delimited.name {r : List Char} (h : Delimited r) : Ends isNameChar r := by
  intro c u e
  rcases h c u e with h | rfl | rfl
  · simp [isNameChar, h]
  · decide
  · decide

theorem Delimited.tag {r : List Char} (h : Delimited r) : Ends isTagChar r := by
  intro c u e
  rcases h c u e with h | rfl | rfl
  · simp only [isBlank, Bool.or_eq_true, beq_iff_eq] at h
    rcases h with ((rfl | rfl) | rfl) | rfl <;> decide
  · decide
  · decide

theorem name_solid {t r : List Char} (h : IsWord isNameChar t) (hr : ∀ c u, r = c :: u → c ≠ '!') : Solid (t ++ r) := by
  obtain ⟨hne, hall⟩ := h
  cases t with
  | nil => exact absurd rfl hne
  | cons c t =>
    refine ⟨fun d u e => ?_, ?_⟩
    · injection e with e _; subst e
      have := hall _ List.mem_cons_self
      simp only [isNameChar, Bool.and_eq_true, Bool.not_eq_true'] at this
      exact this.1
    · rintro ⟨u, e⟩
      change '<' :: '!' :: '-' :: '-' :: u = c :: (t ++ r) at e
      injection e with _ e
      cases t with
      | nil => exact hr '!' _ e.symm rfl
      | cons d t =>
        injection e with e _; subst e
        exact absurd (hall '!' (by simp)) (by decide)

theorem name_ne {t r : List Char} {d : Char} (h : IsWord isNameChar t) (hd : isNameChar d = false) : ∀ c u, t ++ r = c :: u → c ≠ d := by
  rintro c u e rfl
  obtain ⟨hne, hall⟩ := h
  cases t with
  | nil => exact absurd rfl hne
  | cons a t => injection e with e _; subst e; rw [hall _ List.mem_cons_self] at hd; cases hd

theorem repeat_none {i : List Char} (h : ∀ c u, i = c :: u → c ≠ '*') : Runs H .nonAtomic (.call .repeatBinding) i none := Runs.call_none (Runs.seq_left (runs_word1_none rfl h))
theorem alias_none {i : List Char} (h : ∀ c u, i = c :: u → c ≠ '+') : Runs H .nonAtomic (.call .aliasBinding) i none := Runs.call_none (Runs.seq_left (runs_word1_none rfl h))
theorem tag_none {i : List Char} (h : ∀ c u, i = c :: u → c ≠ '#') : Runs H .nonAtomic (.call .tagBinding) i none := Runs.call_none (Runs.seq_left (runs_word1_none rfl h))
theorem attribute_none {i : List Char} (h : ∀ c u, i = c :: u → c ≠ '@') : Runs H .nonAtomic (.call .attributeBinding) i none := Runs.call_none (Runs.seq_left (runs_word1_none rfl h))
theorem callback_none {i : List Char} (h : ∀ c u, i = c :: u → c ≠ '^') : Runs H .nonAtomic (.call .callbackBinding) i none := Runs.call_none (Runs.seq_left (runs_word1_none rfl h))
theorem visibility_none {i : List Char} (h1 : ∀ c u, i = c :: u → c ≠ '?') (h2 : ∀ c u, i = c :: u → c ≠ '!') : Runs H .nonAtomic (.call .visibilityBinding) i none :=
  Runs.call_none (Runs.seq_left (Runs.call_none (.alt_right (runs_word1_none rfl h1) (runs_word1_none rfl h2))))

theorem digit_plain {c : Char} (h : isDigit c = true) : isBlank c = false ∧ c ≠ '<' := by
  refine keyChar_plain ?_
  simp [isKeyChar, h]

theorem runs_count {digits bl r : List Char} (hd : IsWord isDigit digits) (hbl : Blanks bl) (hs : Solid r) (hr : Ends isDigit r) :
    Takes H (.call .count) (digits ++ (bl ++ r)) [.mk .count digits []] r := by
  refine .of (Runs.call_seen (ps := []) rfl ?_) (runs_gap hs hbl)
  change Runs H .nonAtomic (.star (.chr isDigit)) _ _
  have reps : ∀ {ds : List Char}, (∀ c ∈ ds, isDigit c = true) → Runs H .nonAtomic (.rep (.cat .gap (.chr isDigit))) (ds ++ (bl ++ r)) (some ([], bl ++ r)) := by
    intro ds
    induction ds with
    | nil => intro _; exact .rep_stop ((runs_gap hs hbl).cat_right (.chr_not hr))
    | cons c ds ih =>
      intro h
      have hc := digit_plain (h c List.mem_cons_self)
      exact ((runs_gap0 (solid_cons hc.1 hc.2)).cat (.chr (h c List.mem_cons_self))).rep_step (ih fun d hd => h d (List.mem_cons_of_mem _ hd))
  obtain ⟨hne, hall⟩ := hd
  cases digits with
  | nil => exact absurd rfl hne
  | cons c ds => exact .star_cons (.chr (hall c List.mem_cons_self)) (reps fun d hd => hall d (List.mem_cons_of_mem _ hd))

theorem runs_binding {b : ElementBinding} {t : List Char} (h : BindingText b t) {bl r : List Char} (hbl : Blanks bl) (hr : Solid r) (he : ∀ c u, r = c :: u → c ≠ '=') (hd : Delimited (bl ++ r)) :
    Solid (t ++ (bl ++ r)) ∧ (∀ c u, t ++ (bl ++ r) = c :: u → c ≠ '=') ∧
    ∃ p, Runs H .nonAtomic (.call .attribute) (t ++ (bl ++ r)) (some ([p], bl ++ r)) ∧ readBinding p = some b := by
  have att : ∀ {i p r}, Runs H .nonAtomic (Peg.alts [.call .repeatBinding, .call .aliasBinding, .call .tagBinding, .call .attributeBinding, .call .callbackBinding,
      .call .visibilityBinding, .call .doubleQuoted, .call .unquoted, .call .empty]) i (some ([p], r)) → Runs H .nonAtomic (.call .attribute) i (some ([p], r)) :=
    fun h => Runs.call_hidden rfl h
  have bang : ∀ c u, bl ++ r = c :: u → c ≠ '!' := by
    rintro c u e rfl
    rcases hd _ u e with h | h | h <;> revert h <;> decide
  have bnd : ∀ {b : Binder} {t bl' rest : List Char}, BinderText b t → Blanks bl' →
      Solid (t ++ bl' ++ '"' :: rest) ∧ ∃ p, Runs H .nonAtomic (.seq (.call .binder) (Peg.word "\"")) (t ++ bl' ++ '"' :: rest) (some ([p], rest)) ∧ p.rule = .binder ∧ readBinder p = some b := by
    intro b t bl' rest h1 h2
    obtain ⟨p, hp, hpr, hb⟩ := runs_binder h1 (bl' ++ '"' :: rest) .nonAtomic
    refine ⟨?_, p, ?_, hpr, hb⟩
    · obtain ⟨v, rfl⟩ := binder_head h1; exact solid_cons (by decide) (by decide)
    · rw [List.append_assoc]
      have := hp.seq (runs_gap quote_solid h2) (runs_word1 (s := "\"") (d := '"') rfl)
      simpa using this
  cases h with
  | @none name value b1 b2 b3 h1 h2 h3 h4 h5 h6 =>
    have hb1 : Ends isNameChar (b1 ++ '=' :: (b2 ++ '"' :: (b3 ++ (value.toList ++ '"' :: (bl ++ r))))) := by
      rcases hb : b1 with _ | ⟨c, b1'⟩
      · exact ends_cons (by decide)
      · refine ends_cons ?_
        simp [isNameChar, h2.2 c b1' hb]
    have e0 : name.toList ++ b1 ++ '=' :: (b2 ++ '"' :: (b3 ++ value.toList ++ ['"'])) ++ (bl ++ r) = name.toList ++ (b1 ++ '=' :: (b2 ++ '"' :: (b3 ++ (value.toList ++ '"' :: (bl ++ r))))) := by simp
    rw [e0]
    have ne : ∀ {d}, isNameChar d = false → ∀ c u, name.toList ++ (b1 ++ '=' :: (b2 ++ '"' :: (b3 ++ (value.toList ++ '"' :: (bl ++ r))))) = c :: u → c ≠ d := fun hd => name_ne h1 hd
    refine ⟨name_solid h1 ?_, ne (by decide), ?_⟩
    · rcases hb : b1 with _ | ⟨c, b1'⟩
      · intro c u e; injection e with e _; subst e; decide
      · intro d u e; injection e with e _; subst e
        rintro rfl
        exact absurd (h2.2 _ b1' hb) (by decide)
    have seq : Solid ('=' :: (b2 ++ '"' :: (b3 ++ (value.toList ++ '"' :: (bl ++ r))))) := solid_cons (by decide) (by decide)
    have vsol : Solid (value.toList ++ '"' :: (bl ++ r)) := by
      rcases hv : value.toList with _ | ⟨c, v⟩
      · exact quote_solid
      · rw [hv] at h6
        refine ⟨fun d u e => by injection e with e _; subst e; exact h6.1 c v rfl, ?_⟩
        intro ⟨u, e⟩
        have e2 : "<!--".toList ++ u = (c :: v) ++ '"' :: (bl ++ r) := e
        rcases List.append_eq_append_iff.1 e2 with ⟨as, e1, _⟩ | ⟨bs, e1, e3⟩
        · exact h6.2 ⟨as, e1.symm⟩
        · have hlen := congrArg List.length e1
          cases bs with
          | nil => rw [List.append_nil] at e1; exact h6.2 ⟨[], by rw [e1]; simp⟩
          | cons x bs =>
            injection e3 with e4 _
            subst e4
            have : '"' ∈ "<!--".toList := by rw [e1]; simp
            exact absurd this (by decide)
    have a1 : Takes H (.call .name) _ _ _ := .of (runs_name h1 hb1) (runs_gap seq h2.1)
    have a2 : Takes H (Peg.word "=") ('=' :: (b2 ++ '"' :: (b3 ++ (value.toList ++ '"' :: (bl ++ r))))) [] ('"' :: (b3 ++ (value.toList ++ '"' :: (bl ++ r)))) := .of (runs_word1 rfl) (runs_gap quote_solid h3)
    have a3 : Takes H (Peg.word "\"") ('"' :: (b3 ++ (value.toList ++ '"' :: (bl ++ r)))) [] (value.toList ++ '"' :: (bl ++ r)) := .of (runs_word1 rfl) (runs_gap vsol h4)
    have a4 : Takes H (.call .value) _ _ _ := .of (runs_value (rest := bl ++ r) h5) (runs_gap0 quote_solid)
    have := a1.seq_runs (a2.seq_runs (a3.seq_runs (a4.seq_runs (runs_word1 (s := "\"") (d := '"') rfl))))
    obtain ⟨x, hx⟩ := Runs.call_pair (g := htmlGrammar) (a := .nonAtomic) (r := HtmlRule.doubleQuoted) rfl this
    refine ⟨_, att (Runs.alts_some (pre := [.call .repeatBinding, .call .aliasBinding, .call .tagBinding, .call .attributeBinding, .call .callbackBinding, .call .visibilityBinding]) hx ?_), ?_⟩
    · simp only [List.mem_cons, List.not_mem_nil, or_false, forall_eq_or_imp, forall_eq]
      exact ⟨repeat_none (ne (by decide)), alias_none (ne (by decide)), tag_none (ne (by decide)), attribute_none (ne (by decide)), callback_none (ne (by decide)), visibility_none (ne (by decide)) (ne (by decide))⟩
    · simp [readBinding, Pair.str]
  | @empty name h1 =>
    have ne : ∀ {d}, isNameChar d = false → ∀ c u, name.toList ++ (bl ++ r) = c :: u → c ≠ d := fun hd => name_ne h1 hd
    refine ⟨name_solid h1 bang, ne (by decide), ?_⟩
    have a1 : Takes H (.call .name) (name.toList ++ (bl ++ r)) [.mk .name name.toList []] r := .of (runs_name h1 hd.name) (runs_gap hr hbl)
    have neq : Runs H .nonAtomic (Peg.word "=") r none := runs_word1_none rfl he
    obtain ⟨x, hx⟩ := Runs.call_pair (g := htmlGrammar) (a := .nonAtomic) (r := HtmlRule.empty) rfl (runs_name h1 hd.name)
    refine ⟨_, att (Runs.alts_some (pre := [.call .repeatBinding, .call .aliasBinding, .call .tagBinding, .call .attributeBinding, .call .callbackBinding, .call .visibilityBinding, .call .doubleQuoted, .call .unquoted]) hx ?_), ?_⟩
    · simp only [List.mem_cons, List.not_mem_nil, or_false, forall_eq_or_imp, forall_eq]
      exact ⟨repeat_none (ne (by decide)), alias_none (ne (by decide)), tag_none (ne (by decide)), attribute_none (ne (by decide)), callback_none (ne (by decide)), visibility_none (ne (by decide)) (ne (by decide)),
        Runs.call_none (a1.seq_none (Runs.seq_left neq)), Runs.call_none (a1.seq_none (Runs.seq_left neq))⟩
    · simp [readBinding, Pair.str]
  | @«alias» name b t bl' u h1 h2 h3 =>
    obtain ⟨hsol, p, hp, hpr, hb⟩ := bnd (rest := bl ++ r) h1 h2
    obtain ⟨hrun, v, rfl⟩ := runs_signed h3 (s := "+") rfl hsol hp
    obtain ⟨x, hx⟩ := Runs.call_pair (g := htmlGrammar) (a := .nonAtomic) (r := HtmlRule.aliasBinding) rfl hrun
    refine ⟨solid_cons (by decide) (by decide), by simp, _, att (Runs.alts_some (pre := [.call .repeatBinding]) hx ?_), ?_⟩
    · simp only [List.mem_cons, List.not_mem_nil, or_false, forall_eq]
      exact repeat_none (by simp)
    · simp [readBinding, Pair.str, hb]
  | @tag name b t bl' u h1 h2 h3 =>
    obtain ⟨hsol, p, hp, hpr, hb⟩ := bnd (rest := bl ++ r) h1 h2
    obtain ⟨hrun, v, rfl⟩ := runs_signed h3 (s := "#") rfl hsol hp
    obtain ⟨x, hx⟩ := Runs.call_pair (g := htmlGrammar) (a := .nonAtomic) (r := HtmlRule.tagBinding) rfl hrun
    refine ⟨solid_cons (by decide) (by decide), by simp, _, att (Runs.alts_some (pre := [.call .repeatBinding, .call .aliasBinding]) hx ?_), ?_⟩
    · simp only [List.mem_cons, List.not_mem_nil, or_false, forall_eq_or_imp, forall_eq]
      exact ⟨repeat_none (by simp), alias_none (by simp)⟩
    · simp [readBinding, Pair.str, hb]
  | @«attribute» name spans t u h1 h3 =>
    obtain ⟨hsol, ps, hm, hsp⟩ := quoted_many h1 (bl ++ r)
    have hplus : Takes H (.plus (.alt (.call .binder) (.call .quotedString))) (t ++ '"' :: (bl ++ r)) ps ('"' :: (bl ++ r)) := by
      generalize hi : t ++ '"' :: (bl ++ r) = i at hm
      cases hm with
      | nil _ _ => exact absurd (by simpa [readSpans] using hsp.symm) (quoted_ne h1)
      | cons h4 h5 => exact ManyIn.plus h4 h5
    obtain ⟨hrun, v, rfl⟩ := runs_signed h3 (s := "@") rfl hsol (hplus.seq_runs (runs_word1 (s := "\"") (d := '"') rfl))
    obtain ⟨x, hx⟩ := Runs.call_pair (g := htmlGrammar) (a := .nonAtomic) (r := HtmlRule.attributeBinding) rfl hrun
    refine ⟨solid_cons (by decide) (by decide), by simp, _, att (Runs.alts_some (pre := [.call .repeatBinding, .call .aliasBinding, .call .tagBinding]) hx ?_), ?_⟩
    · simp only [List.mem_cons, List.not_mem_nil, or_false, forall_eq_or_imp, forall_eq]
      exact ⟨repeat_none (by simp), alias_none (by simp), tag_none (by simp)⟩
    · simp [readBinding, Pair.str, hsp]
  | @callback name arguments t u h1 h3 =>
    obtain ⟨hsol, ps, hm, hsp⟩ := arguments_many h1 (bl ++ r)
    obtain ⟨hrun, v, rfl⟩ := runs_signed h3 (s := "^") rfl hsol (hm.star.seq_runs (runs_word1 (s := "\"") (d := '"') rfl))
    obtain ⟨x, hx⟩ := Runs.call_pair (g := htmlGrammar) (a := .nonAtomic) (r := HtmlRule.callbackBinding) rfl hrun
    refine ⟨solid_cons (by decide) (by decide), by simp, _, att (Runs.alts_some (pre := [.call .repeatBinding, .call .aliasBinding, .call .tagBinding, .call .attributeBinding]) hx ?_), ?_⟩
    · simp only [List.mem_cons, List.not_mem_nil, or_false, forall_eq_or_imp, forall_eq]
      exact ⟨repeat_none (by simp), alias_none (by simp), tag_none (by simp), attribute_none (by simp)⟩
    · simp [readBinding, Pair.str, hsp]
  | @«repeat» name count b digits bl1 t bl2 u h1 h2 h3 h4 h5 h6 h7 =>
    obtain ⟨hsol, p, hp, hpr, hb⟩ := bnd (rest := bl ++ r) h5 h6
    have hend : Ends isDigit (t ++ bl2 ++ '"' :: (bl ++ r)) := by
      obtain ⟨v, rfl⟩ := binder_head h5; exact ends_cons (by decide)
    have hc := runs_count h1 h4 hsol hend
    have e0 : digits ++ (bl1 ++ (t ++ bl2 ++ '"' :: (bl ++ r))) = digits ++ bl1 ++ t ++ bl2 ++ '"' :: (bl ++ r) := by simp
    rw [e0] at hc
    have dsol : Solid (digits ++ bl1 ++ t ++ bl2 ++ '"' :: (bl ++ r)) := by
      obtain ⟨hne, hall⟩ := h1
      cases digits with
      | nil => exact absurd rfl hne
      | cons c ds => have := digit_plain (hall c List.mem_cons_self); exact solid_cons this.1 this.2
    obtain ⟨hrun, v, rfl⟩ := runs_signed h7 (s := "*") rfl dsol (hc.seq_runs hp)
    obtain ⟨x, hx⟩ := Runs.call_pair (g := htmlGrammar) (a := .nonAtomic) (r := HtmlRule.repeatBinding) rfl hrun
    refine ⟨solid_cons (by decide) (by decide), by simp, _, att (Runs.alts_some (pre := []) hx (by simp)), ?_⟩
    have hcount : readCount digits = count := by
      have : digits.isEmpty = false := by cases digits with | nil => exact absurd rfl h1.1 | cons _ _ => rfl
      have h2' : digits.all isDigit = true := List.all_eq_true.2 h1.2
      simp [readCount, this, h2', h2, h3]
    simp [readBinding, Pair.str, hb, hcount]
  | @visibility visible b b1 b2 b3 t bl' h1 h2 h3 h4 h5 =>
    obtain ⟨hsol, p, hp, hpr, hb⟩ := bnd (rest := bl ++ r) h4 h5
    have seq : ∀ {i}, Solid ('=' :: i) := solid_cons (by decide) (by decide)
    let sign : Char := if visible then '?' else '!'
    have a0 : ∀ {i}, Runs H .nonAtomic (.call .visible) (sign :: i) (some ([.mk .visible [sign] []], i)) := by
      intro i
      refine Runs.call_seen (t := [sign]) (ps := []) rfl ?_
      cases visible with
      | true => exact .alt_left (runs_word1 rfl)
      | false => exact .alt_right (runs_word1_none (d := '?') rfl (by simp [sign])) (runs_word1 rfl)
    have a1 : Takes H (.call .visible) (sign :: (b1 ++ '=' :: (b2 ++ '"' :: (b3 ++ (t ++ bl' ++ '"' :: (bl ++ r)))))) [.mk .visible [sign] []] ('=' :: (b2 ++ '"' :: (b3 ++ (t ++ bl' ++ '"' :: (bl ++ r))))) :=
      .of a0 (runs_gap seq h1)
    have a2 : Takes H (Peg.word "=") ('=' :: (b2 ++ '"' :: (b3 ++ (t ++ bl' ++ '"' :: (bl ++ r))))) [] ('"' :: (b3 ++ (t ++ bl' ++ '"' :: (bl ++ r)))) := .of (runs_word1 rfl) (runs_gap quote_solid h2)
    have a3 : Takes H (Peg.word "\"") ('"' :: (b3 ++ (t ++ bl' ++ '"' :: (bl ++ r)))) [] (t ++ bl' ++ '"' :: (bl ++ r)) := .of (runs_word1 rfl) (runs_gap hsol h3)
    have hrun := a1.seq_runs (a2.seq_runs (a3.seq_runs hp))
    obtain ⟨x, hx⟩ := Runs.call_pair (g := htmlGrammar) (a := .nonAtomic) (r := HtmlRule.visibilityBinding) rfl hrun
    have e0 : (if visible then '?' else '!') :: (b1 ++ '=' :: (b2 ++ '"' :: (b3 ++ t ++ bl' ++ ['"']))) ++ (bl ++ r) = sign :: (b1 ++ '=' :: (b2 ++ '"' :: (b3 ++ (t ++ bl' ++ '"' :: (bl ++ r))))) := by simp [sign]
    rw [e0]
    have ne : ∀ {d : Char} {i}, '?' ≠ d → '!' ≠ d → ∀ c u, sign :: i = c :: u → c ≠ d := by
      intro d i h1 h2 c u e
      injection e with e _; subst e
      cases visible with
      | true => exact h1
      | false => exact h2
    refine ⟨?_, ne (by decide) (by decide), _, att (Runs.alts_some (pre := [.call .repeatBinding, .call .aliasBinding, .call .tagBinding, .call .attributeBinding, .call .callbackBinding]) hx ?_), ?_⟩
    · cases visible <;> exact solid_cons (by decide) (by decide)
    · simp only [List.mem_cons, List.not_mem_nil, or_false, forall_eq_or_imp, forall_eq]
      exact ⟨repeat_none (ne (by decide) (by decide)), alias_none (ne (by decide) (by decide)), tag_none (ne (by decide) (by decide)), attribute_none (ne (by decide) (by decide)), callback_none (ne (by decide) (by decide))⟩
    · cases visible <;> simp [readBinding, Pair.str, hb, sign]

/-! ## All bindings -/

theorem bindings_many {bs : List ElementBinding} {t : List Char} (h : Written.Bindings bs t) {c : Char} {r : List Char} (hc : c = '>' ∨ c = '/') :
    ∃ bl i ps, t ++ c :: r = bl ++ i ∧ Blanks bl ∧ Solid i ∧ (∀ d u, i = d :: u → d ≠ '=') ∧ Delimited (bl ++ i) ∧ Many H (.call .attribute) i ps (c :: r) ∧ readBindings ps = some bs := by
  induction h with
  | @nil bl h1 =>
    have hsol : Solid (c :: r) := by rcases hc with rfl | rfl <;> exact solid_cons (by decide) (by decide)
    refine ⟨bl, c :: r, [], rfl, h1.1, hsol, ?_, ?_, .nil ?_ (runs_gap0 hsol), rfl⟩
    · intro d u e; injection e with e _; subst e; rcases hc with rfl | rfl <;> decide
    · cases bl with
      | nil => intro d u e; injection e with e _; subst e; exact .inr hc
      | cons x bl => intro d u e; injection e with e _; subst e; exact .inl (h1.2 x bl rfl)
    · refine Runs.call_none (Runs.alts_none (l := [_, _, _, _, _, _, _, _, _]) ?_)
      simp only [List.mem_cons, List.not_mem_nil, or_false, forall_eq_or_imp, forall_eq]
      have ne : ∀ {d : Char}, '>' ≠ d → '/' ≠ d → ∀ x u, c :: r = x :: u → x ≠ d := by
        intro d h1 h2 x u e; injection e with e _; subst e; rcases hc with rfl | rfl <;> assumption
      have nn : Runs H .nonAtomic (.call .name) (c :: r) none := runs_name_none (by rcases hc with rfl | rfl <;> exact ends_cons (by decide))
      exact ⟨repeat_none (ne (by decide) (by decide)), alias_none (ne (by decide) (by decide)), tag_none (ne (by decide) (by decide)), attribute_none (ne (by decide) (by decide)),
        callback_none (ne (by decide) (by decide)), visibility_none (ne (by decide) (by decide)) (ne (by decide) (by decide)),
        Runs.call_none (Runs.seq_left nn), Runs.call_none (Runs.seq_left nn), Runs.call_none nn⟩
  | @cons b t bl bs u h1 h2 h3 h4 ih =>
    obtain ⟨bl', i', ps, e, hb', hs', he', hd', hm, hr⟩ := ih
    obtain ⟨hsol, heq, p, hp, hpb⟩ := runs_binding h3 hb' hs' he' hd'
    refine ⟨bl, t ++ (bl' ++ i'), [p] ++ ps, by simp [← e], h1.1, hsol, heq, ?_, .cons (.of hp (runs_gap hs' hb')) hm, ?_⟩
    · cases bl with
      | nil => exact absurd rfl h2
      | cons x bl => intro d u e; injection e with e _; subst e; exact .inl (h1.2 x bl rfl)
    · simp [readBindings, hpb, hr]

end Verif
