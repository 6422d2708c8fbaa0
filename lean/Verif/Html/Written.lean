import Verif.Html.Bindings
/-!
# Written documents are read back
-/
namespace Verif
open Written

local notation "H" => htmlGrammar

/-! ## Texts -/

theorem spans_head {b : Binder} {l : List TextSpan} {u : List Char} (h : Spans (.binder b :: l) u) : ∃ v, u = '{' :: v := by
  cases h with
  | lastBinder h1 => obtain ⟨v, rfl⟩ := binder_head h1; exact ⟨_, rfl⟩
  | binder h1 _ => obtain ⟨v, rfl⟩ := binder_head h1; exact ⟨_, rfl⟩

theorem word_first {p : Char → Bool} {s : List Char} (h : IsWord p s) : ∃ c u, s = c :: u ∧ p c = true := by
  obtain ⟨hne, hall⟩ := h
  cases s with
  | nil => exact absurd rfl hne
  | cons c s => exact ⟨c, s, rfl, hall c List.mem_cons_self⟩

theorem spans_first {spans : List TextSpan} {t : List Char} (h : Spans spans t) : ∃ c u, t = c :: u ∧ c ≠ '<' := by
  have ht : ∀ {c : Char}, isTextChar c = true → c ≠ '<' := by rintro c h rfl; exact absurd h (by decide)
  cases h with
  | lastString h1 => obtain ⟨c, u, e, hc⟩ := word_first h1; exact ⟨c, u, e, ht hc⟩
  | lastBinder h1 => obtain ⟨v, rfl⟩ := binder_head h1; exact ⟨'{', v, rfl, by decide⟩
  | string h1 _ => obtain ⟨c, u, e, hc⟩ := word_first h1; rw [e]; exact ⟨c, _, rfl, ht hc⟩
  | binder h1 _ => obtain ⟨v, rfl⟩ := binder_head h1; exact ⟨'{', _, rfl, by decide⟩

/-- What may follow a text. -/
def TextEnd (r : List Char) : Prop := ∀ c u, r = c :: u → c = '<'

theorem TextEnd.ends {r : List Char} (h : TextEnd r) : Ends isTextChar r := fun c u e => by rw [h c u e]; decide
theorem TextEnd.brace {r : List Char} (h : TextEnd r) : ∀ c u, r = c :: u → c ≠ '{' := fun c u e => by rw [h c u e]; decide

theorem text_binder_none {s r : List Char} (h : IsWord isTextChar s) : Runs H .compound (.call .binder) (s ++ r) none := by
  refine runs_binder_none ?_
  rintro c u e rfl
  obtain ⟨hne, hall⟩ := h
  cases s with
  | nil => exact absurd rfl hne
  | cons d s => injection e with e _; subst e; exact absurd (hall _ List.mem_cons_self) (by decide)

theorem spans_many {spans : List TextSpan} {t : List Char} (h : Spans spans t) {r : List Char} (hr : TextEnd r) :
    ∃ ps, ManyIn H .compound (.alt (.call .binder) (.call .string)) (t ++ r) ps r ∧ readSpans .string ps = some spans := by
  have g : ∀ {i}, Runs H .compound .gap i (some ([], i)) := .gap_off (by decide)
  have fin : ManyIn H .compound (.alt (.call .binder) (.call .string)) r [] r := .nil (.alt_right (runs_binder_none hr.brace) (runs_string_none hr.ends)) g
  have str : ∀ {s r : List Char}, IsWord isTextChar s → Ends isTextChar r → Takes H (.alt (.call .binder) (.call .string)) (s ++ r) [.mk .string s []] r .compound :=
    fun h1 h2 => .of (.alt_right (text_binder_none h1) (runs_string h1 h2)) g
  induction h with
  | @lastString s h1 =>
    refine ⟨_, .cons (str h1 hr.ends) fin, ?_⟩
    simp [readSpans, Pair.rule, Pair.str]
  | @lastBinder b t h1 =>
    obtain ⟨p, hp, hpr, hb⟩ := runs_binder h1 r .compound
    refine ⟨_, .cons (.of (.alt_left hp) g) fin, ?_⟩
    simp [readSpans, hpr, hb]
  | @string s b l u h1 h3 ih =>
    obtain ⟨ps, i1, i2⟩ := ih
    have hend : Ends isTextChar (u ++ r) := by
      obtain ⟨v, rfl⟩ := spans_head h3; exact ends_cons (by decide)
    rw [List.append_assoc]
    refine ⟨_, .cons (str h1 hend) i1, ?_⟩
    simp [readSpans, i2, Pair.rule, Pair.str]
  | @binder b t l u h1 h3 ih =>
    obtain ⟨ps, i1, i2⟩ := ih
    obtain ⟨p', hp', hpr, hb⟩ := runs_binder h1 (u ++ r) .compound
    rw [List.append_assoc]
    refine ⟨_, .cons (.of (.alt_left hp') g) i1, ?_⟩
    simp [readSpans, i2, hpr, hb]

theorem spans_ne {spans : List TextSpan} {t : List Char} (h : Spans spans t) : spans ≠ [] := by cases h <;> simp

theorem runs_text {spans : List TextSpan} {t : List Char} (h : Spans spans t) {r : List Char} (hr : TextEnd r) :
    ∃ x ps, Runs H .nonAtomic (.call .text) (t ++ r) (some ([.mk .text x ps], r)) ∧ readSpans .string ps = some spans := by
  obtain ⟨ps, hm, h4⟩ := spans_many h hr
  have hplus : Takes H (htmlBody .text) (t ++ r) ps r .compound := by
    generalize hi : t ++ r = i at hm
    cases hm with
    | nil _ _ => exact absurd (by simpa [readSpans] using h4.symm) (spans_ne h)
    | cons h5 h6 => exact ManyIn.plus h5 h6
  obtain ⟨m, h5, h6⟩ := hplus
  have := h6.unique (Runs.gap_off (by decide))
  injection this with this
  injection this with _ this
  subst this
  obtain ⟨x, hx⟩ := Runs.call_pair (g := htmlGrammar) (a := .nonAtomic) (r := HtmlRule.text) rfl h5
  exact ⟨x, _, hx, h4⟩

/-! ## Tags -/

theorem lower_tag {c : Char} (h : isTagChar c = false) : isAlpha (lowerAscii c) = false := by
  unfold lowerAscii
  split
  · rename_i hc
    simp [isTagChar, isAlpha, hc.1, hc.2] at h
  · simp only [isTagChar, Bool.or_eq_false_iff] at h
    exact h.1.1

theorem voidNames_alpha : ∀ name ∈ voidNames, ∀ c ∈ name, isAlpha c = true ∧ lowerAscii c = c := by decide

theorem strip_insensitive {s : List Char} : ∀ {i r : List Char}, stripInsensitive s i = some r → ∃ t, i = t ++ r ∧ t.map lowerAscii = s.map lowerAscii := by
  induction s with
  | nil => intro i r h; simp only [stripInsensitive, Option.some.injEq] at h; subst h; exact ⟨[], rfl, rfl⟩
  | cons c s ih =>
    intro i r h
    cases i with
    | nil => simp [stripInsensitive] at h
    | cons d i =>
      simp only [stripInsensitive] at h
      split at h
      · rename_i hcd
        obtain ⟨t, rfl, ht⟩ := ih h
        exact ⟨d :: t, rfl, by simp [ht, hcd]⟩
      · cases h

theorem insensitive_strip {s : List Char} : ∀ {t r : List Char}, t.map lowerAscii = s.map lowerAscii → stripInsensitive s (t ++ r) = some r := by
  induction s with
  | nil => intro t r h; simp at h; subst h; rfl
  | cons c s ih =>
    intro t r h
    cases t with
    | nil => simp at h
    | cons d t =>
      simp only [List.map_cons, List.cons.injEq] at h
      simp [stripInsensitive, h.1, ih h.2]

/-- A void tag name found at the start of a word is the start of that word. -/
theorem void_prefix {name tag r t u : List Char} (hn : name ∈ voidNames) (hr : Ends isTagChar r) (e : tag ++ r = t ++ u) (ht : t.map lowerAscii = name.map lowerAscii) :
    name <+: tag.map lowerAscii := by
  have hlow : name.map lowerAscii = name := by
    conv_rhs => rw [← List.map_id name]
    exact List.map_congr_left fun c hc => (voidNames_alpha name hn c hc).2
  rw [hlow] at ht
  rcases List.append_eq_append_iff.1 e with ⟨as, e1, e2⟩ | ⟨bs, e1, _⟩
  · cases as with
    | nil => rw [List.append_nil] at e1; rw [← ht, e1]; exact List.prefix_rfl
    | cons c as =>
      exfalso
      have h1 := lower_tag (hr c _ e2)
      have : lowerAscii c ∈ name := by rw [← ht, e1]; simp
      rw [(voidNames_alpha name hn _ this).1] at h1; cases h1
  · rw [e1, ← ht, List.map_append]; exact ⟨_, rfl⟩

theorem voidTag_none {i : List Char} (h : ∀ name ∈ voidNames, ∀ t u, i = t ++ u → t.map lowerAscii ≠ name.map lowerAscii) : Runs H .nonAtomic (.call .voidTag) i none := by
  have one : ∀ name ∈ voidNames, Runs H .nonAtomic (.ilit name) i none := by
    intro name hn
    refine Runs.ilit_not ?_
    cases hs : stripInsensitive name i with
    | none => rfl
    | some r =>
      obtain ⟨t, e, ht⟩ := strip_insensitive hs
      exact absurd ht (h name hn t r e)
  refine Runs.call_none (Runs.alts_none (l := voidNames.map Peg.ilit) ?_)
  intro x hx
  obtain ⟨name, hn, rfl⟩ := List.mem_map.1 hx
  exact one name hn

theorem voidNames_apart : ∀ a ∈ voidNames, ∀ b ∈ voidNames, a <+: b → a = b := by decide

theorem runs_voidTag {tag r : List Char} (h : VoidTag tag) : Runs H .nonAtomic (.call .voidTag) (tag ++ r) (some ([.mk .voidTag tag []], r)) := by
  refine Runs.call_seen rfl ?_
  obtain ⟨pre, post, e⟩ := List.append_of_mem h
  have hb : htmlGrammar.body .voidTag = Peg.alts (pre.map Peg.ilit ++ Peg.ilit (tag.map lowerAscii) :: post.map Peg.ilit) := by
    change Peg.alts (voidNames.map Peg.ilit) = _
    rw [e]; simp
  rw [hb]
  have hlow : ∀ name ∈ voidNames, name.map lowerAscii = name := fun name hn => by
    conv_rhs => rw [← List.map_id name]
    exact List.map_congr_left fun c hc => (voidNames_alpha name hn c hc).2
  have hlt : (tag.map lowerAscii).map lowerAscii = tag.map lowerAscii := hlow _ h
  refine Runs.alts_some (.ilit (insensitive_strip hlt.symm)) ?_
  intro x hx
  obtain ⟨name, hn, rfl⟩ := List.mem_map.1 hx
  have hmem : name ∈ voidNames := by rw [e]; exact List.mem_append_left _ hn
  have hne : name ≠ tag.map lowerAscii := by
    rintro rfl
    have : voidNames.Nodup := by decide
    rw [e, List.nodup_append] at this
    exact this.2.2 _ hn _ List.mem_cons_self rfl
  refine Runs.ilit_not ?_
  cases hs : stripInsensitive name (tag ++ r) with
  | none => rfl
  | some u =>
    exfalso
    obtain ⟨t, e1, ht⟩ := strip_insensitive hs
    rw [hlow _ hmem] at ht
    rcases List.append_eq_append_iff.1 e1 with ⟨as, e2, _⟩ | ⟨bs, e2, _⟩
    · exact hne (voidNames_apart _ h _ hmem ⟨as.map lowerAscii, by rw [← ht, e2, List.map_append]⟩).symm
    · exact hne (voidNames_apart _ hmem _ h ⟨bs.map lowerAscii, by rw [← ht, e2, List.map_append]⟩)

theorem tag_solid {tag r : List Char} (h : IsWord isTagChar tag) : Solid (tag ++ r) :=
  key_solid ⟨h.1, fun c hc => by have := h.2 c hc; simp only [isTagChar, isKeyChar, Bool.or_eq_true] at *; tauto⟩

theorem lower_alpha {c : Char} (h : isAlpha (lowerAscii c) = true) : isTagChar c = true := by
  cases ht : isTagChar c with
  | true => rfl
  | false => rw [lower_tag ht] at h; cases h

theorem void_word {tag : List Char} (h : VoidTag tag) : IsWord isTagChar tag := by
  refine ⟨?_, fun c hc => lower_alpha (voidNames_alpha _ h _ (List.mem_map_of_mem hc)).1⟩
  rintro rfl
  exact absurd h (by unfold VoidTag; decide)

theorem script_none {tag r : List Char} (ht : IsWord isTagChar tag) (hr : Ends isTagChar r) (hne : tag ≠ "script".toList) : Runs H .nonAtomic (.call .script) ('<' :: (tag ++ r)) none := by
  refine Runs.call_none (Runs.seq_left (.lit_not ?_))
  rintro ⟨u, e⟩
  have e' : "script".toList ++ '>' :: u = tag ++ r := by injection e
  rcases List.append_eq_append_iff.1 e' with ⟨as, e1, e2⟩ | ⟨bs, e1, e2⟩
  · cases as with
    | nil => exact hne (by simpa using e1)
    | cons c as =>
      injection e2 with e3 _
      subst e3
      exact absurd (ht.2 '>' (by rw [e1]; simp)) (by decide)
  · cases bs with
    | nil => exact hne (by simpa using e1.symm)
    | cons c bs =>
      have h1 := hr c _ e2
      have : c ∈ "script".toList := by rw [e1]; simp
      revert h1
      change c ∈ ['s', 'c', 'r', 'i', 'p', 't'] at this
      simp only [List.mem_cons, List.not_mem_nil, or_false] at this
      rcases this with rfl | rfl | rfl | rfl | rfl | rfl <;> decide

/-! ## Contents -/

theorem content_none {c : Char} {r : List Char} (h : c = '/') : Runs H .nonAtomic (.call .content) ('<' :: c :: r) none := by
  subst h
  have hs : Solid ('/' :: r) := solid_cons (by decide) (by decide)
  refine Runs.call_none (Runs.alts_none (l := [_, _, _, _]) ?_)
  simp only [List.mem_cons, List.not_mem_nil, or_false, forall_eq_or_imp, forall_eq]
  refine ⟨Runs.call_none (Runs.seq_left (.lit_not ?_)), Runs.call_none ((Takes.of (runs_word1 rfl) (runs_gap0 hs)).seq_none (Runs.seq_left (voidTag_none ?_))), Runs.call_none (Runs.seq_left (.alt_right (runs_binder_none (by simp)) (runs_string_none (ends_cons (by decide))))),
    Runs.call_none ((Takes.of (runs_word1 rfl) (runs_gap0 hs)).seq_none (Runs.seq_left (runs_tag_none (ends_cons (by decide)))))⟩
  · rintro ⟨u, e⟩
    injection e with _ e
    injection e with e _
    exact absurd e (by decide)
  · intro name hn t u e ht
    have := void_prefix (tag := []) (r := '/' :: r) hn (ends_cons (by decide)) (by simpa using e) ht
    have hnil : name = [] := by simpa using this
    subst hnil
    exact absurd hn (by decide)

theorem content_nil : Runs H .nonAtomic (.call .content) [] none := by
  refine Runs.call_none (Runs.alts_none (l := [_, _, _, _]) ?_)
  simp only [List.mem_cons, List.not_mem_nil, or_false, forall_eq_or_imp, forall_eq]
  exact ⟨Runs.call_none (Runs.seq_left (.lit_not (by rintro ⟨u, e⟩; cases e))), Runs.call_none (Runs.seq_left (runs_word1_none (d := '<') rfl (by simp))),
    Runs.call_none (Runs.seq_left (.alt_right (runs_binder_none (by simp)) (runs_string_none ends_nil))), Runs.call_none (Runs.seq_left (runs_word1_none (d := '<') rfl (by simp)))⟩

theorem lt_solid {c : Char} {r : List Char} (h : c ≠ '!') : Solid ('<' :: c :: r) := by
  refine ⟨fun d u e => by injection e with e _; subst e; decide, ?_⟩
  rintro ⟨u, e⟩
  injection e with _ e
  injection e with e _
  exact h e.symm

theorem tag_lt_solid {tag r : List Char} (h : IsWord isTagChar tag) : Solid ('<' :: (tag ++ r)) := by
  obtain ⟨hne, hall⟩ := h
  cases tag with
  | nil => exact absurd rfl hne
  | cons c t => exact lt_solid (by rintro rfl; exact absurd (hall '!' List.mem_cons_self) (by decide))

theorem text_none {r : List Char} : Runs H .nonAtomic (.call .text) ('<' :: r) none :=
  Runs.call_none (Runs.seq_left (.alt_right (runs_binder_none (by simp)) (runs_string_none (ends_cons (by decide)))))

/-- `<tag bindings` up to `>` or `/`. -/
theorem runs_opening {x : Peg HtmlRule} {rule : HtmlRule} {tag t r : List Char} {c : Char} {bs : List ElementBinding} (hw : IsWord isTagChar tag)
    (hx : ∀ r, Ends isTagChar r → Runs H .nonAtomic x (tag ++ r) (some ([.mk rule tag []], r))) (hbs : Written.Bindings bs t) (hc : c = '>' ∨ c = '/') {y : Peg HtmlRule} {ps r'}
    (hy : Runs H .nonAtomic y (c :: r) (some (ps, r'))) :
    (∃ txt as, Runs H .nonAtomic (.seq (Peg.word "<") (.seq x (.seq (.call .attributes) y))) ('<' :: (tag ++ (t ++ c :: r))) (some (.mk rule tag [] :: .mk .attributes txt as :: ps, r')) ∧ readBindings as = some bs) ∧
      Ends isTagChar (t ++ c :: r) := by
  obtain ⟨bl, i, as, e, h1, h2, h3, h4, h5, h6⟩ := bindings_many hbs (r := r) hc
  rw [e]
  refine ⟨?_, h4.tag⟩
  obtain ⟨txt, ha⟩ := Takes.call (r := HtmlRule.attributes) rfl rfl h5.star
  refine ⟨txt, as, ?_, h6⟩
  have a1 : Takes H (Peg.word "<") ('<' :: (tag ++ (bl ++ i))) [] (tag ++ (bl ++ i)) := .of (runs_word1 rfl) (runs_gap0 (tag_solid hw))
  have a2 : Takes H x (tag ++ (bl ++ i)) [.mk rule tag []] i := .of (hx _ h4.tag) (runs_gap h2 h1)
  have := a1.seq_runs (a2.seq_runs (ha.seq_runs hy))
  simpa using this

theorem script_many {r : List Char} : ∀ {c : List Char}, ¬ "</script>".toList <:+: c → ¬ "<!--".toList <:+: c →
    ∃ b i, c ++ ("</script>".toList ++ r) = b ++ i ∧ Blanks b ∧ Solid i ∧ Many H (.seq (.neg (Peg.word "</script>")) Peg.any) i [] ("</script>".toList ++ r) := by
  have hs : Solid ("</script>".toList ++ r) := lt_solid (c := '/') (by decide)
  intro c
  induction c with
  | nil => intro _ _; exact ⟨[], _, rfl, .nil, hs, .nil (Runs.seq_left (.neg_not .lit)) (runs_gap0 hs)⟩
  | cons d c ih =>
    intro h1 h2
    obtain ⟨b, i, e, hb, hi, hm⟩ := ih (not_prefix_of_infix h1 rfl) (not_prefix_of_infix h2 rfl)
    cases hd : isBlank d with
    | true => exact ⟨d :: b, i, by rw [List.cons_append, e]; rfl, .space hd hb, hi, hm⟩
    | false =>
      have hsol : Solid (d :: (c ++ ("</script>".toList ++ r))) := by
        refine ⟨fun x u e => by injection e with e _; subst e; exact hd, ?_⟩
        intro ⟨u, e2⟩
        have e3 : "<!--".toList ++ u = (d :: c) ++ ("</script>".toList ++ r) := e2
        rcases List.append_eq_append_iff.1 e3 with ⟨as, e4, _⟩ | ⟨bs, e4, e5⟩
        · exact h2 ⟨[], as, by simpa using e4.symm⟩
        · cases bs with
          | nil => rw [List.append_nil] at e4; exact h2 ⟨[], [], by simpa using e4⟩
          | cons x bs =>
            have hx : x = '<' := by injection e5 with e5 _; exact e5.symm
            subst hx
            have e6 : ['!', '-', '-'] = c ++ '<' :: bs := by injection e4
            have : '<' ∈ ['!', '-', '-'] := by rw [e6]; simp
            exact absurd this (by decide)
      refine ⟨[], d :: (c ++ ("</script>".toList ++ r)), rfl, .nil, hsol, ?_⟩
      have a1 : Runs H .nonAtomic (.seq (.neg (Peg.word "</script>")) Peg.any) (d :: (c ++ ("</script>".toList ++ r))) (some ([], c ++ ("</script>".toList ++ r))) := by
        refine Runs.seq (ps := []) (.neg (.lit_not ?_)) (runs_gap0 hsol) (.chr rfl)
        exact no_overlap (s := "</script".toList) (x := '>') (by decide) (rest := r) h1 [] (d :: c) rfl (by simp)
      rw [e] at a1 ⊢
      exact .cons (ps := []) (.of a1 (runs_gap hi hb)) hm

theorem runs_script {c r : List Char} (h1 : ¬ "</script>".toList <:+: c) (h2 : ¬ "<!--".toList <:+: c) :
    ∃ x, Runs H .nonAtomic (.call .script) ("<script>".toList ++ (c ++ ("</script>".toList ++ r))) (some ([.mk .script x []], r)) := by
  obtain ⟨b, i, e, hb, hi, hm⟩ := script_many (r := r) h1 h2
  rw [e]
  have a1 : Takes H (Peg.word "<script>") ("<script>".toList ++ (b ++ i)) [] i := .of .lit (runs_gap hi hb)
  exact Runs.call_pair rfl (a1.seq_runs (hm.star.seq_runs .lit))

theorem content_element {i r : List Char} {p : Pair HtmlRule} (h1 : Runs H .nonAtomic (.call .script) i none) (h2 : Runs H .nonAtomic (.call .void) i none)
    (h3 : Runs H .nonAtomic (.call .text) i none) (h4 : Runs H .nonAtomic (.call .element) i (some ([p], r))) : Runs H .nonAtomic (.call .content) i (some ([p], r)) :=
  Runs.call_hidden rfl (.alt_right h1 (.alt_right h2 (.alt_right h3 h4)))

theorem void_none {tag r : List Char} (hw : IsWord isTagChar tag) (hv : ¬ VoidPrefix tag) (hr : Ends isTagChar r) : Runs H .nonAtomic (.call .void) ('<' :: (tag ++ r)) none := by
  refine Runs.call_none ((Takes.of (runs_word1 rfl) (runs_gap0 (tag_solid hw))).seq_none (Runs.seq_left (voidTag_none ?_)))
  intro name hn t u e ht
  exact hv ⟨name, hn, void_prefix hn hr e ht⟩

mutual
theorem runs_content {isLast : Bool} {c : Html} {t : List Char} (h : Content isLast c t) {r : List Char} (hr : c.text.isSome → TextEnd r) :
    Solid (t ++ r) ∧ ∃ p, Runs H .nonAtomic (.call .content) (t ++ r) (some ([p], r)) ∧ readContent isLast p = some c := by
  cases h with
  | @script _ s h1 h2 =>
    refine ⟨lt_solid (c := 's') (by decide), ?_⟩
    obtain ⟨x, hx⟩ := runs_script (r := r) h1 h2
    refine ⟨_, Runs.call_hidden rfl (.alt_left (by rw [List.append_assoc, List.append_assoc]; exact hx)), ?_⟩
    simp [readContent]
  | @void _ tag bs t e h1 h2 h3 =>
    have hw := void_word h1
    have hgt : Solid ('>' :: r) := solid_cons (by decide) (by decide)
    obtain ⟨c, v, e1, hc, hy⟩ : ∃ c v, e ++ r = c :: v ∧ (c = '>' ∨ c = '/') ∧ Runs H .nonAtomic (.seq (.opt (Peg.word "/")) (Peg.word ">")) (c :: v) (some ([], r)) := by
      cases h3 with
      | plain => exact ⟨'>', r, rfl, .inl rfl, Runs.seq (ps := []) (.opt_none (runs_word1_none (d := '/') rfl (by simp))) (runs_gap0 hgt) (runs_word1 rfl)⟩
      | @slash bl hb => exact ⟨'/', bl ++ '>' :: r, by simp, .inr rfl, Runs.seq (ps := []) (.opt_some (runs_word1 rfl)) (runs_gap hgt hb) (runs_word1 rfl)⟩
    obtain ⟨⟨atxt, as, hrun, has⟩, hend⟩ := runs_opening hw (rule := .voidTag) (fun r _ => runs_voidTag h1) h2 hc hy
    obtain ⟨x, hx⟩ := Runs.call_pair (g := htmlGrammar) (a := .nonAtomic) (r := HtmlRule.void) rfl hrun
    have e0 : '<' :: (tag.toList ++ t ++ e) ++ r = '<' :: (tag.toList ++ (t ++ c :: v)) := by rw [← e1]; simp
    rw [e0]
    refine ⟨tag_lt_solid hw, _, Runs.call_hidden rfl (.alt_right (script_none hw hend ?_) (.alt_left hx)), ?_⟩
    · intro e; rw [e] at h1; exact absurd h1 (by unfold VoidTag; decide)
    · simp [readContent, has]
  | @text _ spans t h1 h2 =>
    have hte := hr rfl
    obtain ⟨x, ps, hx, hsp⟩ := runs_text h1 hte
    obtain ⟨d, w, rfl, hd⟩ := spans_first h1
    have hlt : ∀ c u, d :: w ++ r = c :: u → c ≠ '<' := by
      intro c u e; injection e with e _; subst e; exact hd
    refine ⟨solid_cons (h2.1 d w rfl) hd, ?_⟩
    refine ⟨_, Runs.call_hidden rfl (.alt_right (Runs.call_none (Runs.seq_left (Runs.lit_ne (d := '<') (s := "script>".toList) hlt)))
      (.alt_right (Runs.call_none (Runs.seq_left (runs_word1_none rfl hlt))) (.alt_left hx))), ?_⟩
    simp [readContent, hsp]
  | @element _ tag bs cs t u bl h1 h2 h3 h4 h5 h6 =>
    obtain ⟨bl', i, ps, e, hb', hi, hm, hcs, _⟩ := contents_many h5 (r := tag.toList ++ (bl ++ '>' :: r))
    have hgt : Solid ('>' :: r) := solid_cons (by decide) (by decide)
    have ctag : Ends isTagChar (bl ++ '>' :: r) := by
      refine blanks_ends (fun c hc => ?_) (by decide) h6 (ends_cons (by decide))
      have := key_ends_blank c hc
      simp only [isKeyChar, isTagChar, Bool.or_eq_false_iff] at *
      tauto
    obtain ⟨txt, hch⟩ := Takes.call (r := HtmlRule.children) rfl rfl hm.star
    have a0 : Takes H (Peg.word ">") ('>' :: (bl' ++ i)) [] i := .of (runs_word1 rfl) (runs_gap hi hb')
    have a2 : Takes H (Peg.word "<") ('<' :: '/' :: (tag.toList ++ (bl ++ '>' :: r))) [] ('/' :: (tag.toList ++ (bl ++ '>' :: r))) := .of (runs_word1 rfl) (runs_gap0 (solid_cons (by decide) (by decide)))
    have a3 : Takes H (Peg.word "/") ('/' :: (tag.toList ++ (bl ++ '>' :: r))) [] (tag.toList ++ (bl ++ '>' :: r)) := .of (runs_word1 rfl) (runs_gap0 (tag_solid h1))
    have a4 : Takes H (.call .tag) (tag.toList ++ (bl ++ '>' :: r)) [.mk .tag tag.toList []] ('>' :: r) := .of (runs_tag h1 ctag) (runs_gap hgt h6)
    have hy := a0.seq_runs (hch.seq_runs (a2.seq_runs (a3.seq_runs (a4.seq_runs (runs_word1 (s := ">") (d := '>') rfl)))))
    obtain ⟨⟨atxt, as, hrun, has⟩, hend⟩ := runs_opening h1 (rule := .tag) (fun r hr => runs_tag h1 hr) h4 (.inl rfl) hy
    obtain ⟨x, hx⟩ := Runs.call_pair (g := htmlGrammar) (a := .nonAtomic) (r := HtmlRule.element) rfl hrun
    have e0 : '<' :: (tag.toList ++ t ++ '>' :: (u ++ '<' :: '/' :: (tag.toList ++ bl ++ ['>']))) ++ r = '<' :: (tag.toList ++ (t ++ '>' :: (bl' ++ i))) := by
      rw [← e]; simp
    rw [e0]
    refine ⟨tag_lt_solid h1, _, content_element (script_none h1 hend ?_) (void_none h1 h2 hend) text_none hx, ?_⟩
    · intro e; exact h3 (by rw [← String.ofList_toList (s := tag), e]; rfl)
    · simp [readContent, has, hcs]
theorem contents_many {cs : List Html} {u : List Char} (h : Contents cs u) {r : List Char} :
    ∃ bl i ps, u ++ '<' :: '/' :: r = bl ++ i ∧ Blanks bl ∧ Solid i ∧ Many H (.call .content) i ps ('<' :: '/' :: r) ∧ readContents ps = some cs ∧ ps.isEmpty = cs.isEmpty := by
  have hs : Solid ('<' :: '/' :: r) := lt_solid (by decide)
  cases h with
  | nil h1 => exact ⟨u, _, [], rfl, h1, hs, .nil (content_none rfl) (runs_gap0 hs), by simp [readContents], rfl⟩
  | @cons c t cs u b0 h1 h2 h3 h4 =>
    obtain ⟨bl', i, ps, e, hb', hi, hm, hcs, hemp⟩ := contents_many h3 (r := r)
    have hte : c.text.isSome → TextEnd (bl' ++ i) := by
      intro hc d v ev
      rw [← e] at ev
      cases u with
      | nil => injection ev with ev _; exact ev.symm
      | cons x u => injection ev with ev _; subst ev; exact h4 hc x u rfl
    obtain ⟨hsol, p, hp, hread⟩ := runs_content h2 hte
    refine ⟨b0, t ++ (bl' ++ i), [p] ++ ps, by simp [← e], h1, hsol, .cons (.of hp (runs_gap hi hb')) hm, ?_, rfl⟩
    rw [← hemp] at hread
    simp [readContents, hread, hcs]
end

/-- Every way of writing a document is read as that document. -/
theorem readHtml_written {html : Html} {t : List Char} (h : Document html t) : ∃ F, ∀ fuel, F ≤ fuel → readHtml fuel (String.ofList t) = some (.ok html) := by
  cases h with
  | @mk b1 t b2 h1 h2 h3 h4 =>
    have hte : html.text.isSome → TextEnd (b2 ++ []) := by
      intro hc d v e
      rw [List.append_nil] at e
      exact h4 hc d v e
    obtain ⟨hsol, p, hp, hread⟩ := runs_content h2 hte
    have fin : Many H (.call .content) [] [] [] := .nil content_nil (runs_gap0 solid_nil)
    have a0 : Takes H .eps (b1 ++ (t ++ (b2 ++ []))) [] (t ++ (b2 ++ [])) := .of .eps (runs_gap hsol h1)
    have a1 : Takes H (.call .content) (t ++ (b2 ++ [])) [p] [] := .of hp (runs_gap solid_nil h3)
    have hrun := a0.seq_runs ((ManyIn.plus a1 fin).seq_runs Runs.eoi)
    have hdoc : Runs H .nonAtomic (.call .document) (b1 ++ (t ++ (b2 ++ []))) (some ([p], [])) := Runs.call_hidden rfl hrun
    obtain ⟨F, hF⟩ := hdoc.settles
    refine ⟨F, fun fuel hf => ?_⟩
    have e : (String.ofList (b1 ++ t ++ b2)).toList = b1 ++ (t ++ (b2 ++ [])) := by simp
    rw [readHtml, Grammar.parse, e, hF fuel hf]
    simp [hread]

end Verif
