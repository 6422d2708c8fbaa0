import Verif.Peg.Derive
import Verif.Html.Reader
/-!
# Reading a template comes to an end and does not panic
-/
namespace Verif

theorem htmlSkip_plain : htmlGrammar.skip.plain = true := by decide

/-- The rules that may match the empty text. -/
def htmlNul : HtmlRule → Bool
  | .children | .attributes | .count | .value => true
  | _ => false

/-- A rule calls rules of lower rank before it takes a character. -/
def htmlRank : HtmlRule → Nat
  | .document => 9
  | .children => 8
  | .content => 7
  | .attributes => 6
  | .attribute => 5
  | .text => 4
  | .binder | .getter | .transformer | .visibilityBinding | .doubleQuoted | .unquoted | .empty => 3
  | .key | .tag | .string | .name | .value | .quotedString | .element | .void => 2
  | _ => 0

theorem htmlGrammar_tidy : htmlGrammar.Tidy htmlNul htmlRank 10 where
  steady := by intro r; cases r <;> decide
  guarded := by intro r; cases r <;> decide
  skipSteady := by decide
  skipGuarded := by decide
  nullable := by intro r; cases r <;> decide
  below_top := by intro r; cases r <;> decide

/-- A pair of a binder that can be read. -/
def BinderPair (p : Pair HtmlRule) : Prop := p.rule = .binder ∧ (readBinder p).isSome

theorem binderParts_some (ps : List (Pair HtmlRule)) (h : ∀ p ∈ ps, p.rule = .transformer) (acc : List String × List String) :
    ∃ pipe, binderParts ps acc = some (acc.1, pipe) := by
  induction ps generalizing acc with
  | nil => exact ⟨acc.2, rfl⟩
  | cons p ps ih =>
    obtain ⟨r, t, inner⟩ := p
    obtain rfl : r = .transformer := h _ List.mem_cons_self
    exact ih (fun p hp => h p (List.mem_cons_of_mem _ hp)) _

theorem derives_binder {a t ps} (h : Derives htmlGrammar a (.call .binder) t ps) : ∃ p, ps = [p] ∧ BinderPair p := by
  replace h := single_pair h rfl
  obtain ⟨inner, rfl, h⟩ := h
  refine ⟨_, rfl, rfl, ?_⟩
  replace h := derives_seq htmlSkip_plain h
  obtain ⟨_, _, _, _, _, h1, h, -, rfl⟩ := h
  replace h := derives_seq htmlSkip_plain h
  obtain ⟨_, _, _, _, _, h2, h, -, rfl⟩ := h
  replace h := derives_seq htmlSkip_plain h
  obtain ⟨_, _, _, _, _, h3, h4, -, rfl⟩ := h
  obtain rfl := word_pairs h1
  obtain rfl := word_pairs h4
  replace h2 := single_pair h2 rfl
  obtain ⟨keys, rfl, h2⟩ := h2
  replace h2 := derives_seq htmlSkip_plain h2
  obtain ⟨_, _, _, _, _, h5, -, -, rfl⟩ := h2
  replace h5 := single_pair h5 rfl
  obtain ⟨_, rfl, -⟩ := h5
  have ht := derives_star htmlSkip_plain (P := fun p => p.rule = .transformer) h3 (fun t ps h => by
    replace h := derives_seq htmlSkip_plain h
    obtain ⟨_, _, _, _, _, h1, h, -, rfl⟩ := h
    obtain rfl := word_pairs h1
    replace h := single_pair h rfl
    obtain ⟨_, rfl, -⟩ := h
    simp [Pair.rule])
  simp only [readBinder, Pair.inner, List.nil_append, List.cons_append, List.append_nil, binderParts]
  obtain ⟨pipe, hp⟩ := binderParts_some _ ht _
  rw [hp]
  rfl

theorem readSpans_some {static : HtmlRule} {ps : List (Pair HtmlRule)} (h : ∀ p ∈ ps, p.rule = static ∨ BinderPair p) : (readSpans static ps).isSome := by
  induction ps with
  | nil => rfl
  | cons p ps ih =>
    obtain ⟨l, hl⟩ := Option.isSome_iff_exists.1 (ih fun p hp => h p (List.mem_cons_of_mem _ hp))
    have : ∃ s, (if p.rule = static then some (TextSpan.string p.str) else if p.rule = .binder then (readBinder p).map TextSpan.binder else none) = some s := by
      split
      · exact ⟨_, rfl⟩
      · rename_i hne
        rcases h p List.mem_cons_self with h | ⟨h1, h2⟩
        · exact absurd h hne
        · rw [if_pos h1]
          obtain ⟨b, hb⟩ := Option.isSome_iff_exists.1 h2
          exact ⟨_, by rw [hb]; rfl⟩
    obtain ⟨s, hs⟩ := this
    rw [readSpans, hs, hl]
    rfl

theorem readArguments_some {ps : List (Pair HtmlRule)} (h : ∀ p ∈ ps, p.rule = .event ∨ BinderPair p ∨ p.rule = .key) : (readArguments ps).isSome := by
  induction ps with
  | nil => rfl
  | cons p ps ih =>
    obtain ⟨l, hl⟩ := Option.isSome_iff_exists.1 (ih fun p hp => h p (List.mem_cons_of_mem _ hp))
    rw [readArguments, hl]
    rcases h p List.mem_cons_self with h | ⟨h1, h2⟩ | h
    · rw [h]; rfl
    · obtain ⟨b, hb⟩ := Option.isSome_iff_exists.1 h2
      rw [h1, hb]; rfl
    · rw [h]; rfl

theorem seen_pair {a : Atomicity} {r : HtmlRule} {t ps} (h : Derives htmlGrammar a (.call r) t ps) (hs : (htmlKind r).seen a = true) : ∀ p ∈ ps, p.rule = r := by
  obtain ⟨_, rfl, -⟩ := single_pair h hs
  simp [Pair.rule]

theorem binding_named {r : HtmlRule} {sign : String} {last : List (Peg HtmlRule)} {x : Peg HtmlRule} {t ps}
    (h : Derives htmlGrammar .nonAtomic (Peg.seqs (Peg.word sign :: .call .key :: Peg.word "=" :: Peg.word "\"" :: x :: last)) t ps) :
    ∃ k t' qs, ps = k :: qs ∧ Derives htmlGrammar .nonAtomic (Peg.seqs (x :: last)) t' qs := by
  replace h := derives_seq htmlSkip_plain h
  obtain ⟨_, _, _, _, _, h1, h, -, rfl⟩ := h
  replace h := derives_seq htmlSkip_plain h
  obtain ⟨_, _, _, _, _, h2, h, -, rfl⟩ := h
  replace h := derives_seq htmlSkip_plain h
  obtain ⟨_, _, _, _, _, h3, h, -, rfl⟩ := h
  replace h := derives_seq htmlSkip_plain h
  obtain ⟨_, _, _, _, _, h4, h, -, rfl⟩ := h
  obtain rfl := word_pairs h1
  obtain rfl := word_pairs h3
  obtain rfl := word_pairs h4
  replace h2 := single_pair h2 rfl
  obtain ⟨_, rfl, -⟩ := h2
  exact ⟨_, _, _, rfl, h⟩

theorem last_quote {x : Peg HtmlRule} {t ps} (h : Derives htmlGrammar .nonAtomic (Peg.seqs [x, Peg.word "\""]) t ps) :
    ∃ t', Derives htmlGrammar .nonAtomic x t' ps := by
  replace h := derives_seq htmlSkip_plain h
  obtain ⟨_, _, _, _, _, h1, h, -, rfl⟩ := h
  obtain rfl := word_pairs h
  exact ⟨_, by simpa using h1⟩

theorem derives_attribute {t ps} (h : Derives htmlGrammar .nonAtomic (.call .attribute) t ps) : ∀ p ∈ ps, (readBinding p).isSome := by
  replace h := derives_call.1 h
  obtain ⟨qs, h, hps⟩ := h
  change Derives htmlGrammar .nonAtomic (htmlBody .attribute) t qs at h
  simp only [htmlBody, Peg.alts, derives_alt] at h
  change ps = qs at hps
  subst hps
  rcases h with h | h | h | h | h | h | h | h | h <;> (replace h := single_pair h rfl; obtain ⟨inner, rfl, h⟩ := h) <;>
    simp only [List.mem_cons, List.not_mem_nil, or_false, forall_eq]
  · replace h := binding_named (r := .repeatBinding) h
    obtain ⟨k, t', qs, rfl, h⟩ := h
    replace h := derives_seq htmlSkip_plain h
    obtain ⟨_, _, _, _, _, h1, h, -, rfl⟩ := h
    replace h1 := single_pair h1 rfl
    obtain ⟨_, rfl, -⟩ := h1
    replace h := last_quote h
    obtain ⟨_, h⟩ := h
    obtain ⟨p, rfl, -, hb⟩ := derives_binder h
    simpa [readBinding] using hb
  · replace h := binding_named (r := .aliasBinding) h
    obtain ⟨k, t', qs, rfl, h⟩ := h
    replace h := last_quote h
    obtain ⟨_, h⟩ := h
    obtain ⟨p, rfl, -, hb⟩ := derives_binder h
    simpa [readBinding] using hb
  · replace h := binding_named (r := .tagBinding) h
    obtain ⟨k, t', qs, rfl, h⟩ := h
    replace h := last_quote h
    obtain ⟨_, h⟩ := h
    obtain ⟨p, rfl, -, hb⟩ := derives_binder h
    simpa [readBinding] using hb
  · replace h := binding_named (r := .attributeBinding) h
    obtain ⟨k, t', qs, rfl, h⟩ := h
    replace h := last_quote h
    obtain ⟨_, h⟩ := h
    have := readSpans_some (static := .quotedString) (derives_plus htmlSkip_plain (P := fun p => p.rule = .quotedString ∨ BinderPair p) h (fun t ps h => by
      rcases derives_alt.1 h with h | h
      · obtain ⟨p, rfl, hb⟩ := derives_binder h
        simp [hb]
      · intro p hp; exact .inl (seen_pair h rfl p hp)))
    simpa [readBinding] using this
  · replace h := binding_named (r := .callbackBinding) h
    obtain ⟨k, t', qs, rfl, h⟩ := h
    replace h := last_quote h
    obtain ⟨_, h⟩ := h
    have := readArguments_some (derives_star htmlSkip_plain (P := fun p => p.rule = .event ∨ BinderPair p ∨ p.rule = .key) h (fun t ps h => by
      simp only [Peg.alts, derives_alt] at h
      rcases h with h | h | h
      · intro p hp; exact .inl (seen_pair h rfl p hp)
      · obtain ⟨p, rfl, hb⟩ := derives_binder h
        simp [hb]
      · intro p hp; exact .inr (.inr (seen_pair h rfl p hp))))
    simpa [readBinding] using this
  · replace h := derives_seq htmlSkip_plain h
    obtain ⟨_, _, _, _, _, h1, h, -, rfl⟩ := h
    replace h := derives_seq htmlSkip_plain h
    obtain ⟨_, _, _, _, _, h2, h, -, rfl⟩ := h
    replace h := derives_seq htmlSkip_plain h
    obtain ⟨_, _, _, _, _, h3, h, -, rfl⟩ := h
    replace h1 := single_pair h1 rfl
    obtain ⟨_, rfl, -⟩ := h1
    obtain rfl := word_pairs h2
    obtain rfl := word_pairs h3
    replace h := last_quote h
    obtain ⟨_, h⟩ := h
    obtain ⟨p, rfl, -, hb⟩ := derives_binder h
    simpa [readBinding] using hb
  · replace h := derives_seq htmlSkip_plain h
    obtain ⟨_, _, _, _, _, h1, h, -, rfl⟩ := h
    replace h := derives_seq htmlSkip_plain h
    obtain ⟨_, _, _, _, _, h2, h, -, rfl⟩ := h
    replace h := derives_seq htmlSkip_plain h
    obtain ⟨_, _, _, _, _, h3, h, -, rfl⟩ := h
    replace h1 := single_pair h1 rfl
    obtain ⟨_, rfl, -⟩ := h1
    obtain rfl := word_pairs h2
    obtain rfl := word_pairs h3
    replace h := last_quote h
    obtain ⟨_, h⟩ := h
    replace h := single_pair h rfl
    obtain ⟨_, rfl, -⟩ := h
    rfl
  · replace h := derives_seq htmlSkip_plain h
    obtain ⟨_, _, _, _, _, h1, h, -, rfl⟩ := h
    replace h := derives_seq htmlSkip_plain h
    obtain ⟨_, _, _, _, _, h2, h, -, rfl⟩ := h
    replace h1 := single_pair h1 rfl
    obtain ⟨_, rfl, -⟩ := h1
    obtain rfl := word_pairs h2
    replace h := single_pair h rfl
    obtain ⟨_, rfl, -⟩ := h
    rfl
  · replace h := single_pair h rfl
    obtain ⟨_, rfl, -⟩ := h
    rfl

theorem readBindings_some {ps : List (Pair HtmlRule)} (h : ∀ p ∈ ps, (readBinding p).isSome) : (readBindings ps).isSome := by
  induction ps with
  | nil => rfl
  | cons p ps ih =>
    obtain ⟨l, hl⟩ := Option.isSome_iff_exists.1 (ih fun p hp => h p (List.mem_cons_of_mem _ hp))
    obtain ⟨b, hb⟩ := Option.isSome_iff_exists.1 (h p List.mem_cons_self)
    rw [readBindings, hb, hl]
    rfl

theorem derives_attributes {t ps} (h : Derives htmlGrammar .nonAtomic (.call .attributes) t ps) : ∃ t inner, ps = [.mk .attributes t inner] ∧ (readBindings inner).isSome := by
  replace h := single_pair h rfl
  obtain ⟨inner, rfl, h⟩ := h
  exact ⟨_, _, rfl, readBindings_some (derives_star htmlSkip_plain h fun t ps h => derives_attribute h)⟩

theorem readContents_some {ps : List (Pair HtmlRule)} (h : ∀ p ∈ ps, ∀ isLast, (readContent isLast p).isSome) : (readContents ps).isSome := by
  induction ps with
  | nil => rfl
  | cons p ps ih =>
    obtain ⟨l, hl⟩ := Option.isSome_iff_exists.1 (ih fun p hp => h p (List.mem_cons_of_mem _ hp))
    obtain ⟨b, hb⟩ := Option.isSome_iff_exists.1 (h p List.mem_cons_self ps.isEmpty)
    rw [readContents, hb, hl]
    rfl

theorem derives_content (n : Nat) : ∀ (t : List Char) (ps : List (Pair HtmlRule)), t.length ≤ n → Derives htmlGrammar .nonAtomic (.call .content) t ps → ∃ p, ps = [p] ∧ ∀ isLast, (readContent isLast p).isSome := by
  induction n with
  | zero =>
    intro t ps hn h
    have := derives_nullable htmlGrammar_tidy.nullable h (List.length_eq_zero_iff.1 (by omega))
    cases this
  | succ n ih =>
    intro t ps hn h
    replace h := derives_call.1 h
    obtain ⟨qs, h, hps⟩ := h
    change Derives htmlGrammar .nonAtomic (htmlBody .content) t qs at h
    change ps = qs at hps
    subst hps
    simp only [htmlBody, Peg.alts, derives_alt] at h
    rcases h with h | h | h | h <;> (replace h := single_pair h rfl; obtain ⟨inner, rfl, h⟩ := h) <;> refine ⟨_, rfl, fun isLast => ?_⟩
    · rw [readContent]; rfl
    · replace h := derives_seq htmlSkip_plain h
      obtain ⟨_, _, _, _, _, h1, h, -, rfl⟩ := h
      replace h := derives_seq htmlSkip_plain h
      obtain ⟨_, _, _, _, _, h2, h, -, rfl⟩ := h
      replace h := derives_seq htmlSkip_plain h
      obtain ⟨_, _, _, _, _, h3, h, -, rfl⟩ := h
      obtain rfl := word_pairs h1
      replace h2 := single_pair h2 rfl
      obtain ⟨_, rfl, -⟩ := h2
      obtain ⟨_, _, rfl, hb⟩ := derives_attributes h3
      simp only [List.nil_append, List.cons_append, readContent]
      simpa using hb
    · have := readSpans_some (static := .string) (derives_plus htmlSkip_plain (P := fun p => p.rule = .string ∨ BinderPair p) h (fun t ps h => by
        rcases derives_alt.1 h with h | h
        · obtain ⟨p, rfl, hb⟩ := derives_binder h
          simp [hb]
        · intro p hp; exact .inl (seen_pair h rfl p hp)))
      rw [readContent]
      simpa using this
    · replace h := derives_seq htmlSkip_plain h
      obtain ⟨_, _, _, _, _, h1, h, e1, rfl⟩ := h
      replace h := derives_seq htmlSkip_plain h
      obtain ⟨_, _, _, _, _, h2, h, e2, rfl⟩ := h
      replace h := derives_seq htmlSkip_plain h
      obtain ⟨_, _, _, _, _, h3, h, e3, rfl⟩ := h
      replace h := derives_seq htmlSkip_plain h
      obtain ⟨_, _, _, _, _, h4, h, e4, rfl⟩ := h
      replace h := derives_seq htmlSkip_plain h
      obtain ⟨t5, _, _, _, _, h5, h, e5, rfl⟩ := h
      obtain ⟨-, rfl⟩ := derives_lit.1 h1
      obtain rfl := word_pairs h1
      obtain rfl := word_pairs h4
      replace h2 := single_pair h2 rfl
      obtain ⟨_, rfl, -⟩ := h2
      obtain ⟨_, _, rfl, hb⟩ := derives_attributes h3
      replace h5 := single_pair h5 rfl
      obtain ⟨children, rfl, h5⟩ := h5
      have hlen : t5.length ≤ n := by
        subst e5 e4 e3 e2 e1
        simp only [List.length_append] at hn
        have : ("<".toList).length = 1 := by decide
        omega
      obtain ⟨bs, hbs⟩ := Option.isSome_iff_exists.1 hb
      have hc : (readContents children).isSome := readContents_some (derives_children n ih h5 hlen)
      obtain ⟨cs, hcs⟩ := Option.isSome_iff_exists.1 hc
      simp only [List.nil_append, List.cons_append, readContent, hbs, hcs]
      rfl
where
  derives_children (n : Nat) (ih : ∀ (t : List Char) (ps : List (Pair HtmlRule)), t.length ≤ n → Derives htmlGrammar .nonAtomic (.call .content) t ps → ∃ p, ps = [p] ∧ ∀ isLast, (readContent isLast p).isSome)
      {t ps} (h : Derives htmlGrammar .nonAtomic (.star (.call .content)) t ps) (hn : t.length ≤ n) : ∀ p ∈ ps, ∀ isLast, (readContent isLast p).isSome := by
    have one : ∀ (t : List Char) (ps : List (Pair HtmlRule)), t.length ≤ n → Derives htmlGrammar .nonAtomic (.call .content) t ps → ∀ p ∈ ps, ∀ isLast, (readContent isLast p).isSome := by
      intro t ps hn h
      obtain ⟨p, rfl, hp⟩ := ih _ _ hn h
      simpa using hp
    have reps : ∀ {a x t ps}, Derives htmlGrammar a x t ps → a = .nonAtomic → x = .rep (.cat .gap (.call .content)) → t.length ≤ n → ∀ p ∈ ps, ∀ isLast, (readContent isLast p).isSome := by
      intro a x t ps h
      induction h with
      | repStop => simp
      | repStep h1 _ _ ih2 =>
        intro ha hx hn p hp
        subst ha
        injection hx with hx
        subst hx
        simp only [List.length_append] at hn
        rcases List.mem_append.1 hp with hp | hp
        · obtain ⟨u1, qs1, u2, qs2, k1, k2, rfl, rfl⟩ := derives_cat.1 h1
          obtain rfl := derives_gap htmlSkip_plain k1
          simp only [List.length_append] at hn
          exact one _ _ (by omega) k2 p (by simpa using hp)
        · exact ih2 rfl rfl (by omega) p hp
      | _ => intro _ hx; cases hx
    rcases derives_alt.1 h with h | h
    · obtain ⟨t1, ps1, t2, ps2, h1, h2, rfl, rfl⟩ := derives_cat.1 h
      simp only [List.length_append] at hn
      intro p hp
      rcases List.mem_append.1 hp with hp | hp
      · exact one _ _ (by omega) h1 p hp
      · exact reps h2 rfl rfl (by omega) p hp
    · obtain ⟨rfl, -⟩ := derives_eps.1 h
      simp

/-- Reading any text comes to an end, with a document or an error. -/
theorem readHtml_total (text : String) : ∃ r F, (∀ fuel ≥ F, readHtml fuel text = some r) ∧ r ≠ .error .panic := by
  obtain ⟨p, hp⟩ := runs_total htmlGrammar_tidy text.toList.length (.call .document) rfl .nonAtomic text.toList (Nat.le_refl _)
  obtain ⟨F, hF⟩ := hp.settles
  cases p with
  | none => exact ⟨.error .err, F, fun fuel hf => by rw [readHtml, Grammar.parse, hF fuel hf], by simp⟩
  | some p =>
    obtain ⟨ps, rest⟩ := p
    obtain ⟨t, -, h⟩ := hp.derives
    replace h := derives_call.1 h
    obtain ⟨qs, h, h'⟩ := h
    change ps = qs at h'
    subst h'
    replace h := derives_seq htmlSkip_plain h
    obtain ⟨_, _, _, _, _, h1, h, -, rfl⟩ := h
    replace h := derives_seq htmlSkip_plain h
    obtain ⟨_, _, _, _, _, h2, h3, -, rfl⟩ := h
    obtain ⟨rfl, -⟩ := derives_eps.1 h1
    obtain ⟨rfl, -⟩ := derives_eoi.1 h3
    replace h2 := derives_seq htmlSkip_plain h2
    obtain ⟨_, _, _, _, _, h4, -, -, rfl⟩ := h2
    obtain ⟨p, rfl, hq⟩ := derives_content _ _ _ (Nat.le_refl _) h4
    obtain ⟨html, hh⟩ := Option.isSome_iff_exists.1 (hq true)
    refine ⟨.ok html, F, fun fuel hf => ?_, by simp⟩
    rw [readHtml, Grammar.parse, hF fuel hf]
    simp only [List.nil_append, List.cons_append, hh]

end Verif
