import Verif.Peg.Derive
import Verif.Peg.Takes
import Verif.Css.Reader
/-!
# Reading a stylesheet comes to an end and does not panic
-/
namespace Verif

local notation "S" => cssGrammar

theorem cssSkip_plain : cssGrammar.skip.plain = true := by decide

/-- The rules that may match the empty text. -/
def cssNul : CssRule → Bool
  | .styleSheet | .rules | .keyframes | .selectors | .complex | .declarations | .stringLiteral => true
  | _ => false

/-- A rule calls rules of lower rank before it takes a character. -/
def cssRank : CssRule → Nat
  | .styleSheet => 9
  | .rules => 8
  | .rule => 7
  | .style => 6
  | .selectors | .values => 5
  | .complex | .keyframes | .shorthand => 4
  | .compound | .keyframe | .declarations | .value => 3
  | .simple | .step | .declaration | .explicit => 2
  | .type | .percentage | .property | .function | .time | .dimension => 1
  | _ => 0

theorem cssGrammar_tidy : cssGrammar.Tidy cssNul cssRank 10 where
  steady := by intro r; cases r <;> decide
  guarded := by intro r; cases r <;> decide
  skipSteady := by decide
  skipGuarded := by decide
  nullable := by intro r; cases r <;> decide
  below_top := by intro r; cases r <;> decide

/-! ## Values -/

theorem derives_explicit {t ps} (h : Derives S .compound (.call .explicit) t ps) : ∃ p, ps = [p] ∧ (readValue p).isSome := by
  replace h := single_pair h rfl
  obtain ⟨inner, rfl, h⟩ := h
  refine ⟨_, rfl, ?_⟩
  change Derives S .compound (cssBody .explicit) t inner at h
  simp only [cssBody, Peg.alts, derives_alt] at h
  rcases h with h | h | h | h | h | h | h | h <;> (replace h := single_pair h rfl; obtain ⟨inner, rfl, h⟩ := h) <;> rw [readValue]
  · rfl
  · rfl
  · replace h := derives_seq cssSkip_plain h
    obtain ⟨_, _, _, _, _, h1, -, -, rfl⟩ := h
    replace h1 := single_pair h1 rfl
    obtain ⟨_, rfl, -⟩ := h1
    rfl
  · replace h := derives_seq cssSkip_plain h
    obtain ⟨_, _, _, u, _, h1, h2, -, rfl⟩ := h
    replace h1 := single_pair h1 rfl
    obtain ⟨_, rfl, -⟩ := h1
    replace h2 := single_pair h2 rfl
    obtain ⟨_, rfl, h2⟩ := h2
    replace h2 := derives_alt.1 h2
    have : u = "ms".toList ∨ u = "s".toList := by
      rcases h2 with h | h
      · exact .inl (derives_lit.1 h).2
      · exact .inr (derives_lit.1 h).2
    rcases this with rfl | rfl <;> simp [readExplicit, Pair.str]
  · replace h := derives_seq cssSkip_plain h
    obtain ⟨_, _, _, u, _, h1, h2, -, rfl⟩ := h
    replace h1 := single_pair h1 rfl
    obtain ⟨_, rfl, -⟩ := h1
    replace h2 := single_pair h2 rfl
    obtain ⟨_, rfl, h2⟩ := h2
    rfl
  · rfl
  · rfl
  · replace h := derives_seq cssSkip_plain h
    obtain ⟨_, _, _, _, _, h1, h, -, rfl⟩ := h
    replace h := derives_seq cssSkip_plain h
    obtain ⟨_, _, _, _, _, h2, h3, -, rfl⟩ := h
    obtain rfl := word_pairs h1
    replace h2 := single_pair h2 rfl
    obtain ⟨_, rfl, -⟩ := h2
    rfl

theorem readValues_some {ps : List (Pair CssRule)} (h : ∀ p ∈ ps, (readValue p).isSome) : (readValues ps).isSome := by
  induction ps with
  | nil => rfl
  | cons p ps ih =>
    obtain ⟨l, hl⟩ := Option.isSome_iff_exists.1 (ih fun p hp => h p (List.mem_cons_of_mem _ hp))
    obtain ⟨b, hb⟩ := Option.isSome_iff_exists.1 (h p List.mem_cons_self)
    rw [readValues, hb, hl]
    rfl

theorem derives_value (n : Nat) : ∀ (t : List Char) (ps : List (Pair CssRule)), t.length ≤ n → Derives S .compound (.call .value) t ps → ∃ p, ps = [p] ∧ (readValue p).isSome := by
  induction n with
  | zero =>
    intro t ps hn h
    have := derives_nullable cssGrammar_tidy.nullable h (List.length_eq_zero_iff.1 (by omega))
    cases this
  | succ n ih =>
    intro t ps hn h
    replace h := derives_call.1 h
    obtain ⟨qs, h, hps⟩ := h
    change Derives S .compound (cssBody .value) t qs at h
    change ps = qs at hps
    subst hps
    simp only [cssBody, Peg.alts, derives_alt] at h
    rcases h with h | h | h
    · replace h := single_pair h rfl
      obtain ⟨inner, rfl, h⟩ := h
      refine ⟨_, rfl, ?_⟩
      replace h := derives_seq cssSkip_plain h
      obtain ⟨_, _, _, _, _, h1, h, -, rfl⟩ := h
      replace h := derives_seq cssSkip_plain h
      obtain ⟨_, _, _, _, _, h2, h, -, rfl⟩ := h
      replace h := derives_seq cssSkip_plain h
      obtain ⟨_, _, _, _, _, h3, h, -, rfl⟩ := h
      obtain rfl := word_pairs h1
      obtain rfl := word_pairs h2
      replace h3 := single_pair h3 rfl
      obtain ⟨_, rfl, -⟩ := h3
      simp only [List.nil_append, List.cons_append, readValue]
      rfl
    · replace h := single_pair h rfl
      obtain ⟨inner, rfl, h⟩ := h
      refine ⟨_, rfl, ?_⟩
      replace h := derives_alt.1 h
      rcases h with h | h
      · replace h := derives_seq cssSkip_plain h
        obtain ⟨_, _, _, _, _, h1, h, -, rfl⟩ := h
        replace h := derives_seq cssSkip_plain h
        obtain ⟨_, _, _, _, _, h2, h, -, rfl⟩ := h
        replace h1 := single_pair h1 rfl
        obtain ⟨_, rfl, -⟩ := h1
        obtain rfl := word_pairs h2
        obtain rfl := word_pairs h
        simp [readValue, readValues]
      · replace h := derives_seq cssSkip_plain h
        obtain ⟨_, _, _, _, _, h1, h, e1, rfl⟩ := h
        replace h := derives_seq cssSkip_plain h
        obtain ⟨_, _, _, _, _, h2, h, e2, rfl⟩ := h
        replace h := derives_seq cssSkip_plain h
        obtain ⟨_, _, _, _, _, h3, h, e3, rfl⟩ := h
        replace h := derives_seq cssSkip_plain h
        obtain ⟨_, _, _, _, _, h4, h5, e4, rfl⟩ := h
        replace h1 := single_pair h1 rfl
        obtain ⟨_, rfl, -⟩ := h1
        have el := (derives_lit.1 h2).2
        obtain rfl := word_pairs h2
        obtain rfl := word_pairs h5
        have hlen := congrArg List.length el
        have : ("(".toList).length = 1 := by decide
        rw [this] at hlen
        subst e4 e3 e2 e1
        simp only [List.length_append] at hn
        obtain ⟨p, rfl, hp⟩ := ih _ _ (by omega) h3
        have h6 := derives_star_len cssSkip_plain (P := fun p => (readValue p).isSome) h4 (fun t' ps' hl h => by
          replace h := derives_seq cssSkip_plain h
          obtain ⟨_, _, _, _, _, k1, h, f1, rfl⟩ := h
          replace h := derives_seq cssSkip_plain h
          obtain ⟨_, _, _, _, _, k2, h, f2, rfl⟩ := h
          obtain rfl := word_pairs k1
          subst f2 f1
          simp only [List.length_append] at hl
          obtain ⟨p, rfl, hp⟩ := ih _ _ (by omega) h
          have k3 := derives_star cssSkip_plain (P := fun _ => False) k2 (fun t ps h => by rw [(derives_chr.1 h).1]; simp)
          intro q hq
          simp only [List.nil_append, List.mem_append, List.mem_singleton] at hq
          rcases hq with hq | rfl
          · exact absurd hq (k3 q)
          · exact hp)
        have h7 := readValues_some (ps := p :: _) (by
          intro q hq
          rcases List.mem_cons.1 hq with rfl | hq
          · exact hp
          · exact h6 q hq)
        simpa [readValue] using h7
    · exact derives_explicit h

theorem readShorthands_some {ps : List (Pair CssRule)} (h : ∀ p ∈ ps, (readValues p.inner).isSome) : (readShorthands ps).isSome := by
  induction ps with
  | nil => rfl
  | cons p ps ih =>
    obtain ⟨l, hl⟩ := Option.isSome_iff_exists.1 (ih fun p hp => h p (List.mem_cons_of_mem _ hp))
    obtain ⟨b, hb⟩ := Option.isSome_iff_exists.1 (h p List.mem_cons_self)
    rw [readShorthands, hb, hl]
    rfl

theorem derives_shorthand {t ps} (h : Derives S .nonAtomic (.call .shorthand) t ps) : ∃ p, ps = [p] ∧ (readValues p.inner).isSome := by
  replace h := single_pair h rfl
  obtain ⟨inner, rfl, h⟩ := h
  refine ⟨_, rfl, readValues_some ?_⟩
  have one : ∀ {t : List Char} {ps}, Derives S .compound (.call .value) t ps → ∀ p ∈ ps, (readValue p).isSome := by
    intro t ps h
    obtain ⟨p, rfl, hp⟩ := derives_value _ _ _ (Nat.le_refl _) h
    simpa using hp
  replace h := derives_seq cssSkip_plain h
  obtain ⟨_, _, _, _, _, h1, h2, -, rfl⟩ := h
  intro p hp
  rcases List.mem_append.1 hp with hp | hp
  · exact one h1 p hp
  · refine derives_star cssSkip_plain (P := fun p => (readValue p).isSome) h2 (fun t ps h => ?_) p hp
    replace h := derives_seq cssSkip_plain h
    obtain ⟨_, _, _, _, _, h1, h2, -, rfl⟩ := h
    obtain ⟨rfl, -⟩ := derives_chr.1 h1
    exact one h2

theorem derives_values {t ps} (h : Derives S .nonAtomic (.call .values) t ps) : ∃ p q l, ps = [p] ∧ p.inner = q :: l ∧ (readShorthands p.inner).isSome := by
  replace h := single_pair h rfl
  obtain ⟨inner, rfl, h⟩ := h
  replace h := derives_seq cssSkip_plain h
  obtain ⟨_, _, _, _, _, h1, h2, -, rfl⟩ := h
  obtain ⟨p, rfl, hp⟩ := derives_shorthand h1
  refine ⟨_, _, _, rfl, rfl, readShorthands_some (ps := p :: _) ?_⟩
  intro q hq
  rcases List.mem_cons.1 hq with rfl | hq
  · exact hp
  · refine derives_star cssSkip_plain (P := fun p => (readValues p.inner).isSome) h2 (fun t ps h => ?_) q hq
    replace h := derives_seq cssSkip_plain h
    obtain ⟨_, _, _, _, _, h1, h2, -, rfl⟩ := h
    obtain rfl := word_pairs h1
    obtain ⟨p, rfl, hp⟩ := derives_shorthand h2
    simpa using hp

/-! ## Declarations -/

theorem derives_declaration {t ps} (h : Derives S .nonAtomic (.call .declaration) t ps) : ∃ p, ps = [p] ∧ (readDeclaration p).isSome := by
  replace h := single_pair h rfl
  obtain ⟨inner, rfl, h⟩ := h
  refine ⟨_, rfl, ?_⟩
  replace h := derives_seq cssSkip_plain h
  obtain ⟨_, _, _, _, _, h1, h, -, rfl⟩ := h
  replace h := derives_seq cssSkip_plain h
  obtain ⟨_, _, _, _, _, h2, h, -, rfl⟩ := h
  replace h := derives_seq cssSkip_plain h
  obtain ⟨_, _, _, _, _, h3, h4, -, rfl⟩ := h
  replace h1 := single_pair h1 rfl
  obtain ⟨_, rfl, -⟩ := h1
  obtain rfl := word_pairs h2
  obtain ⟨p, q, l, rfl, hq, hp⟩ := derives_values h3
  obtain ⟨vs, hvs⟩ := Option.isSome_iff_exists.1 hp
  simp only [List.nil_append, List.cons_append, readDeclaration, hvs]
  split
  · rw [hq, readShorthands] at hvs
    split at hvs
    · cases hvs; rfl
    · cases hvs
  · split <;> rfl

theorem readDeclarations_some {ps : List (Pair CssRule)} (h : ∀ p ∈ ps, (readDeclaration p).isSome) : (readDeclarations ps).isSome := by
  induction ps with
  | nil => rfl
  | cons p ps ih =>
    obtain ⟨l, hl⟩ := Option.isSome_iff_exists.1 (ih fun p hp => h p (List.mem_cons_of_mem _ hp))
    obtain ⟨b, hb⟩ := Option.isSome_iff_exists.1 (h p List.mem_cons_self)
    rw [readDeclarations, hb, hl]
    rfl

theorem derives_declarations {t ps} (h : Derives S .nonAtomic (.call .declarations) t ps) : ∃ p, ps = [p] ∧ (readDeclarations p.inner).isSome := by
  replace h := single_pair h rfl
  obtain ⟨inner, rfl, h⟩ := h
  refine ⟨_, rfl, readDeclarations_some (derives_star cssSkip_plain h fun t ps h => ?_)⟩
  obtain ⟨p, rfl, hp⟩ := derives_declaration h
  simpa using hp

theorem derives_block {t ps} (h : Derives S .nonAtomic (.call .declarationBlock) t ps) : ∃ p, ps = [p] ∧ (readBlock p).isSome := by
  replace h := single_pair h rfl
  obtain ⟨inner, rfl, h⟩ := h
  refine ⟨_, rfl, ?_⟩
  replace h := derives_seq cssSkip_plain h
  obtain ⟨_, _, _, _, _, h1, h, -, rfl⟩ := h
  replace h := derives_seq cssSkip_plain h
  obtain ⟨_, _, _, _, _, h2, h3, -, rfl⟩ := h
  obtain rfl := word_pairs h1
  obtain ⟨p, rfl, hp⟩ := derives_declarations h2
  simpa [readBlock, Pair.inner] using hp

/-! ## Selectors -/

theorem derives_seq_text {a x y t ps} (ha : a ≠ .nonAtomic) (h : Derives S a (.seq x y) t ps) :
    ∃ t1 ps1 t2 ps2, Derives S a x t1 ps1 ∧ Derives S a y t2 ps2 ∧ t = t1 ++ t2 ∧ ps = ps1 ++ ps2 := by
  obtain ⟨t1, ps1, t2, ps2, h1, h2, rfl, rfl⟩ := derives_cat.1 h
  obtain ⟨w, qs, t3, ps3, h3, h4, rfl, rfl⟩ := derives_cat.1 h2
  cases h3 with
  | gap => exact absurd rfl ha
  | gapOff => exact ⟨t1, ps1, t3, ps3, h1, h4, rfl, rfl⟩

theorem derives_matcher {t ps} (h : Derives S .compound (.call .matcher) t ps) : ∃ p, ps = [p] ∧ (readMatcher p.str).isSome := by
  replace h := single_pair h rfl
  obtain ⟨inner, rfl, h⟩ := h
  refine ⟨_, rfl, ?_⟩
  replace h := derives_seq_text (by decide) h
  obtain ⟨t1, _, t2, _, h1, h2, rfl, -⟩ := h
  obtain ⟨-, rfl⟩ := derives_lit.1 h2
  have : t1 = "~".toList ∨ t1 = "|".toList ∨ t1 = "^".toList ∨ t1 = "$".toList ∨ t1 = "*".toList ∨ t1 = [] := by
    simp only [Peg.opt, Peg.alts, derives_alt, Peg.word, derives_lit, derives_eps] at h1
    grind
  rcases this with rfl | rfl | rfl | rfl | rfl | rfl <;> simp [Pair.str, readMatcher] <;> decide

theorem derives_simple {t ps} (h : Derives S .compound (.call .simple) t ps) : ∃ p, ps = [p] ∧ (readSimple p).isSome := by
  replace h := derives_call.1 h
  obtain ⟨qs, h, hps⟩ := h
  change Derives S .compound (cssBody .simple) t qs at h
  change ps = qs at hps
  subst hps
  simp only [cssBody, Peg.alts, derives_alt] at h
  rcases h with h | h | h | h | h | h | h | h <;> (replace h := single_pair h rfl; obtain ⟨inner, rfl, h⟩ := h) <;> refine ⟨_, rfl, ?_⟩ <;> try rfl
  replace h := derives_alt.1 h
  rcases h with h | h
  · replace h := derives_seq cssSkip_plain h
    obtain ⟨_, _, _, _, _, h1, h, -, rfl⟩ := h
    replace h := derives_seq cssSkip_plain h
    obtain ⟨_, _, _, _, _, h2, h3, -, rfl⟩ := h
    obtain rfl := word_pairs h1
    obtain rfl := word_pairs h3
    replace h2 := single_pair h2 rfl
    obtain ⟨_, rfl, -⟩ := h2
    rfl
  · replace h := derives_seq cssSkip_plain h
    obtain ⟨_, _, _, _, _, h1, h, -, rfl⟩ := h
    replace h := derives_seq cssSkip_plain h
    obtain ⟨_, _, _, _, _, h2, h, -, rfl⟩ := h
    replace h := derives_seq cssSkip_plain h
    obtain ⟨_, _, _, _, _, h3, h, -, rfl⟩ := h
    replace h := derives_seq cssSkip_plain h
    obtain ⟨_, _, _, _, _, h4, h, -, rfl⟩ := h
    obtain rfl := word_pairs h1
    replace h2 := single_pair h2 rfl
    obtain ⟨_, rfl, -⟩ := h2
    obtain ⟨m, rfl, hm⟩ := derives_matcher h3
    obtain ⟨x, hx⟩ := Option.isSome_iff_exists.1 hm
    replace h4 := derives_alt.1 h4
    rcases h4 with h4 | h4
    · replace h4 := single_pair h4 rfl
      obtain ⟨_, rfl, h4⟩ := h4
      replace h4 := derives_seq cssSkip_plain h4
      obtain ⟨_, _, _, _, _, k1, h4, -, rfl⟩ := h4
      replace h4 := derives_seq cssSkip_plain h4
      obtain ⟨_, _, _, _, _, k2, k3, -, rfl⟩ := h4
      obtain rfl := word_pairs k1
      replace k2 := single_pair k2 rfl
      obtain ⟨_, rfl, -⟩ := k2
      simp [readSimple, readSearch, hx]
    · replace h4 := single_pair h4 rfl
      obtain ⟨_, rfl, h4⟩ := h4
      simp [readSimple, readSearch, hx]

theorem readSimples_some {ps : List (Pair CssRule)} (h : ∀ p ∈ ps, (readSimple p).isSome) : (readSimples ps).isSome := by
  induction ps with
  | nil => rfl
  | cons p ps ih =>
    obtain ⟨l, hl⟩ := Option.isSome_iff_exists.1 (ih fun p hp => h p (List.mem_cons_of_mem _ hp))
    obtain ⟨b, hb⟩ := Option.isSome_iff_exists.1 (h p List.mem_cons_self)
    rw [readSimples, hb, hl]
    rfl

/-- A component of a complex selector that can be read. -/
def Component (p : Pair CssRule) : Prop :=
  (∃ t inner, p = .mk .compound t inner ∧ (readSimples inner).isSome) ∨ ∃ c t inner, p = .mk .combinator (c :: t) inner

theorem derives_component {t ps} (h : Derives S .nonAtomic (.seq (.opt (.call .combinator)) (.call .compound)) t ps) : ∀ p ∈ ps, Component p := by
  replace h := derives_seq cssSkip_plain h
  obtain ⟨_, _, _, _, _, h1, h2, -, rfl⟩ := h
  intro p hp
  rcases List.mem_append.1 hp with hp | hp
  · replace h1 := derives_alt.1 h1
    rcases h1 with h1 | h1
    · replace h1 := single_pair h1 rfl
      obtain ⟨_, rfl, h1⟩ := h1
      simp only [List.mem_singleton] at hp
      subst hp
      change Derives S .nonAtomic (cssBody .combinator) _ _ at h1
      simp only [cssBody, Peg.alts, derives_alt, Peg.word, derives_lit] at h1
      rcases h1 with ⟨-, rfl⟩ | ⟨-, rfl⟩ | ⟨-, rfl⟩ <;> exact .inr ⟨_, [], _, rfl⟩
    · obtain ⟨rfl, -⟩ := derives_eps.1 h1
      cases hp
  · replace h2 := single_pair h2 rfl
    obtain ⟨_, rfl, h2⟩ := h2
    simp only [List.mem_singleton] at hp
    subst hp
    refine .inl ⟨_, _, rfl, readSimples_some (derives_plus cssSkip_plain h2 fun t ps h => ?_)⟩
    obtain ⟨p, rfl, hp⟩ := derives_simple h
    simpa using hp

theorem readComponents_some {ps : List (Pair CssRule)} (h : ∀ p ∈ ps, Component p) : ∀ acc, (readComponents ps acc).isSome := by
  induction ps with
  | nil => intro acc; rfl
  | cons p ps ih =>
    intro acc
    have ih := ih fun p hp => h p (List.mem_cons_of_mem _ hp)
    rcases h p List.mem_cons_self with ⟨t, inner, rfl, hi⟩ | ⟨c, t, inner, rfl⟩
    · obtain ⟨l, hl⟩ := Option.isSome_iff_exists.1 hi
      simp only [readComponents, hl]
      exact ih _
    · exact ih _

theorem derives_complex {t ps} (h : Derives S .nonAtomic (.call .complex) t ps) : ∃ p, ps = [p] ∧ (readComponents p.inner []).isSome := by
  replace h := single_pair h rfl
  obtain ⟨_, rfl, h⟩ := h
  exact ⟨_, rfl, readComponents_some (derives_star cssSkip_plain h fun t ps h => derives_component h) []⟩

theorem readSelectors_some {ps : List (Pair CssRule)} (h : ∀ p ∈ ps, (readComponents p.inner []).isSome) : (readSelectors ps).isSome := by
  induction ps with
  | nil => rfl
  | cons p ps ih =>
    obtain ⟨l, hl⟩ := Option.isSome_iff_exists.1 (ih fun p hp => h p (List.mem_cons_of_mem _ hp))
    obtain ⟨b, hb⟩ := Option.isSome_iff_exists.1 (h p List.mem_cons_self)
    rw [readSelectors, hb, hl]
    rfl

theorem derives_selectors {t ps} (h : Derives S .nonAtomic (.call .selectors) t ps) : ∃ p, ps = [p] ∧ (readSelectors p.inner).isSome := by
  replace h := single_pair h rfl
  obtain ⟨_, rfl, h⟩ := h
  refine ⟨_, rfl, readSelectors_some ?_⟩
  replace h := derives_seq cssSkip_plain h
  obtain ⟨_, _, _, _, _, h1, h2, -, rfl⟩ := h
  intro p hp
  rcases List.mem_append.1 hp with hp | hp
  · obtain ⟨q, rfl, hq⟩ := derives_complex h1
    simp only [List.mem_singleton] at hp
    exact hp ▸ hq
  · refine derives_star cssSkip_plain (P := fun p => (readComponents p.inner []).isSome) h2 (fun t ps h => ?_) p hp
    replace h := derives_seq cssSkip_plain h
    obtain ⟨_, _, _, _, _, h1, h2, -, rfl⟩ := h
    obtain rfl := word_pairs h1
    obtain ⟨q, rfl, hq⟩ := derives_complex h2
    simpa using hq

/-! ## Rules -/

theorem derives_style {t ps} (h : Derives S .nonAtomic (.call .style) t ps) : ∃ p, ps = [p] ∧ (readRule p).isSome := by
  replace h := single_pair h rfl
  obtain ⟨_, rfl, h⟩ := h
  refine ⟨_, rfl, ?_⟩
  replace h := derives_seq cssSkip_plain h
  obtain ⟨_, _, _, _, _, h1, h2, -, rfl⟩ := h
  obtain ⟨p, rfl, hp⟩ := derives_selectors h1
  obtain ⟨q, rfl, hq⟩ := derives_block h2
  obtain ⟨cs, hcs⟩ := Option.isSome_iff_exists.1 hp
  obtain ⟨ds, hds⟩ := Option.isSome_iff_exists.1 hq
  simp [readRule, hcs, hds]

/-- A keyframe that can be read. -/
def FramePair (p : Pair CssRule) : Prop := ∃ r t s b l, p = .mk r t (s :: b :: l) ∧ (readStep s).isSome ∧ (readBlock b).isSome

theorem derives_keyframe {t ps} (h : Derives S .nonAtomic (.call .keyframe) t ps) : ∀ p ∈ ps, FramePair p := by
  replace h := single_pair h rfl
  obtain ⟨_, rfl, h⟩ := h
  replace h := derives_seq cssSkip_plain h
  obtain ⟨_, _, _, _, _, h1, h2, -, rfl⟩ := h
  obtain ⟨q, rfl, hq⟩ := derives_block h2
  replace h1 := derives_call.1 h1
  obtain ⟨qs, h, hps⟩ := h1
  change Derives S .nonAtomic (cssBody .step) _ qs at h
  change _ = qs at hps
  subst hps
  intro p hp
  simp only [List.mem_singleton] at hp
  subst hp
  replace h := derives_alt.1 h
  rcases h with h | h
  · replace h := single_pair h rfl
    obtain ⟨_, rfl, -⟩ := h
    exact ⟨_, _, _, _, _, rfl, rfl, hq⟩
  · replace h := single_pair h rfl
    obtain ⟨_, rfl, h⟩ := h
    replace h := derives_seq cssSkip_plain h
    obtain ⟨_, _, _, _, _, h1, h2, -, rfl⟩ := h
    replace h1 := single_pair h1 rfl
    obtain ⟨_, rfl, -⟩ := h1
    exact ⟨_, _, _, _, _, rfl, rfl, hq⟩

theorem readKeyframes_some {ps : List (Pair CssRule)} (h : ∀ p ∈ ps, FramePair p) : (readKeyframes ps).isSome := by
  induction ps with
  | nil => rfl
  | cons p ps ih =>
    obtain ⟨l, hl⟩ := Option.isSome_iff_exists.1 (ih fun p hp => h p (List.mem_cons_of_mem _ hp))
    obtain ⟨r, t, s, b, l', rfl, hs, hb⟩ := h p List.mem_cons_self
    obtain ⟨s', hs⟩ := Option.isSome_iff_exists.1 hs
    obtain ⟨b', hb⟩ := Option.isSome_iff_exists.1 hb
    rw [readKeyframes, hs, hb, hl]
    rfl

theorem derives_animation {t ps} (h : Derives S .nonAtomic (.call .animation) t ps) : ∃ p, ps = [p] ∧ (readRule p).isSome := by
  replace h := single_pair h rfl
  obtain ⟨_, rfl, h⟩ := h
  refine ⟨_, rfl, ?_⟩
  replace h := derives_seq cssSkip_plain h
  obtain ⟨_, _, _, _, _, h1, h, -, rfl⟩ := h
  replace h := derives_seq cssSkip_plain h
  obtain ⟨_, _, _, _, _, h2, h, -, rfl⟩ := h
  replace h := derives_seq cssSkip_plain h
  obtain ⟨_, _, _, _, _, h3, h, -, rfl⟩ := h
  replace h := derives_seq cssSkip_plain h
  obtain ⟨_, _, _, _, _, h4, h5, -, rfl⟩ := h
  obtain rfl := word_pairs h1
  obtain rfl := word_pairs h3
  obtain rfl := word_pairs h5
  replace h2 := single_pair h2 rfl
  obtain ⟨_, rfl, -⟩ := h2
  replace h4 := derives_call.1 h4
  obtain ⟨qs, h4, hps⟩ := h4
  change _ = qs at hps
  subst hps
  have := readKeyframes_some (derives_star cssSkip_plain h4 fun t ps h => derives_keyframe h)
  simpa [readRule] using this

theorem derives_rule {t ps} (h : Derives S .nonAtomic (.call .rule) t ps) : ∀ p ∈ ps, (readRule p).isSome := by
  replace h := derives_call.1 h
  obtain ⟨qs, h, hps⟩ := h
  change ps = qs at hps
  subst hps
  rcases derives_alt.1 h with h | h
  · obtain ⟨p, rfl, hp⟩ := derives_animation h
    simpa using hp
  · obtain ⟨p, rfl, hp⟩ := derives_style h
    simpa using hp

theorem readRules_some {ps : List (Pair CssRule)} (h : ∀ p ∈ ps, (readRule p).isSome) : ∀ css, (readRules ps css).isSome := by
  induction ps with
  | nil => intro css; rfl
  | cons p ps ih =>
    intro css
    have ih := ih fun p hp => h p (List.mem_cons_of_mem _ hp)
    obtain ⟨x, hx⟩ := Option.isSome_iff_exists.1 (h p List.mem_cons_self)
    rw [readRules, hx]
    cases x <;> exact ih _

/-- Reading any text as a stylesheet comes to an end, with a stylesheet or an error. -/
theorem readCss_total (text : String) : ∃ r F, (∀ fuel ≥ F, readCss fuel text = some r) ∧ r ≠ .error .panic := by
  obtain ⟨p, hp⟩ := runs_total cssGrammar_tidy text.toList.length (.call .styleSheet) rfl .nonAtomic text.toList (Nat.le_refl _)
  obtain ⟨F, hF⟩ := hp.settles
  cases p with
  | none => exact ⟨.error .err, F, fun fuel hf => by rw [readCss, Grammar.parse, hF fuel hf], by simp⟩
  | some p =>
    obtain ⟨ps, rest⟩ := p
    obtain ⟨t, -, h⟩ := hp.derives
    replace h := derives_call.1 h
    obtain ⟨qs, h, h'⟩ := h
    change ps = qs at h'
    subst h'
    replace h := derives_seq cssSkip_plain h
    obtain ⟨_, _, _, _, _, h1, h, -, rfl⟩ := h
    replace h := derives_seq cssSkip_plain h
    obtain ⟨_, _, _, _, _, h2, h3, -, rfl⟩ := h
    obtain ⟨rfl, -⟩ := derives_eps.1 h1
    obtain ⟨rfl, -⟩ := derives_eoi.1 h3
    replace h2 := single_pair h2 rfl
    obtain ⟨inner, rfl, h2⟩ := h2
    obtain ⟨css, hcss⟩ := Option.isSome_iff_exists.1 (readRules_some (derives_star cssSkip_plain h2 fun t ps h => derives_rule h) ⟨[], fun _ => none⟩)
    refine ⟨.ok css, F, fun fuel hf => ?_, by simp⟩
    rw [readCss, Grammar.parse, hF fuel hf]
    simp only [List.nil_append, List.cons_append, Pair.inner, hcss]

/-- Reading any text as the declarations of an element comes to an end, with declarations: the grammar never refuses. -/
theorem readInline_total (text : String) : ∃ ds F, ∀ fuel ≥ F, readInline fuel text = some (.ok ds) := by
  obtain ⟨p, hp⟩ := runs_total cssGrammar_tidy text.toList.length (.call .declarations) rfl .nonAtomic text.toList (Nat.le_refl _)
  obtain ⟨F, hF⟩ := hp.settles
  obtain ⟨q, hq⟩ := runs_total cssGrammar_tidy text.toList.length (.cat (.call .declaration) (.rep (.cat .gap (.call .declaration)))) rfl .nonAtomic text.toList (Nat.le_refl _)
  have hs : ∃ x, Runs S .nonAtomic (.star (.call .declaration)) text.toList (some x) := by
    cases q with
    | some q => exact ⟨_, .opt_some hq⟩
    | none => exact ⟨_, .opt_none hq⟩
  obtain ⟨⟨qs, r⟩, hs⟩ := hs
  obtain ⟨t, hc⟩ := Runs.call_pair (g := S) (a := .nonAtomic) (r := .declarations) rfl hs
  obtain rfl := hp.unique hc
  obtain ⟨_, -, h⟩ := hp.derives
  obtain ⟨p, e, hd⟩ := derives_declarations h
  injection e with e _
  subst e
  obtain ⟨ds, hds⟩ := Option.isSome_iff_exists.1 hd
  exact ⟨ds, F, fun fuel hf => by rw [readInline, Grammar.parse, hF fuel hf]; simp only [hds]⟩

end Verif
