import Verif.Css.Selectors
/-!
# Stylesheets, read back
-/
namespace Verif.Sheet
open Written (IsWord isKeyChar)

local notation "S" => cssGrammar

/-! ## Keyframes -/

/-- A word of letters where blanks are skipped. -/
theorem runs_keyword_skip {k : String} (h : IsWord isLetter k.toList) (hl : 2 ≤ k.toList.length) (hd : k.toList.head? ≠ some '-') {b r : List Char} (hb : Blanks b) (hs : Solid r) (hr : Ends isLetter r) :
    Runs S .nonAtomic (.call .keyword) (k.toList ++ (b ++ r)) (some ([.mk .keyword k.toList []], b ++ r)) := by
  have hsol : Solid (k.toList ++ (b ++ r)) := word_solid letter_plain h
  have zero : Runs S .nonAtomic (.opt (Peg.word "-")) (k.toList ++ (b ++ r)) (some ([], k.toList ++ (b ++ r))) := by
    refine .opt_none (runs_word1_none (d := '-') rfl ?_)
    obtain ⟨c, u, e, -⟩ := word_cons h
    rw [e] at hd ⊢
    rintro c' u' e' rfl
    injection e' with e' _
    exact hd (by rw [e']; rfl)
  exact Runs.call_seen rfl (zero.seq (runs_gap0 hsol) (zero.seq (runs_gap0 hsol) ((letter_class _).plus_skip letter_plain h hb hs hr (.inl hl))))

theorem keyword_skip_none {i : List Char} (hs : Solid i) (h : Ends isLetter i) : Runs S .nonAtomic (.call .keyword) i none := by
  have zero : Runs S .nonAtomic (.opt (Peg.word "-")) i (some ([], i)) := .opt_none (runs_word1_none (d := '-') rfl (ends_ne h (by decide)))
  exact Runs.call_none (zero.seq_right (runs_gap0 hs) (zero.seq_right (runs_gap0 hs) ((letter_class _).plus_none h)))

theorem toU32_small {v : Rat} (h : v.floor.toNat < 2 ^ 32) : toU32 v = v.floor.toNat := by unfold toU32; omega

theorem runs_step {n : Nat} {t : List Char} (h : Step n t) {b r : List Char} (hb : Blanks b) (hs : Solid r) (hr : Ends isLetter r) :
    ∃ p, Takes S (.call .step) (t ++ (b ++ r)) [p] r ∧ readStep p = some n := by
  cases h with
  | «from» =>
    have := runs_keyword_skip (k := "from") ⟨by decide, by decide⟩ (by decide) (by decide) hb hs hr
    exact ⟨_, .of (Runs.call_hidden rfl (Runs.alt_left this)) (runs_gap hs hb), by decide⟩
  | «to» =>
    have := runs_keyword_skip (k := "to") ⟨by decide, by decide⟩ (by decide) (by decide) hb hs hr
    exact ⟨_, .of (Runs.call_hidden rfl (Runs.alt_left this)) (runs_gap hs hb), by decide⟩
  | @percentage v t hu hv =>
    have hw := unsigned_word hu
    have hsol : Solid (t ++ '%' :: (b ++ r)) := word_solid num_plain hw
    have hk : Runs S .nonAtomic (.call .keyword) (t ++ '%' :: (b ++ r)) none := keyword_skip_none hsol (unsigned_letter hu)
    have hps : Solid ('%' :: (b ++ r)) := solid_cons (by decide) (by decide)
    have hn : Runs S .nonAtomic (.call .number) (t ++ '%' :: (b ++ r)) (some ([.mk .number t []], '%' :: (b ++ r))) :=
      Runs.call_seen (r := CssRule.number) rfl ((num_class _).plus_skip (b := []) num_plain hw .nil hps (ends_cons (by decide)) (.inr rfl))
    obtain ⟨x, hx⟩ := Runs.call_pair (g := S) (a := .nonAtomic) (r := CssRule.percentage) rfl (hn.seq (runs_gap0 hps) (runs_word1 (s := "%") (d := '%') rfl))
    have hall := Runs.call_hidden (g := S) (a := .nonAtomic) (r := CssRule.step) rfl (Runs.alt_right hk hx)
    refine ⟨_, .of (by simpa using hall) (runs_gap hs hb), ?_⟩
    simp [readStep, Pair.str, readNumber_written (.plain hu), toU32_small hv]

theorem step_none {i : List Char} (hs : Solid i) (h : Ends isLetter i) (h' : Ends isNum i) : Runs S .nonAtomic (.call .step) i none :=
  Runs.call_none (Runs.alt_right (keyword_skip_none hs h) (Runs.call_none (Runs.seq_left (Runs.call_none ((num_class _).plus_none h')))))

theorem block_head {ds : List Declaration} {t : List Char} (h : Block ds t) : ∃ u, t = '{' :: u := by cases h; exact ⟨_, rfl⟩

theorem step_solid {n : Nat} {t : List Char} (h : Step n t) (r : List Char) : Solid (t ++ r) := by
  cases h with
  | «from» => exact solid_cons (by decide) (by decide)
  | «to» => exact solid_cons (by decide) (by decide)
  | percentage hu _ => rw [List.append_assoc]; exact word_solid num_plain (unsigned_word hu)

theorem keyframes_solid {l : List Keyframe} {t : List Char} (h : Keyframes l t) {r : List Char} (hr : Solid r) : Solid (t ++ r) := by
  cases h with
  | nil => exact hr
  | cons h _ _ _ _ => rw [List.append_assoc]; exact step_solid h _

theorem keyframes_many {l : List Keyframe} {t : List Char} (h : Keyframes l t) {r : List Char} (hs : Solid r) (h1 : Ends isLetter r) (h2 : Ends isNum r) :
    ∃ ps, Many S (.call .keyframe) (t ++ r) ps r ∧ readKeyframes ps = some l := by
  induction h with
  | nil => exact ⟨[], .nil (Runs.call_none (Runs.seq_left (step_none hs h1 h2))) (runs_gap0 hs), rfl⟩
  | @cons n t b1 ds u b2 l v hst hb1 hbl hb2 hl ih =>
    obtain ⟨ps, i1, i2⟩ := ih
    obtain ⟨q, h3, h4⟩ := runs_block hbl (b2 ++ (v ++ r))
    obtain ⟨w, rfl⟩ := block_head hbl
    obtain ⟨p, h5, h6⟩ := runs_step hst hb1 (r := '{' :: w ++ (b2 ++ (v ++ r))) (solid_cons (by decide) (by decide)) (ends_cons (by decide))
    obtain ⟨x, hx⟩ := Runs.call_pair (g := S) (a := .nonAtomic) (r := CssRule.keyframe) rfl (h5.seq_runs h3)
    refine ⟨.mk .keyframe x [p, q] :: ps, ?_, by simp [readKeyframes, h6, h4, i2]⟩
    have := ManyIn.cons (.of hx (runs_gap (keyframes_solid hl hs) hb2)) i1
    simpa using this

/-! ## Rules -/

theorem animation_none {i : List Char} (h : ∀ c u, i = c :: u → c ≠ '@') : Runs S .nonAtomic (.call .animation) i none :=
  Runs.call_none (Runs.seq_left (.lit_ne (d := '@') h))

theorem runs_item {x : CssItem} {t : List Char} (h : Item x t) (r : List Char) : ∃ p, Runs S .nonAtomic (.call .rule) (t ++ r) (some ([p], r)) ∧ readRule p = some x := by
  cases h with
  | @style cs t bl ds u hc hb hbl =>
    obtain ⟨q, h3, h4⟩ := runs_block hbl r
    obtain ⟨w, rfl⟩ := block_head hbl
    obtain ⟨p, h1, h2⟩ := takes_selectors hc hb (w ++ r)
    obtain ⟨y, hy⟩ := Runs.call_pair (g := S) (a := .nonAtomic) (r := CssRule.style) rfl (h1.seq_runs h3)
    have hno : Runs S .nonAtomic (.call .animation) (t ++ (bl ++ '{' :: (w ++ r))) none := by
      refine animation_none ?_
      obtain ⟨c, v, rfl, hm⟩ := selectors_head hc
      rintro c' u' e' rfl
      injection e' with e' _; subst e'; revert hm; decide
    have hall := Runs.call_hidden (g := S) (a := .nonAtomic) (r := CssRule.rule) rfl (Runs.alt_right hno hy)
    exact ⟨_, by simpa using hall, by simp [readRule, h2, h4]⟩
  | @animation b1 name b2 b3 l t hb1 hn hb2 hb3 hl =>
    have hse : Solid ('}' :: r) := solid_cons (by decide) (by decide)
    obtain ⟨ps, h1, h2⟩ := keyframes_many hl hse (ends_cons (by decide)) (ends_cons (by decide))
    obtain ⟨m, h3, h4⟩ := h1.star
    have hk : Takes S (.call .keyframes) (t ++ '}' :: r) ps ('}' :: r) := .of (Runs.call_hidden (g := S) (a := .nonAtomic) (r := CssRule.keyframes) rfl h3) h4
    have hso : Solid ('{' :: (b3 ++ (t ++ '}' :: r))) := solid_cons (by decide) (by decide)
    have ho : Takes S (Peg.word "{") ('{' :: (b3 ++ (t ++ '}' :: r))) [] (t ++ '}' :: r) := .of (runs_word1 rfl) (runs_gap (keyframes_solid hl hse) hb3)
    have hnm : Takes S (.call .name) (name.toList ++ (b2 ++ '{' :: (b3 ++ (t ++ '}' :: r)))) [.mk .name name.toList []] ('{' :: (b3 ++ (t ++ '}' :: r))) := by
      refine .of (Runs.call_seen (r := CssRule.name) (t := name.toList) rfl ((key_class _).plus (a := .atomic) (by decide) hn ?_)) (runs_gap hso hb2)
      exact blanks_ends (not_blank (by decide)) (by decide) hb2 (ends_cons (by decide))
    have hat : Takes S (Peg.word "@keyframes") ("@keyframes".toList ++ (b1 ++ (name.toList ++ (b2 ++ '{' :: (b3 ++ (t ++ '}' :: r)))))) [] _ :=
      .of (.lit (s := "@keyframes".toList)) (runs_gap (word_solid key_plain hn) hb1)
    have hbody : Runs S .nonAtomic (cssBody .animation) ("@keyframes".toList ++ (b1 ++ (name.toList ++ (b2 ++ '{' :: (b3 ++ (t ++ '}' :: r)))))) (some (.mk .name name.toList [] :: ps, r)) := by
      have := hat.seq_runs (hnm.seq_runs (ho.seq_runs (hk.seq_runs (runs_word1 (s := "}") (d := '}') rfl))))
      simp only [List.nil_append, List.append_nil, List.cons_append] at this
      exact this
    obtain ⟨y, hy⟩ := Runs.call_pair (g := S) (a := .nonAtomic) (r := CssRule.animation) rfl hbody
    have hall := Runs.call_hidden (g := S) (a := .nonAtomic) (r := CssRule.rule) rfl (Runs.alt_left hy)
    exact ⟨_, by simpa using hall, by simp [readRule, Pair.str, h2]⟩

theorem item_solid {x : CssItem} {t : List Char} (h : Item x t) (r : List Char) : Solid (t ++ r) := by
  cases h with
  | style hc _ _ => obtain ⟨c, v, rfl, hm⟩ := selectors_head hc; exact solid_cons (mark_plain c hm).1 (mark_plain c hm).2
  | animation => exact solid_cons (by decide) (by decide)

theorem items_solid {l : List CssItem} {t : List Char} (h : Items l t) : Solid t := by
  cases h with
  | nil => exact solid_nil
  | cons h _ _ => exact item_solid h _

/-- There is no rule at the end. -/
theorem rule_nil : Runs S .nonAtomic (.call .rule) [] none := by
  have hp : Runs S .nonAtomic part [] none := part_none ⟨solid_nil, fun c u e => (by cases e), fun c u e => (by cases e)⟩
  obtain ⟨x, hx⟩ := Runs.call_pair (g := S) (a := .nonAtomic) (r := CssRule.complex) rfl (Runs.star_nil hp)
  have hm : Runs S .nonAtomic moreSelector [] none := Runs.seq_left (runs_word1_none (d := ',') rfl fun c u e => (by cases e))
  obtain ⟨y, hy⟩ := Runs.call_pair (g := S) (a := .nonAtomic) (r := CssRule.selectors) rfl (hx.seq (runs_gap0 solid_nil) (Runs.star_nil hm))
  have hb : Runs S .nonAtomic (.call .declarationBlock) [] none := Runs.call_none (Runs.seq_left (runs_word1_none (d := '{') rfl fun c u e => (by cases e)))
  exact Runs.call_none (Runs.alt_right (animation_none fun c u e => (by cases e)) (Runs.call_none (hy.seq_right (runs_gap0 solid_nil) hb)))

/-- The pairs read as these rules. -/
inductive ReadAs : List (Pair CssRule) → List CssItem → Prop
  | nil : ReadAs [] []
  | cons {p x ps l} : readRule p = some x → ReadAs ps l → ReadAs (p :: ps) (x :: l)

theorem items_many {l : List CssItem} {t : List Char} (h : Items l t) : ∃ ps, Many S (.call .rule) t ps [] ∧ ReadAs ps l := by
  induction h with
  | nil => exact ⟨[], .nil rule_nil (runs_gap0 solid_nil), .nil⟩
  | @cons x t bl l u h hb hu ih =>
    obtain ⟨ps, h1, h2⟩ := ih
    obtain ⟨p, h3, h4⟩ := runs_item h (bl ++ u)
    exact ⟨p :: ps, ManyIn.cons (ps := [p]) (.of h3 (runs_gap (items_solid hu) hb)) h1, .cons h4 h2⟩

theorem readRules_meaning {ps : List (Pair CssRule)} {l : List CssItem} (h : ReadAs ps l) : ∀ css : Css,
    readRules ps css = some ⟨css.styles ++ (meaning l).styles, fun n => ((meaning l).animations n).or (css.animations n)⟩ := by
  induction h with
  | nil => intro css; simp [readRules, meaning]
  | @cons p x ps l h _ ih =>
    intro css
    rw [readRules, h]
    cases x with
    | style s =>
      simp only
      rw [ih]
      simp [meaning]
    | animation a =>
      simp only
      rw [ih]
      simp only [meaning, List.filterMap_cons]
      congr 2
      funext n
      by_cases hn : n = a.name
      · subst hn
        simp only [if_true]
        rw [List.getLast?_cons]
        cases List.getLast? (List.filterMap _ l) <;> simp
      · have hn' : ¬ a.name = n := fun e => hn e.symm
        simp [hn, hn']

/-- A stylesheet is read as written. -/
theorem readCss_written {l : List CssItem} {t : List Char} (h : Stylesheet l t) : ∃ F, ∀ fuel ≥ F, readCss fuel (String.ofList t) = some (.ok (meaning l)) := by
  cases h with
  | @mk bl l t hb hl =>
    obtain ⟨ps, h1, h2⟩ := items_many hl
    obtain ⟨x, hx⟩ := Takes.call (g := S) (r := CssRule.rules) rfl rfl h1.star
    have he : Takes S .eps (bl ++ t) [] t := .of .eps (runs_gap (items_solid hl) hb)
    have hbody : Runs S .nonAtomic (cssBody .styleSheet) (bl ++ t) (some ([.mk .rules x ps], [])) := he.seq_runs (hx.seq_runs .eoi)
    have hall := Runs.call_hidden (g := S) (a := .nonAtomic) (r := CssRule.styleSheet) rfl hbody
    obtain ⟨F, hF⟩ := hall.settles
    refine ⟨F, fun fuel hf => ?_⟩
    unfold readCss Grammar.parse
    rw [String.toList_ofList, hF fuel hf]
    simp only [Pair.inner]
    rw [readRules_meaning h2]
    simp [meaning]

end Verif.Sheet
