import Verif.Css.MatchLemmas
import Verif.Spec.Rules
import Verif.View.OpenParts
import Verif.Props.Live
/-!
# Rules kept for an element (lemmas for C42)
-/
namespace Verif

/-- The attribute a part tests. -/
def Simple.tests (k : String) : Simple → Prop
  | .attribute name _ _ => name = k
  | .class _ => k = "class"
  | .id _ => k = "id"
  | _ => False

theorem matchSimple_congr {pc pc' : PseudoMatcher} {e e' : Element} (s : Simple) (ht : e'.tag = e.tag)
    (ha : ∀ k, s.tests k → e'.attrs k = e.attrs k)
    (hp : ∀ name, s = .pseudoClass name → pc' e' name = pc e name) :
    matchSimple pc' e' s = matchSimple pc e s := by
  cases s with
  | all => rfl
  | type name => simp only [matchSimple, ht]
  | id x => simp only [matchSimple, ha "id" rfl]
  | «class» x => simp only [matchSimple, ha "class" rfl]
  | «attribute» n m v => simp only [matchSimple, ha n rfl]
  | root => simp only [matchSimple, ht]
  | pseudoClass name => exact hp name rfl
  | pseudoElement _ => rfl
  | combinator _ => rfl

/-- Two trees agree on a set of nodes closed under parents, as far as the parts `K` look. -/
structure MatchAgree (t t' : Tree) (S : NodeId → Prop) (K : Simple → Prop) : Prop where
  par : ∀ m, S m → t'.par m = t.par m
  up : ∀ m p, K (.combinator '>') → S m → t.par m = some p → S p
  ctx : ∀ m, S m → ∃ e e', t.ctx m = some e ∧ t'.ctx m = some e' ∧ e'.tag = e.tag ∧
    ∀ s, K s → ∀ k, s.tests k → e'.attrs k = e.attrs k

theorem matchLoop_congr {checks} {pc pc' : PseudoMatcher} {t t' : Tree} {S K} (h : MatchAgree t t' S K) (ss : List Simple)
    (hK : ∀ s ∈ ss, K s) (hplus : .combinator '+' ∉ ss)
    (hp : ∀ name, .pseudoClass name ∈ ss → ∀ e e', pc' e' name = pc e name)
    (n : NodeId) (hn : S n) (e e' : Element) (he : t.ctx n = some e) (he' : t'.ctx n = some e') :
    matchLoop checks pc' t' ss n e' = matchLoop checks pc t ss n e := by
  induction ss generalizing n e e' with
  | nil => rfl
  | cons s ss ih =>
    have ih' := ih (fun x hx => hK x (by simp [hx])) (fun hx => hplus (by simp [hx]))
      (fun name hx => hp name (by simp [hx]))
    by_cases hs : s.isPart = true
    · obtain ⟨a, a', h1, h2, h3, h4⟩ := h.ctx n hn
      rw [he] at h1; injection h1 with h1; subst h1
      rw [he'] at h2; injection h2 with h2; subst h2
      rw [matchLoop_part hs, matchLoop_part hs,
        matchSimple_congr (pc := pc) (pc' := pc') s h3 (h4 s (hK s (by simp))) (fun name hx => hp name (by simp [hx]) _ _),
        ih' n hn e e' he he']
    · cases s with
      | combinator c =>
        have hc : c ≠ '+' := fun hc => hplus (by simp [hc])
        simp only [matchLoop, nextTarget, hc, if_false]
        by_cases hg : c = '>'
        · simp only [hg, if_true, h.par n hn]
          cases hpar : t.par n with
          | none => rfl
          | some m =>
            have hm := h.up n m (hK _ (by simp [hg])) hn hpar
            obtain ⟨a, a', h1, h2, -⟩ := h.ctx m hm
            simp only [h1, h2]
            exact ih' m hm a a' h1 h2
        · simp only [hg, if_false]
      | _ => simp [Simple.isPart] at hs

theorem matchAny_congr {checks} {pc pc' : PseudoMatcher} {t t' : Tree} {S K} (h : MatchAgree t t' S K) (l : List Complex)
    (hK : ∀ c ∈ l, ∀ s ∈ c, K s) (hplus : ∀ c ∈ l, .combinator '+' ∉ c)
    (hp : ∀ c ∈ l, ∀ name, .pseudoClass name ∈ c → ∀ e e', pc' e' name = pc e name)
    (n : NodeId) (hn : S n) : matchAny checks pc' t' n l = matchAny checks pc t n l := by
  induction l with
  | nil => rfl
  | cons c l ih =>
    obtain ⟨a, a', h1, h2, -⟩ := h.ctx n hn
    have : matchComplex checks pc' t' c n = matchComplex checks pc t c n := by
      unfold matchComplex
      rw [h1, h2]
      exact matchLoop_congr h c.reverse (by simpa using hK c (by simp)) (by simpa using hplus c (by simp))
        (by simpa using hp c (by simp)) n hn a a' h1 h2
    simp only [matchAny, this]
    rw [ih (fun d hd => hK d (by simp [hd])) (fun d hd => hplus d (by simp [hd])) (fun d hd => hp d (by simp [hd]))]

/-- Ignoring pseudo classes only makes more match. -/
theorem matchLoop_anyPseudo {checks} (pc : PseudoMatcher) {t : Tree} (ss : List Simple) (n : NodeId) (e : Element)
    (h : matchLoop checks pc t ss n e = .ok true) : matchLoop checks anyPseudo t ss n e = .ok true := by
  induction ss generalizing n e with
  | nil => exact h
  | cons s ss ih =>
    by_cases hs : s.isPart = true
    · rw [matchLoop_part hs] at h ⊢
      split at h
      · rename_i hm
        have : matchSimple anyPseudo e s = true := by
          cases s <;> first | exact hm | rfl
        rw [if_pos this]; exact ih n e h
      · simp at h
    · cases s with
      | combinator c =>
        simp only [matchLoop] at h ⊢
        split at h
        · simp at h
        · simp at h
        · rename_i m hm
          split at h
          · simp at h
          · exact ih _ _ h
      | _ => simp [Simple.isPart] at hs

theorem matchAny_total {checks pc} {t : Tree} {root body : NodeId} (hw : t.Wf root body) {n : NodeId}
    (hn : (t.ctx n).isSome) (l : List Complex) (hplus : ∀ c ∈ l, .combinator '+' ∉ c) :
    ∃ b, matchAny checks pc t n l = .ok b ∧ (b = true ↔ ∃ c ∈ l, matchComplex checks pc t c n = .ok true) := by
  apply matchAny_iff
  intro c hc
  obtain ⟨e, he⟩ := Option.isSome_iff_exists.1 hn
  unfold matchComplex
  rw [he]
  obtain ⟨b, hb⟩ := matchLoop_total (checks := checks) (pc := pc) hw c.reverse (by simpa using hplus c hc) n e
  exact ⟨b, hb, by simp [hb]⟩

theorem matchAny_anyPseudo {checks} (pc : PseudoMatcher) {t : Tree} {root body : NodeId} (hw : t.Wf root body) {n : NodeId}
    (hn : (t.ctx n).isSome) (l : List Complex) (hplus : ∀ c ∈ l, .combinator '+' ∉ c)
    (h : matchAny checks anyPseudo t n l = .ok false) : matchAny checks pc t n l = .ok false := by
  obtain ⟨b, h1, h2⟩ := matchAny_total (checks := checks) (pc := anyPseudo) hw hn l hplus
  obtain ⟨b', g1, g2⟩ := matchAny_total (checks := checks) (pc := pc) hw hn l hplus
  rw [h] at h1; injection h1 with h1; subst h1
  cases b' with
  | false => exact g1
  | true =>
    obtain ⟨c, hc, hm⟩ := g2.1 rfl
    have : matchComplex checks anyPseudo t c n = .ok true := by
      unfold matchComplex at hm ⊢
      split at hm
      · simp at hm
      · exact matchLoop_anyPseudo pc _ _ _ hm
    have := h2.2 ⟨c, hc, this⟩
    simp at this

/-- The kept rules that match now are exactly the rules that match now. -/
theorem classify_exact {checks} {t0 t : Tree} {root body : NodeId} (hw0 : t0.Wf root body) (hw : t.Wf root body)
    {n : NodeId} {e0 : Element} (he0 : t0.ctx n = some e0) (hnt : (t.ctx n).isSome)
    (pc : PseudoMatcher) (rules : List Style) (hplus : ∀ s ∈ rules, s.NoPlus)
    (hag : ∀ s ∈ rules, isStatic e0.hints s = true →
      ∃ S : NodeId → Prop, S n ∧ MatchAgree t0 t S (fun x => ∃ c ∈ s.selectors, x ∈ c)) :
    ∃ l, classify checks t0 n e0 rules = .ok l ∧
      applied checks pc t n l = .ok (rules.filter (matchesNow checks pc t n)) := by
  induction rules with
  | nil => exact ⟨[], rfl, rfl⟩
  | cons s rules ih =>
    obtain ⟨l, h1, h2⟩ := ih (fun x hx => hplus x (by simp [hx])) (fun x hx => hag x (by simp [hx]))
    have hpl := hplus s (by simp)
    obtain ⟨b0, a1, -⟩ := matchAny_total (checks := checks) (pc := anyPseudo) hw0 (by rw [he0]; rfl) s.selectors hpl
    obtain ⟨b, a2, -⟩ := matchAny_total (checks := checks) (pc := pc) hw hnt s.selectors hpl
    have hnow : matchesNow checks pc t n s = b := by
      unfold matchesNow matchStyle; rw [a2]; cases b <;> rfl
    have hdyn : applied checks pc t n (.dynamic s :: l) = .ok ((s :: rules).filter (matchesNow checks pc t n)) := by
      simp only [applied, matchStyle, a2, h2, List.filter_cons, hnow]
    simp only [classify, matchStyle, a1, h1]
    by_cases hst : isStatic e0.hints s = true
    · obtain ⟨S, hn, hA⟩ := hag s (by simp) hst
      cases b0 with
      | true =>
        by_cases hps : s.hasPseudoSelector = true
        · exact ⟨_, by simp [hst, hps], hdyn⟩
        · refine ⟨.static s :: l, by simp [hst, hps], ?_⟩
          have hb : matchAny checks pc t n s.selectors = matchAny checks anyPseudo t0 n s.selectors := by
            apply matchAny_congr hA
            · intro c hc x hx; exact ⟨c, hc, hx⟩
            · exact hpl
            · intro c hc name hx
              refine absurd ?_ hps
              unfold Style.hasPseudoSelector
              rw [List.any_eq_true]
              exact ⟨c, hc, by rw [List.any_eq_true]; exact ⟨_, hx, rfl⟩⟩
            · exact hn
          rw [a1, a2] at hb
          injection hb with hb
          simp only [applied, h2, List.filter_cons, hnow, hb, if_true]
      | false =>
        refine ⟨l, by simp [hst], ?_⟩
        have hb : matchAny checks anyPseudo t n s.selectors = matchAny checks anyPseudo t0 n s.selectors := by
          apply matchAny_congr hA
          · intro c hc x hx; exact ⟨c, hc, hx⟩
          · exact hpl
          · intro c hc name hx _ _; rfl
          · exact hn
        rw [a1] at hb
        have := matchAny_anyPseudo pc hw hnt s.selectors hpl hb
        rw [a2] at this
        injection this with this
        rw [h2, List.filter_cons, hnow, this]; simp
    · exact ⟨.dynamic s :: l, by cases b0 <;> simp [hst], hdyn⟩

/-- The attribute a reaction may change. -/
def Reaction.changes (r : Reaction) (n : NodeId) (k : String) : Prop :=
  (∃ b, r = .tag n k b) ∨ ∃ i x, r = .bind n k i x

theorem react_changes {b : Binding} {y : Json} {n k} (h : (b.react y).changes n k) :
    b.params = .tag n k ∨ ∃ i, b.params = .attribute n k i := by
  unfold Binding.react Reaction.changes at h
  cases hp : b.params with
  | tag m k' =>
    rw [hp] at h; simp only [Reaction.tag.injEq, reduceCtorEq, exists_false, or_false] at h
    obtain ⟨_, rfl, rfl, -⟩ := h; left; rfl
  | «attribute» m k' i =>
    rw [hp] at h; simp only [Reaction.bind.injEq, reduceCtorEq, exists_false, false_or] at h
    obtain ⟨_, _, rfl, rfl, -⟩ := h; right; exact ⟨i, rfl⟩
  | text m i => rw [hp] at h; simp at h
  | visibility p m v => rw [hp] at h; simp at h
  | «repeat» p s c =>
    rw [hp] at h; simp only at h
    cases y <;> simp at h

variable {inline : String → Option (List Declaration)}

theorem updateTrees_attrs {root body : NodeId} (rs : List Reaction) (s s' : Stage) (h : s.tree.Wf root body)
    (hrs : ∀ r ∈ rs, ReactionOk s.tree root body r) (hu : updateTrees inline s rs = .ok s')
    {n : NodeId} {e : Element} (he : s.tree.ctx n = some e) :
    ∃ e', s'.tree.ctx n = some e' ∧ ∀ k, (∀ r ∈ rs, ¬ r.changes n k) → e'.attrs k = e.attrs k := by
  induction rs generalizing s e with
  | nil =>
    simp only [updateTrees, Except.ok.injEq] at hu; subst hu
    exact ⟨e, he, fun _ _ => rfl⟩
  | cons r rs ih =>
    simp only [updateTrees, bind, Except.bind] at hu
    split at hu
    · simp at hu
    · rename_i s1 h1
      obtain ⟨e1, g1, -, -, g4, -⟩ := updateTree_elem h (hrs r (by simp)) h1 he
      obtain ⟨s1', a1, a2, a3⟩ := C16_tree_stays_tree (inline := inline) s [r] h (by simpa using hrs r (by simp))
      simp only [updateTrees, bind, Except.bind, h1, Except.ok.injEq] at a1
      subst a1
      obtain ⟨e', b1, b2⟩ := ih s1 a2 (fun x hx => a3 x (hrs x (by simp [hx]))) hu g1
      refine ⟨e', b1, fun k hk => ?_⟩
      rw [b2 k (fun x hx => hk x (by simp [hx])), g4]
      have hr := hk r (by simp)
      cases r with
      | tag m k' b =>
        simp only [attrStep]
        split
        · rename_i hm; subst hm
          have : k ≠ k' := fun hkk => hr (.inl ⟨b, by rw [hkk]⟩)
          split
          · exact SMap.set_other _ _ this
          · exact SMap.del_other _ this
        · rfl
      | bind m k' i x =>
        simp only [attrStep]
        split
        · rename_i hm; subst hm
          have : k ≠ k' := fun hkk => hr (.inr ⟨i, x, by rw [hkk]⟩)
          simp [this]
        · rfl
      | type m i x => rfl
      | reattach p m v => rfl
      | «repeat» p a b c => rfl

/-- What any history of updates leaves of the rendered tree. -/
structure Kept (σ : Render) (v : View) : Prop where
  good : ViewGood σ.regs v
  defs : SameDefs σ.tree v.stage.tree
  attrs : ∀ n e, σ.tree.ctx n = some e → ∃ e', v.stage.tree.ctx n = some e' ∧
    ∀ k, ¬ BindsAttr (lookupRegs σ.regs) n k → e'.attrs k = e.attrs k

theorem kept_update {σ : Render} {v v' : View} {value : Json} (h : Kept σ v) (hu : v.update inline value = .ok v') :
    Kept σ v' ∧ v'.root = v.root ∧ v'.body = v.body := by
  cases hb : v.vm.bind value with
  | none => unfold View.update at hu; rw [hb] at hu; simp at hu
  | some p =>
    obtain ⟨vm, rs⟩ := p
    obtain ⟨stage, h1, h2, h3, h4⟩ := viewGood_update (inline := inline) h.good value hb
    rw [h2] at hu; injection hu with hu; subst hu
    refine ⟨⟨h3, ?_, ?_⟩, rfl, rfl⟩
    · obtain ⟨s', a1, -, a3, -⟩ := updateTrees_steps (inline := inline) rs v.stage h.good.wf h4
      rw [h1] at a1; injection a1 with a1; subst a1
      exact h.defs.trans a3
    · intro n e he
      obtain ⟨e1, g1, g2⟩ := h.attrs n e he
      obtain ⟨e2, k1, k2⟩ := updateTrees_attrs rs v.stage stage h.good.wf h4 h1 g1
      refine ⟨e2, k1, fun k hk => ?_⟩
      rw [k2 k ?_, g2 k hk]
      intro r hr hch
      obtain ⟨rg, hrg, y, rfl⟩ := bind_reactions hb h.good.bindings hr
      exact hk ⟨rg.1, rg.2, mem_lookupRegs.2 hrg, react_changes hch⟩

theorem reached_kept {translate tr fuel document} {v : View} (h : Reached translate inline tr fuel document v) :
    ∃ σ, renderView (docEnv translate inline document) fuel (docBody document) = .ok (v.root, v.body, σ) ∧ Kept σ v := by
  induction h with
  | opened h =>
    rename_i v
    rcases openView_cases (inline := inline) translate tr fuel document with ⟨v', σ, r, b, h', hr, ho⟩ | h' | ⟨id, h'⟩
    · rw [h] at h'; injection h' with h'; subst h'
      obtain ⟨σ', hr', -, -, hctx, hnext⟩ := openView_parts h
      rw [collect_doc] at hr
      have hr2 : renderView (docEnv translate inline document) fuel (docBody document) = .ok (r, b, σ) := hr
      rw [hr2] at hr'
      simp only [Except.ok.injEq, Prod.mk.injEq] at hr'
      obtain ⟨rfl, rfl, rfl⟩ := hr'
      refine ⟨σ, hr2, ho.good, ⟨hnext, fun n => by rw [hctx]⟩, fun n e he => ⟨e, by rw [hctx]; exact he, fun _ _ => rfl⟩⟩
    · rw [h] at h'; simp at h'
    · rw [h] at h'; simp at h'
  | updated _ hu ih =>
    obtain ⟨σ, h1, h2⟩ := ih
    obtain ⟨h3, h4, h5⟩ := kept_update h2 hu
    exact ⟨σ, by rw [h4, h5]; exact h1, h3⟩

theorem isStatic_tests {hints : StyleHints} {s : Style} (h : isStatic hints s = true) {k : String}
    (hk : HintedAttr hints k ∨ (k ∈ hints.dynamicAttrs ∧ k ≠ "class" ∧ k ≠ "id")) : ¬ s.Tests k := by
  have hmem : k ∈ hints.dynamicAttrs := hk.elim (·.mem) (·.1)
  have hne : hints.hasDynamicProperties = true := by
    unfold StyleHints.hasDynamicProperties
    cases hd : hints.dynamicAttrs with
    | nil => rw [hd] at hmem; simp at hmem
    | cons a l => simp
  unfold isStatic at h
  rw [hne] at h
  simp only [Bool.not_true, Bool.false_or, Bool.and_eq_true, Bool.not_eq_true', Bool.or_eq_true] at h
  obtain ⟨⟨h1, h2⟩, h3⟩ := h
  rintro ⟨c, hc, x, hx, ht⟩
  cases x with
  | «attribute» name m v =>
    simp only at ht; subst ht
    have : s.hasAttrsSelector hints.dynamicAttrs = true := by
      unfold Style.hasAttrsSelector
      rw [List.any_eq_true]
      exact ⟨c, hc, by rw [List.any_eq_true]; exact ⟨_, hx, by simpa using hmem⟩⟩
    rw [this] at h1; simp at h1
  | «class» w =>
    simp only at ht; subst ht
    rcases hk with hk | hk
    · rw [hk.classes rfl] at h2
      have : s.hasClassSelector = true := by
        unfold Style.hasClassSelector
        rw [List.any_eq_true]
        exact ⟨c, hc, by rw [List.any_eq_true]; exact ⟨_, hx, rfl⟩⟩
      rw [this] at h2; simp at h2
    · exact hk.2.1 rfl
  | id w =>
    simp only at ht; subst ht
    rcases hk with hk | hk
    · rw [hk.id rfl] at h3
      have : s.hasIdSelector = true := by
        unfold Style.hasIdSelector
        rw [List.any_eq_true]
        exact ⟨c, hc, by rw [List.any_eq_true]; exact ⟨_, hx, rfl⟩⟩
      rw [this] at h3; simp at h3
    · exact hk.2.2 rfl
  | _ => exact ht.elim

/-- Ancestor or the node itself. -/
def Chain (t : Tree) (n m : NodeId) : Prop := m = n ∨ Ancestor t m n

theorem Displayed.ancestor {t : Tree} {root body n m : NodeId} (hw : t.Wf root body) (hr : t.par root = none)
    (h : Displayed t root n) (ha : Ancestor t m n) : Displayed t root m := by
  induction ha with
  | parent hp =>
    cases h with
    | root => rw [hr] at hp; simp at hp
    | child hd hk =>
      have := (hw.link _ _).1 hk
      rw [this] at hp; injection hp with hp; subst hp; exact hd
  | above hp _ ih =>
    apply ih
    cases h with
    | root => rw [hr] at hp; simp at hp
    | child hd hk =>
      have := (hw.link _ _).1 hk
      rw [this] at hp; injection hp with hp; subst hp; exact hd

theorem Ancestor.up {t : Tree} {m n p : NodeId} (h : Ancestor t m n) (hp : t.par m = some p) : Ancestor t p n := by
  induction h with
  | parent h => exact .above h (.parent hp)
  | above h _ ih => exact .above h ih

theorem Chain.up {t : Tree} {m n p : NodeId} (h : Chain t n m) (hp : t.par m = some p) : Chain t n p := by
  rcases h with rfl | h
  · exact .inr (.parent hp)
  · exact .inr (h.up hp)

end Verif
