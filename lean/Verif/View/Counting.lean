import Verif.Spec.Metrics
import Verif.View.StyledAt
import Verif.View.WholeLemmas
import Verif.View.Placement
import Verif.Props.Whole
/-!
# Counting changes nothing, and what is counted (for C86)
-/
namespace Verif

/-! ## Counting changes nothing -/

/-- Without the counters. -/
def uncounted {ε α μ : Type} : Except ε (α × μ) → Except ε α
  | .error e => .error e
  | .ok x => .ok x.1

theorem applyAllCounted_fst (sizes : Sizes) (l : ComputedStyle) : ∀ s c, (applyAllCounted sizes l s c).1 = applyAll sizes l s := by
  induction l with
  | nil => intro s c; rfl
  | cons x l ih => intro s c; exact ih _ _

theorem styleElementCounted_uncounted (env : FrameEnv) (t : Tree) (n : NodeId) (parent : Element) (sizes : Sizes) (vars : Variables) (layout : LayoutStyle) (e : Element) :
    uncounted (styleElementCounted env t n parent sizes vars layout e) = styleElement env t n parent sizes vars layout e := by
  unfold styleElementCounted styleElement
  dsimp only
  cases applied env.checks viewPseudo t n (env.rules n) with
  | error _ => rfl
  | ok rules =>
    dsimp only
    cases computeBlocks env.fuel (elementBlocks rules (parent.inherit e.reset).style) vars [] with
    | none => rfl
    | some r =>
      obtain ⟨vars, style⟩ := r
      dsimp only
      cases playAnimators env n vars 0 (parent.inherit e.reset).animators style with
      | error t => rfl
      | ok r =>
        obtain ⟨animators, style⟩ := r
        dsimp only
        cases playTransitions env.fuel env.time (parent.inherit e.reset).transitions style with
        | error t => rfl
        | ok r => simp only [uncounted, applyAllCounted_fst]

theorem forEach_uncounted {σ μ : Type} {f : σ × μ → NodeId → Except Trouble (σ × μ)} {g : σ → NodeId → Except Trouble σ}
    (h : ∀ x c, uncounted (f x c) = g x.1 c) (cs : List NodeId) : ∀ x, uncounted (forEach f cs x) = forEach g cs x.1 := by
  induction cs with
  | nil => intro x; rfl
  | cons c cs ih =>
    intro x
    simp only [forEach]
    rw [← h x c]
    cases hf : f x c with
    | error e => rfl
    | ok y => exact ih y

theorem styleTreeCounted_uncounted (rules : Nat) (env : FrameEnv) (depth : Nat) : ∀ n sizes vars x,
    uncounted (styleTreeCounted rules env depth n sizes vars x) = styleTree env depth n sizes vars x.1 := by
  induction depth with
  | zero => intro n sizes vars x; rfl
  | succ depth ih =>
    rintro n sizes vars ⟨s, m⟩
    simp only [styleTreeCounted, styleTree]
    cases (s.tree.par n).bind s.tree.ctx with
    | none => rfl
    | some parent =>
    cases s.tree.ctx n with
    | none => rfl
    | some e =>
      dsimp only
      by_cases ht : e.text.isSome
      · rw [if_pos ht, if_pos ht]; rfl
      · rw [if_neg ht, if_neg ht]
        rw [← styleElementCounted_uncounted]
        cases hc : styleElementCounted env s.tree n parent sizes vars (s.layouts n) e with
        | error t => rfl
        | ok r =>
          obtain ⟨⟨⟨l, e'⟩, vars'⟩, stats⟩ := r
          simp only [uncounted]
          by_cases hl : e'.tag ∈ leafTags
          · rw [if_pos hl, if_pos hl]
          · rw [if_neg hl, if_neg hl]
            exact forEach_uncounted (fun x c => ih c _ _ x) _ _

theorem placeTreeCounted_uncounted (boxes : NodeId → Layout) (depth : Nat) : ∀ n location opacity clipping x,
    uncounted (placeTreeCounted boxes depth n location opacity clipping x) = placeTree boxes depth n location opacity clipping x.1 := by
  induction depth with
  | zero => intro n location opacity clipping x; rfl
  | succ depth ih =>
    rintro n location opacity clipping ⟨t, m⟩
    simp only [placeTreeCounted, placeTree]
    cases t.ctx n with
    | none => rfl
    | some e => exact forEach_uncounted (fun x c => ih c _ _ _ x) _ _

theorem updateCounted_uncounted (p : Platform) (fuel : Nat) (order : FrameOrder) (a : App) (input : Input) (value : Json) (m : Metrics) :
    uncounted (a.updateCounted p fuel order input value m) = a.update p fuel order input value := by
  unfold App.updateCounted App.update
  dsimp only
  cases hv : a.screen.view.update p.inline value with
  | error f => rfl
  | ok v =>
    dsimp only
    rw [styleView, ← styleTreeCounted_uncounted a.css.styles.length (a.env p fuel order input.time) fuel v.body _ _ (_, { m with updates := m.updates + 1 })]
    cases hs : styleTreeCounted a.css.styles.length (a.env p fuel order input.time) fuel v.body ⟨16, 16, ⟨0, 0, 0, 0⟩, input.viewport.1, input.viewport.2⟩
        (fun _ => none) (⟨v.stage.tree, upd a.layouts v.root (resizeRoot input.viewport (a.layouts v.root))⟩, { m with updates := m.updates + 1 }) with
    | error t => rfl
    | ok r =>
      obtain ⟨styled, m1⟩ := r
      simp only [uncounted]
      rw [placeView, ← placeTreeCounted_uncounted _ _ _ _ _ _ (styled.tree, m1)]
      cases hp : placeTreeCounted (p.solve (styled.recall order.recall)) fuel v.body (0, 0) 1 none (styled.tree, m1) with
      | error t => rfl
      | ok r =>
        obtain ⟨tree, m2⟩ := r
        simp only [uncounted]
        cases handleOutput v.emitter v.body input.events (tree, a.screen.ui) with
        | error f => rfl
        | ok r => rfl

theorem runCounted_uncounted (p : Platform) (fuel : Nat) (fs : List Frame) : ∀ (a : App) (m : Metrics),
    uncounted (a.runCounted p fuel fs m) = a.run p fuel fs := by
  induction fs with
  | nil => intro a m; rfl
  | cons f fs ih =>
    intro a m
    simp only [App.runCounted, App.run]
    rw [← updateCounted_uncounted p fuel f.order a f.input f.value m]
    cases hu : a.updateCounted p fuel f.order f.input f.value m with
    | error h => rfl
    | ok r =>
      obtain ⟨⟨a1, out⟩, m1⟩ := r
      simp only [uncounted]
      rw [← ih a1 m1]
      cases a1.runCounted p fuel fs m1 with
      | error h => rfl
      | ok r => rfl

theorem uncounted_ok {ε α μ : Type} {x : Except ε (α × μ)} {a : α} (h : uncounted x = .ok a) : ∃ m, x = .ok (a, m) := by
  cases x with
  | error e => cases h
  | ok y => simp only [uncounted, Except.ok.injEq] at h; subst h; exact ⟨y.2, rfl⟩

/-! ## Elements shown -/

theorem allOf_cons {α : Type} {a : Option α} {l : List (Option α)} {r : List α} (h : allOf (a :: l) = some r) : ∃ x xs, a = some x ∧ allOf l = some xs ∧ r = x :: xs := by
  simp only [allOf] at h
  cases a with
  | none => simp at h
  | some x =>
    simp only [Option.bind_some, Option.map_eq_some_iff] at h
    obtain ⟨xs, h1, h2⟩ := h
    exact ⟨x, xs, rfl, h1, h2.symm⟩

/-- Every element knows its node. -/
def Tree.Named (t : Tree) : Prop := t.Every fun n e => e.node = n

theorem Tree.Named.restyled {t t' : Tree} (h : t.Named) (hr : Restyled t t') : t'.Named :=
  every_related (Tree.Related.ctxRel hr) (fun _ _ _ hx hn => hx.1.node.trans hn) h

theorem Restyled.form {t t' : Tree} (h : Restyled t t') : SameForm t t' := Tree.Related.mono (fun _ _ hx => hx.1) h

theorem draw_parts {t : Tree} (hn : t.Named) {d : Nat} {n : NodeId} {e : Element} (he : t.ctx n = some e) {shown : Shown} (h : t.draw d n = some shown) :
    ∃ k cs, d = k + 1 ∧ allOf ((t.kids n).map (t.draw k)) = some cs ∧
      ((∃ tx, e.text = some tx ∧ cs = [] ∧ shown = .text tx.toString) ∨ e.text = none ∧ shown = .element e.tag e.attrs cs) := by
  cases d with
  | zero => cases h
  | succ k =>
    simp only [Tree.draw, he, Option.bind_some, hn n e he] at h
    cases hc : allOf ((t.kids n).map (t.draw k)) with
    | none => rw [hc] at h; cases h
    | some cs =>
      rw [hc] at h
      refine ⟨k, cs, rfl, hc, ?_⟩
      simp only [Option.bind_some] at h
      cases ht : e.text with
      | none => rw [ht] at h; injection h with h; exact .inr ⟨rfl, h.symm⟩
      | some tx =>
        rw [ht] at h
        cases cs with
        | nil => injection h with h; exact .inl ⟨tx, rfl, rfl, h.symm⟩
        | cons _ _ => cases h

theorem placeTreeCounted_shown (boxes : NodeId → Layout) (depth : Nat) : ∀ {n location opacity clipping t m t' m'},
    placeTreeCounted boxes depth n location opacity clipping (t, m) = .ok (t', m') → t.Named → ∀ {d shown}, t.draw d n = some shown →
    m' = { m with elementsShown := m.elementsShown + shown.size } := by
  induction depth with
  | zero => intro n location opacity clipping t m t' m' h; cases h
  | succ depth ih =>
    intro n location opacity clipping t m t' m' h hn d shown hd
    simp only [placeTreeCounted] at h
    cases he : t.ctx n with
    | none => rw [he] at h; cases h
    | some e =>
      rw [he] at h
      dsimp only at h
      obtain ⟨k, cs, rfl, hcs, hsh⟩ := draw_parts hn he hd
      generalize hE : e.placed { boxes n with x := (boxes n).x + location.1, y := (boxes n).y + location.2 } opacity clipping = E at h
      generalize E.inner { boxes n with x := (boxes n).x + location.1, y := (boxes n).y + location.2 } clipping = lc at h
      have hr0 : Restyled t (t.setCtx n E) := by
        refine ⟨rfl, rfl, rfl, ?_, ?_⟩
        · intro m hm
          have : m ≠ n := fun h => by rw [h, he] at hm; cases hm
          simp [Tree.setCtx, upd_other _ _ this, hm]
        · intro m x hx
          by_cases hmn : m = n
          · subst hmn
            rw [he] at hx; injection hx with hx; subst hx
            refine ⟨E, upd_same _ _ _, ?_⟩
            rw [← hE]
            exact ⟨⟨rfl, rfl, rfl, rfl, rfl, rfl, rfl, rfl, rfl⟩, rfl⟩
          · exact ⟨x, by simp [Tree.setCtx, upd_other _ _ hmn, hx], ⟨rfl, rfl, rfl, rfl, rfl, rfl, rfl, rfl, rfl⟩, rfl⟩
      have loop : ∀ (ks : List NodeId) (t1 : Tree) (m1 : Metrics) (t2 : Tree) (m2 : Metrics) (cs : List Shown), Restyled t t1 →
          forEach (fun t c => placeTreeCounted boxes depth c lc.1 E.opacity lc.2 t) ks (t1, m1) = .ok (t2, m2) → allOf (ks.map (t.draw k)) = some cs →
          m2 = { m1 with elementsShown := m1.elementsShown + Shown.sizes cs } := by
        intro ks
        induction ks with
        | nil =>
          intro t1 m1 t2 m2 cs _ hf hc
          simp only [forEach, Except.ok.injEq, Prod.mk.injEq] at hf
          simp only [List.map_nil, allOf, Option.some.injEq] at hc
          obtain ⟨-, rfl⟩ := hf
          subst hc
          rfl
        | cons c ks ihk =>
          intro t1 m1 t2 m2 cs hr hf hc
          obtain ⟨x, xs, hx, hxs, rfl⟩ := allOf_cons hc
          simp only [forEach] at hf
          cases hp : placeTreeCounted boxes depth c lc.1 E.opacity lc.2 (t1, m1) with
          | error e => rw [hp] at hf; cases hf
          | ok r =>
            obtain ⟨t3, m3⟩ := r
            rw [hp] at hf
            have h3 := ih hp (hn.restyled hr) (by rw [draw_form hr.form]; exact hx)
            have hr3 : Restyled t1 t3 := by
              have := placeTreeCounted_uncounted boxes depth c lc.1 E.opacity lc.2 (t1, m1)
              rw [hp] at this
              exact placeTree_restyled _ this.symm
            have := ihk t3 m3 t2 m2 xs (hr.trans hr3) hf hxs
            rw [this, h3]
            simp only [Shown.sizes, Nat.add_assoc]
      have := loop _ _ _ _ _ _ hr0 h hcs
      rw [this]
      rcases hsh with ⟨tx, -, rfl, rfl⟩ | ⟨-, rfl⟩
      · rfl
      · simp only [Shown.size, Nat.add_assoc]

/-! ## Styling -/

theorem voidElements_leafTags (tag : String) : tag ∈ voidElements ↔ tag ∈ leafTags := by
  simp only [voidElements, leafTags, List.mem_cons, List.not_mem_nil, or_false]
  tauto

theorem matched_counts (l : List ElementStyle) : ∀ c : CascadeStats, CascadeStats.matched c l =
    { c with matchesStatic := c.matchesStatic + l.countP (fun r => match r with | .static _ => true | .dynamic _ => false),
             matchesDynamic := c.matchesDynamic + l.countP (fun r => match r with | .static _ => false | .dynamic _ => true) } := by
  induction l with
  | nil => intro c; rfl
  | cons r l ih =>
    intro c
    cases r with
    | static s => rw [CascadeStats.matched, ih]; simp only [List.countP_cons]; simp [Nat.add_assoc, Nat.add_comm]
    | dynamic s => rw [CascadeStats.matched, ih]; simp only [List.countP_cons]; simp [Nat.add_assoc, Nat.add_comm]

theorem applied_counts (sizes : Sizes) (l : ComputedStyle) : ∀ s (c : CascadeStats), (applyAllCounted sizes l s c).2 =
    { c with applyOk := c.applyOk + l.countP (fun x => (assignment sizes x.1.key x.2).2),
             applyError := c.applyError + l.countP (fun x => !(assignment sizes x.1.key x.2).2) } := by
  induction l with
  | nil => intro s c; rfl
  | cons x l ih =>
    intro s c
    obtain ⟨d, v⟩ := x
    rw [applyAllCounted, ih]
    by_cases h : (assignment sizes d.key v).2 = true
    · rw [if_pos h]; simp [List.countP_cons, h, Nat.add_assoc, Nat.add_comm]
    · rw [if_neg h]; simp [List.countP_cons, h, Nat.add_assoc, Nat.add_comm]

/-- The counters of one element. -/
def elementStats (env : FrameEnv) (n : NodeId) (sizes : Sizes) (final : ComputedStyle) : CascadeStats where
  matchesStatic := (env.rules n).countP fun r => match r with | .static _ => true | .dynamic _ => false
  matchesDynamic := (env.rules n).countP fun r => match r with | .static _ => false | .dynamic _ => true
  applyOk := (env.order.style n final).countP fun x => (assignment sizes x.1.key x.2).2
  applyError := (env.order.style n final).countP fun x => !(assignment sizes x.1.key x.2).2

theorem styleElementCounted_steps {env : FrameEnv} {t : Tree} {n : NodeId} {parent e : Element} {sizes : Sizes} {vars vars' : Variables}
    {layout l : LayoutStyle} {e' : Element} {c : CascadeStats} (h : styleElementCounted env t n parent sizes vars layout e = .ok (((l, e'), vars'), c)) :
    ∃ rules declared animators animated transitions final, Steps env t n parent sizes vars layout e l e' vars' rules declared animators animated transitions final ∧
      c = elementStats env n sizes final := by
  unfold styleElementCounted at h
  simp only at h
  split at h
  · cases h
  rename_i rules h1
  split at h
  · cases h
  rename_i vars1 declared h2
  split at h
  · cases h
  rename_i animators animated h3
  split at h
  · cases h
  rename_i transitions final h4
  simp only [applyAllCounted_fst, applied_counts, matched_counts, Nat.zero_add] at h
  injection h with h
  injection h with h h8
  injection h with h h5
  injection h with h6 h7
  subst h5
  exact ⟨rules, declared, animators, animated, transitions, final, ⟨h1, h2, h3, h4, h6.symm, h7.symm⟩, h8.symm⟩

/-- What was counted for node `v`, styled between `s` and `s'`. -/
def CountedAt (env : FrameEnv) (s s' : Styled) (v : NodeId) (c : CascadeStats) : Prop :=
  ∃ parent sizes vars e l e' vars' rules declared animators animated transitions final,
    s.tree.ctx v = some e ∧ e.text = none ∧ s'.tree.ctx v = some e' ∧ s'.layouts v = l ∧
    Steps env s.tree v parent sizes vars (s.layouts v) e l e' vars' rules declared animators animated transitions final ∧ c = elementStats env v sizes final

/-- All that was counted, one entry for each element with a style of its own. -/
structure Tally (env : FrameEnv) (rules : Nat) (s s' : Styled) (n : NodeId) (m m' : Metrics) (l : List (NodeId × CascadeStats)) : Prop where
  sum : m' = l.foldl (fun m x => m.cascaded rules x.2 (s.layouts x.1 != s'.layouts x.1)) m
  entries : ∀ x ∈ l, CountedAt env s s' x.1 x.2
  below : ∀ x ∈ l, InSubtree s.tree n x.1
  nodup : (l.map (·.1)).Nodup
  rest : ∀ v, v ∉ l.map (·.1) → s'.layouts v = s.layouts v
  own : ∀ x ∈ l, Styles s.tree n x.1
  all : ∀ v, Styles s.tree n v → (∀ e, s.tree.ctx v = some e → e.text = none) → v ∈ l.map (·.1)

theorem Styles.head {t : Tree} {n c v : NodeId} {e : Element} (he : t.ctx n = some e) (ht : e.text = none) (hleaf : e.tag ∉ leafTags) (hc : c ∈ t.kids n) (h : Styles t c v) :
    Styles t n v := by
  induction h with
  | body => exact .child .body he ht hleaf hc
  | child _ h1 h2 h3 h4 ih => exact .child ih h1 h2 h3 h4

theorem Styles.cases_head {t : Tree} {n v : NodeId} (h : Styles t n v) : v = n ∨ ∃ e c, t.ctx n = some e ∧ e.text = none ∧ e.tag ∉ leafTags ∧ c ∈ t.kids n ∧ Styles t c v := by
  induction h with
  | body => exact .inl rfl
  | child hp h1 h2 h3 h4 ih =>
    rcases ih with rfl | ⟨e, c, k1, k2, k3, k4, k5⟩
    · exact .inr ⟨_, _, h1, h2, h3, h4, .body⟩
    · exact .inr ⟨e, c, k1, k2, k3, k4, .child k5 h1 h2 h3 h4⟩

theorem Styles.restyled {t t' : Tree} (hr : Restyled t t') {n v : NodeId} (h : Styles t n v) : Styles t' n v := by
  induction h with
  | body => exact .body
  | child hp h1 h2 h3 h4 ih =>
    obtain ⟨e', g1, g2⟩ := hr.there _ _ h1
    exact .child ih g1 (by rw [g2.1.text]; exact h2) (by rw [g2.1.tag]; exact h3) (by rw [hr.kids]; exact h4)

theorem Styles.unstyled {t t' : Tree} (hr : Restyled t t') {n v : NodeId} (h : Styles t' n v) : Styles t n v := by
  induction h with
  | body => exact .body
  | child hp h1 h2 h3 h4 ih =>
    obtain ⟨e, g1, g2⟩ := (Tree.Related.ctxRel hr).back h1
    exact .child ih g1 (by rw [← g2.1.text]; exact h2) (by rw [← g2.1.tag]; exact h3) (by rw [← hr.kids]; exact h4)

theorem foldl_same {α β : Type} {f g : β → α → β} (l : List α) (h : ∀ b, ∀ a ∈ l, f b a = g b a) : ∀ b, l.foldl f b = l.foldl g b := by
  induction l with
  | nil => intro b; rfl
  | cons a l ih =>
    intro b
    simp only [List.foldl_cons]
    rw [h b a (by simp)]
    exact ih (fun b x hx => h b x (by simp [hx])) _

theorem Steps.based {env t t' n parent sizes vars layout e l e' vars' rules declared animators animated transitions final} (hr : Restyled t t')
    (h : Steps env t' n parent sizes vars layout e l e' vars' rules declared animators animated transitions final) :
    Steps env t n parent sizes vars layout e l e' vars' rules declared animators animated transitions final :=
  ⟨(applied_restyled hr n (env.rules n)).symm.trans h.hRules, h.hBlocks, h.hAnimators, h.hTransitions, h.hLayout, h.hElement⟩

theorem CountedAt.moved {env : FrameEnv} {s s1 s2 s3 : Styled} {v : NodeId} {c : CascadeStats} (h : CountedAt env s1 s3 v c) (hr : Restyled s.tree s1.tree)
    (h1 : s1.tree.ctx v = s.tree.ctx v ∧ s1.layouts v = s.layouts v) (h2 : s2.tree.ctx v = s3.tree.ctx v ∧ s2.layouts v = s3.layouts v) : CountedAt env s s2 v c := by
  obtain ⟨parent, sizes, vars, e, l, e', vars', rules, declared, animators, animated, transitions, final, k1, k2, k3, k4, k5, k6⟩ := h
  rw [h1.2] at k5
  exact ⟨parent, sizes, vars, e, l, e', vars', rules, declared, animators, animated, transitions, final, h1.1 ▸ k1, k2, h2.1.trans k3, h2.2.trans k4, k5.based hr, k6⟩

theorem styleTreeCounted_plain {rules : Nat} {env : FrameEnv} {depth : Nat} {n : NodeId} {sizes : Sizes} {vars : Variables} {s s' : Styled} {m m' : Metrics}
    (h : styleTreeCounted rules env depth n sizes vars (s, m) = .ok (s', m')) : styleTree env depth n sizes vars s = .ok s' := by
  have := styleTreeCounted_uncounted rules env depth n sizes vars (s, m)
  rw [h] at this
  exact this.symm

theorem styleTreeCounted_tally {rules : Nat} {env : FrameEnv} (depth : Nat) {n : NodeId} {sizes : Sizes} {vars : Variables} {s s' : Styled} {m m' : Metrics}
    (hl : Linked s.tree) (h : styleTreeCounted rules env depth n sizes vars (s, m) = .ok (s', m')) : ∃ l, Tally env rules s s' n m m' l := by
  induction depth generalizing n sizes vars s s' m m' with
  | zero => cases h
  | succ depth ih =>
    simp only [styleTreeCounted] at h
    split at h
    case h_2 => cases h
    case h_1 parent e hp he =>
      by_cases ht : e.text.isSome
      · rw [if_pos ht] at h
        injection h with h
        injection h with h1 h2
        subst h1; subst h2
        refine ⟨[], rfl, by simp, by simp, by simp, fun v _ => ?_, by simp, fun v hv hno => ?_⟩
        · by_cases hv : v = n
          · subst hv; simp [Styled.put]
          · simp [Styled.put, upd_other _ _ hv]
        · exfalso
          rcases hv.cases_head with rfl | ⟨e1, c, k1, k2, -⟩
          · rw [hno e he] at ht; cases ht
          · rw [he] at k1; injection k1 with k1; subst k1; rw [k2] at ht; cases ht
      · rw [if_neg ht] at h
        have ht' : e.text = none := by cases hx : e.text with | none => rfl | some _ => rw [hx] at ht; simp at ht
        cases hse : styleElementCounted env s.tree n parent sizes vars (s.layouts n) e with
        | error t => rw [hse] at h; cases h
        | ok r =>
          obtain ⟨⟨⟨l, e'⟩, vars'⟩, stats⟩ := r
          rw [hse] at h
          dsimp only at h
          obtain ⟨rs, declared, animators, animated, transitions, final, hst, hstats⟩ := styleElementCounted_steps hse
          have hplain := styleElement_steps.2 ⟨_, _, _, _, _, _, hst⟩
          obtain ⟨f1, f2, f3⟩ := styleElement_form hplain
          have hfr := put_framed s he f1 f2 f3 l
          have hput : (s.put n l e').layouts n = l := by simp [Styled.put]
          have hctx : (s.put n l e').tree.ctx n = some e' := by simp [Styled.put, Tree.setCtx]
          by_cases hleaf : e'.tag ∈ leafTags
          · rw [if_pos hleaf] at h
            injection h with h
            injection h with h1 h2
            subst h1; subst h2
            refine ⟨[(n, stats)], by simp [hput], ?_, ?_, by simp, fun v hv => ?_, ?_, fun v hv _ => ?_⟩
            · intro x hx
              simp only [List.mem_singleton] at hx
              subst hx
              exact ⟨parent, sizes, vars, e, l, e', vars', rs, declared, animators, animated, transitions, final, he, ht', hctx, hput, hst, hstats⟩
            · intro x hx
              simp only [List.mem_singleton] at hx
              subst hx
              exact .here
            · have hv : v ≠ n := by simpa using hv
              simp [Styled.put, upd_other _ _ hv]
            · intro x hx
              simp only [List.mem_singleton] at hx
              subst hx
              exact .body
            · rcases hv.cases_head with rfl | ⟨e1, c, k1, -, k3, -⟩
              · simp
              · rw [he] at k1; injection k1 with k1; subst k1; rw [f1.tag] at hleaf; exact absurd hleaf k3
          · rw [if_neg hleaf] at h
            have loop : ∀ (cs : List NodeId) (s1 s2 : Styled) (m1 m2 : Metrics), cs.Nodup → (∀ c ∈ cs, c ∈ s.tree.kids n) → Framed s s1 n →
                (∀ c ∈ cs, ∀ m, InSubtree s.tree c m → s1.tree.ctx m = s.tree.ctx m ∧ s1.layouts m = s.layouts m) →
                forEach (fun s c => styleTreeCounted rules env depth c (sizes.under e') vars' s) cs (s1, m1) = .ok (s2, m2) →
                (∀ m, (∀ c ∈ cs, ¬ InSubtree s.tree c m) → s2.tree.ctx m = s1.tree.ctx m ∧ s2.layouts m = s1.layouts m) ∧
                ∃ k : List (NodeId × CascadeStats), m2 = k.foldl (fun m x => m.cascaded rules x.2 (s.layouts x.1 != s2.layouts x.1)) m1 ∧
                  (∀ x ∈ k, CountedAt env s s2 x.1 x.2) ∧ (∀ x ∈ k, ∃ c ∈ cs, InSubtree s.tree c x.1) ∧ (k.map (·.1)).Nodup ∧
                  (∀ v, v ∉ k.map (·.1) → s2.layouts v = s1.layouts v) ∧ (∀ x ∈ k, ∃ c ∈ cs, Styles s.tree c x.1) ∧
                  (∀ c ∈ cs, ∀ v, Styles s.tree c v → (∀ e, s.tree.ctx v = some e → e.text = none) → v ∈ k.map (·.1)) := by
              intro cs
              induction cs with
              | nil =>
                intro s1 s2 m1 m2 _ _ _ _ hf
                simp only [forEach, Except.ok.injEq, Prod.mk.injEq] at hf
                obtain ⟨rfl, rfl⟩ := hf
                exact ⟨fun _ _ => ⟨rfl, rfl⟩, [], rfl, by simp, by simp, by simp, fun _ _ => rfl, by simp, by simp⟩
              | cons c cs ihc =>
                intro s1 s2 m1 m2 hnd hmem h1 hsame hf
                simp only [forEach] at hf
                cases hc3 : styleTreeCounted rules env depth c (sizes.under e') vars' (s1, m1) with
                | error t => rw [hc3] at hf; cases hf
                | ok r =>
                  obtain ⟨s3, m3⟩ := r
                  rw [hc3] at hf
                  have hc := hmem c (by simp)
                  have hcp := hl.link _ _ hc
                  have hl1 := hl.restyled h1.restyled
                  obtain ⟨g1, -⟩ := styleTree_spec depth hl1 (styleTreeCounted_plain hc3)
                  obtain ⟨k3, T⟩ := ih hl1 hc3
                  have hunder : InSubtree s.tree n c := .deeper hcp .here
                  have h3 : Framed s s3 n := h1.trans g1 .here hunder
                  have hother : ∀ m, ¬ InSubtree s.tree c m → s3.tree.ctx m = s1.tree.ctx m ∧ s3.layouts m = s1.layouts m := fun m hm =>
                    ⟨g1.ctx m (fun hu => hm ((InSubtree.restyled h1.restyled).1 hu)), g1.layouts m (fun hu => hm ((InSubtree.restyled h1.restyled).1 hu))⟩
                  have hdis : ∀ c' ∈ cs, ∀ m, InSubtree s.tree c' m → ¬ InSubtree s.tree c m := by
                    intro c' hc' m hm hm'
                    have := InSubtree.siblings hl hcp (hl.link _ _ (hmem c' (by simp [hc']))) hm' hm
                    subst this
                    exact (List.nodup_cons.1 hnd).1 hc'
                  obtain ⟨q0, k, q1, q2, q3, q4, q5, q6, q7⟩ := ihc s3 s2 m3 m2 (List.nodup_cons.1 hnd).2 (fun c' hc' => hmem c' (by simp [hc'])) h3
                    (fun c' hc' m hm => by
                      obtain ⟨q1, q2⟩ := hsame c' (by simp [hc']) m hm
                      obtain ⟨r1, r2⟩ := hother m (hdis c' hc' m hm)
                      exact ⟨r1.trans q1, r2.trans q2⟩) hf
                  have below3 : ∀ x ∈ k3, InSubtree s.tree c x.1 := fun x hx => (InSubtree.restyled h1.restyled).1 (T.below x hx)
                  have from3 : ∀ x ∈ k3, s1.tree.ctx x.1 = s.tree.ctx x.1 ∧ s1.layouts x.1 = s.layouts x.1 := fun x hx => hsame c (by simp) _ (below3 x hx)
                  have to3 : ∀ x ∈ k3, s2.tree.ctx x.1 = s3.tree.ctx x.1 ∧ s2.layouts x.1 = s3.layouts x.1 := fun x hx =>
                    q0 _ (fun c' hc' hu => hdis c' hc' _ hu (below3 x hx))
                  refine ⟨fun v hv => ?_, k3 ++ k, ?_, ?_, ?_, ?_, ?_, ?_, ?_⟩
                  · obtain ⟨r1, r2⟩ := q0 v (fun c' hc' => hv c' (by simp [hc']))
                    obtain ⟨r3, r4⟩ := hother v (hv c (by simp))
                    exact ⟨r1.trans r3, r2.trans r4⟩
                  · rw [List.foldl_append, q1, T.sum]
                    congr 1
                    refine foldl_same _ (fun b x hx => ?_) _
                    rw [(from3 x hx).2, (to3 x hx).2]
                  · intro x hx
                    rcases List.mem_append.1 hx with hx | hx
                    · exact (T.entries x hx).moved h1.restyled (from3 x hx) (to3 x hx)
                    · exact q2 x hx
                  · intro x hx
                    rcases List.mem_append.1 hx with hx | hx
                    · exact ⟨c, by simp, below3 x hx⟩
                    · obtain ⟨c', hc', hu⟩ := q3 x hx
                      exact ⟨c', by simp [hc'], hu⟩
                  · rw [List.map_append]
                    refine List.nodup_append.2 ⟨T.nodup, q4, ?_⟩
                    intro a ha b hb hab
                    subst hab
                    obtain ⟨x, hx, rfl⟩ := List.mem_map.1 ha
                    obtain ⟨y, hy, hxy⟩ := List.mem_map.1 hb
                    obtain ⟨c', hc', hu⟩ := q3 y hy
                    rw [hxy] at hu
                    exact hdis c' hc' _ hu (below3 x hx)
                  · intro v hv
                    rw [List.map_append, List.mem_append, not_or] at hv
                    rw [q5 v hv.2]
                    exact T.rest v hv.1
                  · intro x hx
                    rcases List.mem_append.1 hx with hx | hx
                    · exact ⟨c, by simp, (T.own x hx).unstyled h1.restyled⟩
                    · obtain ⟨c', hc', hu⟩ := q6 x hx
                      exact ⟨c', by simp [hc'], hu⟩
                  · intro c' hc' v hv hno
                    rw [List.map_append, List.mem_append]
                    rcases List.mem_cons.1 hc' with rfl | hc'
                    · refine .inl (T.all v (hv.restyled h1.restyled) (fun e1 he1 => ?_))
                      obtain ⟨e0, g1, g2⟩ := (Tree.Related.ctxRel h1.restyled).back he1
                      rw [g2.1.text]; exact hno e0 g1
                    · exact .inr (q7 c' hc' v hv hno)
            obtain ⟨q0, k, q1, q2, q3, q4, q5, q6, q7⟩ := loop _ _ _ _ _ (hl.nodup n) (fun _ h => h) hfr
              (fun c hc m hm => by
                have h1 := hm.le hl
                have h2 := hl.older _ _ (hl.link _ _ hc)
                have hne : m ≠ n := by unfold NodeId at *; omega
                simp only [Styled.put, Tree.setCtx, upd_other _ _ hne]
                exact ⟨trivial, trivial⟩) h
            have hself := q0 n (fun c hc hu => by
              have h1 := hu.le hl
              have h2 := hl.older _ _ (hl.link _ _ hc)
              unfold NodeId at *; omega)
            refine ⟨(n, stats) :: k, ?_, ?_, ?_, ?_, ?_, ?_, ?_⟩
            · rw [List.foldl_cons, q1]
              simp only [hself.2, hput]
            · intro x hx
              rcases List.mem_cons.1 hx with rfl | hx
              · exact ⟨parent, sizes, vars, e, l, e', vars', rs, declared, animators, animated, transitions, final, he, ht', hself.1.trans hctx, hself.2.trans hput, hst, hstats⟩
              · exact q2 x hx
            · intro x hx
              rcases List.mem_cons.1 hx with rfl | hx
              · exact .here
              · obtain ⟨c, hc, hu⟩ := q3 x hx
                exact (InSubtree.deeper (hl.link _ _ hc) .here).trans hu
            · rw [List.map_cons]
              refine List.nodup_cons.2 ⟨fun hx => ?_, q4⟩
              obtain ⟨x, hx, hxn⟩ := List.mem_map.1 hx
              obtain ⟨c, hc, hu⟩ := q3 x hx
              rw [hxn] at hu
              have h1 := hu.le hl
              have h2 := hl.older _ _ (hl.link _ _ hc)
              unfold NodeId at *; dsimp only at *; omega
            · intro v hv
              rw [List.map_cons, List.mem_cons, not_or] at hv
              rw [q5 v hv.2]
              simp [Styled.put, upd_other _ _ hv.1]
            · intro x hx
              rcases List.mem_cons.1 hx with rfl | hx
              · exact .body
              · obtain ⟨c, hc, hu⟩ := q6 x hx
                exact Styles.head he ht' (by rw [← f1.tag]; exact hleaf) hc hu
            · intro v hv hno
              rw [List.map_cons, List.mem_cons]
              rcases hv.cases_head with rfl | ⟨e1, c, -, -, -, k4, k5⟩
              · exact .inl rfl
              · exact .inr (q7 c k4 v k5 hno)

theorem styleTreeCounted_styled {rules : Nat} {env : FrameEnv} (depth : Nat) {n : NodeId} {sizes : Sizes} {vars : Variables} {s s' : Styled} {m m' : Metrics}
    (hl : Linked s.tree) (hn : s.tree.Named) (h : styleTreeCounted rules env depth n sizes vars (s, m) = .ok (s', m')) {d : Nat} {shown : Shown} (hd : s.tree.draw d n = some shown) :
    m'.cascades = m.cascades + shown.styled := by
  induction depth generalizing n sizes vars s s' m m' d shown with
  | zero => cases h
  | succ depth ih =>
    simp only [styleTreeCounted] at h
    split at h
    case h_2 => cases h
    case h_1 parent e hp he =>
      obtain ⟨k, cs, rfl, hcs, hsh⟩ := draw_parts hn he hd
      by_cases ht : e.text.isSome
      · rw [if_pos ht] at h
        injection h with h
        injection h with h1 h2
        subst h1; subst h2
        rcases hsh with ⟨tx, -, rfl, rfl⟩ | ⟨hno, rfl⟩
        · rfl
        · rw [hno] at ht; cases ht
      · rw [if_neg ht] at h
        have hno : e.text = none := by cases hx : e.text with | none => rfl | some _ => rw [hx] at ht; simp at ht
        obtain rfl : shown = .element e.tag e.attrs cs := by
          rcases hsh with ⟨tx, htx, rfl, rfl⟩ | ⟨-, h⟩
          · rw [hno] at htx; cases htx
          · exact h
        cases hse : styleElementCounted env s.tree n parent sizes vars (s.layouts n) e with
        | error t => rw [hse] at h; cases h
        | ok r =>
          obtain ⟨⟨⟨l, e'⟩, vars'⟩, stats⟩ := r
          rw [hse] at h
          dsimp only at h
          obtain ⟨_, _, _, _, _, _, hst, _⟩ := styleElementCounted_steps hse
          obtain ⟨f1, f2, f3⟩ := styleElement_form (styleElement_steps.2 ⟨_, _, _, _, _, _, hst⟩)
          have hfr := put_framed s he f1 f2 f3 l
          rw [f1.tag] at h
          simp only [Shown.styled, voidElements_leafTags]
          by_cases hleaf : e.tag ∈ leafTags
          · rw [if_pos hleaf] at h ⊢
            injection h with h
            injection h with h1 h2
            subst h2
            rfl
          · rw [if_neg hleaf] at h ⊢
            have loop : ∀ (ks : List NodeId) (s1 s2 : Styled) (m1 m2 : Metrics) (cs : List Shown), Restyled s.tree s1.tree →
                forEach (fun s c => styleTreeCounted rules env depth c (sizes.under e') vars' s) ks (s1, m1) = .ok (s2, m2) → allOf (ks.map (s.tree.draw k)) = some cs →
                m2.cascades = m1.cascades + Shown.styleds cs := by
              intro ks
              induction ks with
              | nil =>
                intro s1 s2 m1 m2 cs _ hf hc
                simp only [forEach, Except.ok.injEq, Prod.mk.injEq] at hf
                simp only [List.map_nil, allOf, Option.some.injEq] at hc
                obtain ⟨-, rfl⟩ := hf
                subst hc
                rfl
              | cons c ks ihk =>
                intro s1 s2 m1 m2 cs hr hf hc
                obtain ⟨x, xs, hx, hxs, rfl⟩ := allOf_cons hc
                simp only [forEach] at hf
                cases hp : styleTreeCounted rules env depth c (sizes.under e') vars' (s1, m1) with
                | error e => rw [hp] at hf; cases hf
                | ok r =>
                  obtain ⟨s3, m3⟩ := r
                  rw [hp] at hf
                  have hl1 := hl.restyled hr
                  have h3 := ih hl1 (hn.restyled hr) hp (by rw [draw_form hr.form]; exact hx)
                  have hr3 : Restyled s1.tree s3.tree := (styleTree_spec depth hl1 (styleTreeCounted_plain hp)).1.restyled
                  have := ihk s3 s2 m3 m2 xs (hr.trans hr3) hf hxs
                  rw [this, h3]
                  simp only [Shown.styleds, Nat.add_assoc]
            rw [loop _ _ _ _ _ _ hfr.restyled h hcs]
            simp only [Metrics.cascaded, Nat.add_assoc]

theorem placeTreeCounted_others (boxes : NodeId → Layout) (depth : Nat) : ∀ {n location opacity clipping t m t' m'},
    placeTreeCounted boxes depth n location opacity clipping (t, m) = .ok (t', m') → m' = { m with elementsShown := m'.elementsShown } := by
  induction depth with
  | zero => intro n location opacity clipping t m t' m' h; cases h
  | succ depth ih =>
    intro n location opacity clipping t m t' m' h
    simp only [placeTreeCounted] at h
    cases he : t.ctx n with
    | none => rw [he] at h; cases h
    | some e =>
      rw [he] at h
      dsimp only at h
      have loop : ∀ (ks : List NodeId) (x : Rat × Rat) (y : Rat) (z : Option Layout) (t1 : Tree) (m1 : Metrics) (t2 : Tree) (m2 : Metrics),
          forEach (fun t c => placeTreeCounted boxes depth c x y z t) ks (t1, m1) = .ok (t2, m2) → m2 = { m1 with elementsShown := m2.elementsShown } := by
        intro ks x y z
        induction ks with
        | nil =>
          intro t1 m1 t2 m2 hf
          simp only [forEach, Except.ok.injEq, Prod.mk.injEq] at hf
          obtain ⟨-, rfl⟩ := hf
          rfl
        | cons c ks ihk =>
          intro t1 m1 t2 m2 hf
          simp only [forEach] at hf
          cases hp : placeTreeCounted boxes depth c x y z (t1, m1) with
          | error e => rw [hp] at hf; cases hf
          | ok r =>
            obtain ⟨t3, m3⟩ := r
            rw [hp] at hf
            have h3 := ih hp
            have h2 := ihk t3 m3 t2 m2 hf
            rw [h2, h3]
      have := loop _ _ _ _ _ _ _ _ h
      rw [this]

theorem placeTreeCounted_updates (boxes : NodeId → Layout) (depth : Nat) {n location opacity clipping t m t' m'}
    (h : placeTreeCounted boxes depth n location opacity clipping (t, m) = .ok (t', m')) : m'.updates = m.updates := by
  rw [placeTreeCounted_others _ _ h]

theorem placeTreeCounted_layouts (boxes : NodeId → Layout) (depth : Nat) {n location opacity clipping t m t' m'}
    (h : placeTreeCounted boxes depth n location opacity clipping (t, m) = .ok (t', m')) : m'.layouts = m.layouts := by
  rw [placeTreeCounted_others _ _ h]

theorem placeTreeCounted_stats (boxes : NodeId → Layout) (depth : Nat) {n location opacity clipping t m t' m'}
    (h : placeTreeCounted boxes depth n location opacity clipping (t, m) = .ok (t', m')) :
    m'.matchesStatic = m.matchesStatic ∧ m'.matchesDynamic = m.matchesDynamic ∧ m'.applyOk = m.applyOk ∧ m'.applyError = m.applyError := by
  rw [placeTreeCounted_others _ _ h]
  exact ⟨rfl, rfl, rfl, rfl⟩

theorem Styles.form {t t' : Tree} (hr : SameForm t t') {n v : NodeId} (h : Styles t n v) : Styles t' n v := by
  induction h with
  | body => exact .body
  | child hp h1 h2 h3 h4 ih =>
    obtain ⟨e', g1, g2⟩ := hr.there _ _ h1
    exact .child ih g1 (by rw [g2.text]; exact h2) (by rw [g2.tag]; exact h3) (by rw [hr.kids]; exact h4)

theorem Styles.unform {t t' : Tree} (hr : SameForm t t') {n v : NodeId} (h : Styles t' n v) : Styles t n v := by
  induction h with
  | body => exact .body
  | child hp h1 h2 h3 h4 ih =>
    obtain ⟨e, g1, g2⟩ := (Tree.Related.ctxRel hr).back h1
    exact .child ih g1 (by rw [← g2.text]; exact h2) (by rw [← g2.tag]; exact h3) (by rw [← hr.kids]; exact h4)

/-! ## A whole update -/

variable {p : Platform}

theorem named_opened {fuel : Nat} {document : Html} {css : Css} {a : App} (h : openApp p fuel document css = .ok a) : a.screen.view.stage.tree.Named := by
  obtain ⟨σ, ho⟩ := openApp_opened h
  have hv := renderView_ok ho.rendered
  have hm : σ.tree.Named := by
    intro n e he
    obtain ⟨e', h1, h2⟩ := hv.nodes n (hv.wf.exist n (by rw [he]; rfl))
    rw [he] at h1; injection h1 with h1; subst h1; exact h2
  exact every_related (updateTrees_rebound (inline := p.inline) _ (s := ⟨σ.tree, σ.staticId⟩) hv.wf (defaultReactions_ok ho.rendered) ho.stage)
    (fun _ e e' hr hq => by rw [hr]; exact hq) hm

theorem named_bound {fuel : Nat} {document : Html} {a : App} (h : Living p fuel document a) (hn : a.screen.view.stage.tree.Named) {value : Json} {v : View}
    (hv : a.screen.view.update p.inline value = .ok v) : v.stage.tree.Named :=
  every_related (h.rebound hv) (fun _ e e' hr hq => by rw [hr]; exact hq) hn

theorem named_updated {fuel fuel' : Nat} {document : Html} {a a' : App} (h : Living p fuel document a) (hn : a.screen.view.stage.tree.Named)
    {order : FrameOrder} {input : Input} {value : Json} {out : Output} (hu : a.update p fuel' order input value = .ok (a', out)) : a'.screen.view.stage.tree.Named := by
  obtain ⟨v, styled, tree, t', ui, g1, g2, g3, g4, g5⟩ := update_parts hu
  have hst : Restyled v.stage.tree styled.tree := styleView_restyled (s := ⟨v.stage.tree, _⟩) (h.bound g1).1 g2
  have hpl : Restyled styled.tree tree := placeTree_restyled _ g3
  have hso := handleOutput_states (session_ok h.session) g1 (hst.trans hpl) g4
  rw [g5]
  exact every_related (Tree.Related.ctxRel hso) (fun _ e e' hr hq => by rw [hr]; exact hq) (((named_bound h hn g1).restyled hst).restyled hpl)

theorem named_run {fuel fuel' : Nat} {document : Html} (fs : List Frame) {a a' : App} {outs : List Output} (h : Living p fuel document a) (hn : a.screen.view.stage.tree.Named)
    (hr : a.run p fuel' fs = .ok (a', outs)) : a'.screen.view.stage.tree.Named := by
  induction fs generalizing a outs with
  | nil => simp only [App.run, Except.ok.injEq, Prod.mk.injEq] at hr; obtain ⟨rfl, -⟩ := hr; exact hn
  | cons f fs ih =>
    obtain ⟨a1, out, rest, h1, h2, -⟩ := run_cons hr
    exact ih (h.updated h1) (named_updated h hn h1) h2

/-- The parts of an update with the counters. -/
theorem updateCounted_parts {fuel : Nat} {order : FrameOrder} {a a' : App} {input : Input} {value : Json} {out : Output} {m m' : Metrics}
    (h : a.updateCounted p fuel order input value m = .ok ((a', out), m')) :
    ∃ v styled tree t' ui m1, a.screen.view.update p.inline value = .ok v ∧
      styleTreeCounted a.css.styles.length (a.env p fuel order input.time) fuel v.body ⟨16, 16, ⟨0, 0, 0, 0⟩, input.viewport.1, input.viewport.2⟩ (fun _ => none)
        (⟨v.stage.tree, upd a.layouts v.root (resizeRoot input.viewport (a.layouts v.root))⟩, { m with updates := m.updates + 1 }) = .ok (styled, m1) ∧
      placeTreeCounted (p.solve (styled.recall order.recall)) fuel v.body (0, 0) 1 none (styled.tree, m1) = .ok (tree, m') ∧
      handleOutput v.emitter v.body input.events (tree, a.screen.ui) = .ok ((t', ui), out) ∧
      a' = ⟨⟨{ v with stage := { v.stage with tree := t' } }, ui⟩, a.css, a.kept, styled.layouts⟩ := by
  unfold App.updateCounted at h
  dsimp only at h
  split at h
  · cases h
  · rename_i v hv
    split at h
    · cases h
    · rename_i styled m1 hs
      split at h
      · cases h
      · rename_i tree m2 hp
        split at h
        · cases h
        · rename_i t' ui out' ho
          injection h with h
          injection h with h h3
          injection h with h1 h2
          subst h1; subst h2; subst h3
          exact ⟨v, styled, tree, t', ui, m1, hv, hs, hp, ho, rfl⟩

end Verif
