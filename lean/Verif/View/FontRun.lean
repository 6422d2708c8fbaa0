import Verif.View.FontValues
/-!
# Fonts that do not change in a run (lemmas for C82)
-/
namespace Verif

variable {p : Platform}

/-- What stays as it was when the program was opened. -/
structure FixedForm (e e' : Element) : Prop where
  tag : e'.tag = e.tag
  children : e'.children = e.children
  text : e'.text.isSome = e.text.isSome
  align : e.text.isSome → e'.font.align = e.font.align

theorem FixedForm.refl (e : Element) : FixedForm e e := ⟨rfl, rfl, rfl, fun _ => rfl⟩

theorem FixedForm.trans {a b c : Element} (h : FixedForm a b) (g : FixedForm b c) : FixedForm a c :=
  ⟨g.tag.trans h.tag, g.children.trans h.children, g.text.trans h.text, fun ht => (g.align (by rw [h.text]; exact ht)).trans (h.align ht)⟩

theorem SameStyled.fixed {e e' : Element} (h : SameStyled e e') : FixedForm e e' ∧ e'.font = e.font := by
  unfold SameStyled at h
  rw [h]
  exact ⟨⟨rfl, rfl, rfl, fun _ => rfl⟩, rfl⟩

theorem Held.fixed {e e' : Element} (h : Held e e') : FixedForm e e' ∧ e'.font = e.font := by
  obtain ⟨h1, h2, -⟩ := h
  unfold Rebound at h1
  have hf : e'.font = e.font := by rw [h1]
  exact ⟨⟨by rw [h1], by rw [h1], h2, fun _ => by rw [hf]⟩, hf⟩

theorem slots_fixed {t t' : Tree} (h : CtxRel FixedForm t t') (root body n : NodeId) : t'.slots root body n = t.slots root body n := by
  unfold Tree.slots
  split
  · rfl
  · cases hc : t.ctx n with
    | none => rw [h.gone n hc]
    | some e =>
      obtain ⟨e', h1, h2⟩ := h.there n e hc
      rw [h1]
      exact h2.children

theorem CtxRel.back' {R : Element → Element → Prop} {t t' : Tree} (h : CtxRel R t t') {n : NodeId} {e' : Element} (he : t'.ctx n = some e') : ∃ e, t.ctx n = some e ∧ R e e' := by
  cases hc : t.ctx n with
  | none => rw [h.gone n hc] at he; cases he
  | some e =>
    obtain ⟨e1, h1, h2⟩ := h.there n e hc
    rw [he] at h1; injection h1 with h1; subst h1
    exact ⟨e, rfl, h2⟩

/-- The nodes that styling gets to whenever they are displayed. -/
inductive Reach (t : Tree) (root body : NodeId) : NodeId → Prop
  | body : Reach t root body body
  | child {q c e} : Reach t root body q → t.ctx q = some e → e.text = none → e.tag ∉ leafTags → c ∈ t.slots root body q → Reach t root body c

theorem styles_reach {t0 t : Tree} {root body : NodeId} (h : CtxRel FixedForm t0 t) (hw : t.Wf root body) {n : NodeId} (hn : Styles t body n) : Reach t0 root body n := by
  induction hn with
  | body => exact .body
  | child _ h1 h2 h3 h4 ih =>
    obtain ⟨e0, g1, g2⟩ := h.back' h1
    refine .child ih g1 ?_ (by rw [← g2.tag]; exact h3) (by rw [← slots_fixed h]; exact hw.sub _ _ h4)
    have := g2.text
    rw [h2] at this
    cases hx : e0.text with
    | none => rfl
    | some _ => rw [hx] at this; cases this

theorem reach_styles {t0 t : Tree} {root body : NodeId} (h : CtxRel FixedForm t0 t) (hw : t.Wf root body) (hpar : t.par body = some root) {n : NodeId} (hd : Displayed t body n)
    (hn : Reach t0 root body n) : Styles t body n := by
  induction hd with
  | root => exact .body
  | @child q c hq hc ih =>
    cases hn with
    | body => exact .body
    | child h1 h2 h3 h4 h5 =>
      rename_i q' e0
      have : q = q' := hw.slotsUnique _ _ _ (hw.sub _ _ hc) (by rw [slots_fixed h]; exact h5)
      subst this
      obtain ⟨e, g1, g2⟩ := h.there _ _ h2
      refine .child (ih h1) g1 ?_ (by rw [g2.tag]; exact h4) hc
      have := g2.text
      rw [h3] at this
      cases hx : e.text with
      | none => rfl
      | some _ => rw [hx] at this; cases this

theorem Reach.le {t : Tree} {root body n : NodeId} (hw : t.Wf root body) (h : Reach t root body n) : body ≤ n := by
  induction h with
  | body => exact Nat.le_refl _
  | child _ _ _ _ hc ih => exact Nat.le_of_lt (Nat.lt_of_le_of_lt ih (hw.slotsYounger _ _ hc).1)

/-- Inline styles with fixed fonts, and these ones for each element. -/
def FontBlock (fonts : NodeId → List Declaration) (n : NodeId) (b : List Declaration) : Prop :=
  (∀ x ∈ b, x.FixedFont ∧ x.FontsAside) ∧ b.filter Declaration.aboutFonts = fonts n

/-- Between updates of a program with fixed fonts, before updates with `values`. -/
structure Lettered (p : Platform) (fuel : Nat) (document : Html) (fonts : NodeId → List Declaration) (a : App) (values : List Json) : Prop where
  living : Living p fuel document a
  calm : a.screen.view.stage.tree.Calm asideManner.loose
  fed : Fed p fuel document (FontBlock fonts) a values
  rules : ∀ n, FixedRules (a.kept n)
  frames : PlainFrames a.css.animations

theorem Lettered.bound {fuel : Nat} {document : Html} {fonts : NodeId → List Declaration} {a : App} {value : Json} {values : List Json} (h : Lettered p fuel document fonts a (value :: values)) {v : View}
    (hv : a.screen.view.update p.inline value = .ok v) : v.stage.tree.Calm asideManner ∧ ∀ n e, v.stage.tree.ctx n = some e → FontBlock fonts n e.style := by
  obtain ⟨v0, hr, htw⟩ := (session_ok h.living.session).twin
  exact ⟨((twin_kids hr htw hv).2 _ (fun _ _ => trivial) h.calm).with trivial (fun n e he => (h.fed.bound hv n e he).1), h.fed.bound hv⟩

theorem Lettered.updated {fuel fuel' : Nat} {document : Html} {fonts : NodeId → List Declaration} {a a' : App} {value : Json} {values : List Json} (h : Lettered p fuel document fonts a (value :: values))
    {order : FrameOrder} (ho : order.Fair) {input : Input} {out : Output} (hu : a.update p fuel' order input value = .ok (a', out)) : Lettered p fuel document fonts a' values := by
  refine ⟨h.living.updated hu, ?_, h.fed.updated h.living.session hu, ?_, ?_⟩
  all_goals
    obtain ⟨v, styled, tree, t', ui, g1, g2, g3, g4, g5⟩ := update_parts hu
    have hst : Restyled v.stage.tree styled.tree := styleView_restyled (s := ⟨v.stage.tree, _⟩) (h.living.bound g1).1 g2
    have hpl : Restyled styled.tree tree := placeTree_restyled _ g3
    have hso := handleOutput_states (session_ok h.living.session) g1 (hst.trans hpl) g4
    rw [g5]
  · exact (stateOnly_calm (placeTree_calm _ g3 (styleTree_aside ho h.frames h.rules _ g2 (h.bound g1).1)) hso).loosen
  · exact h.rules
  · exact h.frames

theorem Lettered.run {fuel fuel' : Nat} {document : Html} {fonts : NodeId → List Declaration} (fs : List Frame) (hf : ∀ f ∈ fs, f.order.Fair) {a a' : App} {outs : List Output} {values : List Json}
    (h : Lettered p fuel document fonts a (fs.map (·.value) ++ values)) (hr : a.run p fuel' fs = .ok (a', outs)) : Lettered p fuel document fonts a' values := by
  induction fs generalizing a outs with
  | nil => simp only [App.run, Except.ok.injEq, Prod.mk.injEq] at hr; rw [← hr.1]; exact h
  | cons f fs ih =>
    obtain ⟨b1, out, rest, h1, h2, rfl⟩ := run_cons hr
    exact ih (fun f hf' => hf f (by simp [hf'])) (h.updated (hf f (by simp)) h1) h2

/-- What is as it was when the program was opened. -/
structure Fonted (t0 : Tree) (root body : NodeId) (b : App) : Prop where
  sameRoot : b.screen.view.root = root
  sameBody : b.screen.view.body = body
  form : CtxRel FixedForm t0 b.screen.view.stage.tree
  font : ∀ n e0 e, ¬ Reach t0 root body n → t0.ctx n = some e0 → b.screen.view.stage.tree.ctx n = some e → e.font = e0.font

/-- The styling of an update. -/
structure FontFrame (fonts : NodeId → List Declaration) (t0 : Tree) (root body : NodeId) (kept : NodeId → List ElementStyle) (viewport : Rat × Rat) (env : FrameEnv) (s styled : Styled) : Prop where
  wf : s.tree.Wf root body
  par : s.tree.par body = some root
  form : CtxRel FixedForm t0 s.tree
  calm : s.tree.Calm asideManner
  styles : ∀ n e, s.tree.ctx n = some e → FontBlock fonts n e.style
  style : ∃ depth, styleView env depth body viewport s = .ok styled
  fair : env.order.Fair
  rules : env.rules = kept
  frames : PlainFrames env.animations
  font : ∀ n e0 e, ¬ Reach t0 root body n → t0.ctx n = some e0 → styled.tree.ctx n = some e → e.font = e0.font

theorem Fonted.updated {fuel fuel' : Nat} {document : Html} {t0 : Tree} {root body : NodeId} {b b' : App} {value : Json} {values : List Json} {fonts : NodeId → List Declaration} (hu : Lettered p fuel document fonts b (value :: values)) (h : Fonted t0 root body b)
    {order : FrameOrder} (ho : order.Fair) {input : Input} {out : Output} (hup : b.update p fuel' order input value = .ok (b', out)) :
    Fonted t0 root body b' ∧ ∃ env s styled, FontFrame fonts t0 root body b.kept input.viewport env s styled ∧ Tree.Related SameStyled styled.tree b'.screen.view.stage.tree := by
  obtain ⟨v, styled, tree, t', ui, g1, g2, g3, g4, g5⟩ := update_parts hup
  obtain ⟨wf, hk, hpar, hbs⟩ := hu.living.bound g1
  have hst : Restyled v.stage.tree styled.tree := styleView_restyled (s := ⟨v.stage.tree, _⟩) wf g2
  have hpl : Restyled styled.tree tree := placeTree_restyled _ g3
  have hso := handleOutput_states (session_ok hu.living.session) g1 (hst.trans hpl) g4
  have hsame : Tree.Related SameStyled styled.tree t' := SameStyled.related_trans (placeTree_styled _ g3) (stateOnly_styled hso)
  obtain ⟨held, er, eb⟩ := hu.living.held g1
  obtain ⟨hcalm, hstyles⟩ := hu.bound g1
  rw [h.sameRoot] at er
  rw [h.sameBody] at eb
  rw [er, eb] at wf hpar
  rw [eb] at g2
  -- binding
  have hv : CtxRel FixedForm t0 v.stage.tree := by
    refine ⟨fun n hn => held.gone n (h.form.gone n hn), fun n e0 he0 => ?_⟩
    obtain ⟨e1, a1, a2⟩ := h.form.there n e0 he0
    obtain ⟨e2, b1, b2⟩ := held.there n e1 a1
    exact ⟨e2, b1, a2.trans b2.fixed.1⟩
  have hvf : ∀ n e0 e, ¬ Reach t0 root body n → t0.ctx n = some e0 → v.stage.tree.ctx n = some e → e.font = e0.font := by
    intro n e0 e hn he0 he
    obtain ⟨e1, a1, a2⟩ := held.back' he
    rw [a2.fixed.2]
    exact h.font n e0 e1 hn he0 a1
  -- styling
  have hl := linked_of_wf wf
  have hleaves := styleTree_leaves (s := ⟨v.stage.tree, _⟩) _ hl g2
  have hsf : CtxRel FixedForm v.stage.tree styled.tree := by
    refine ⟨hst.gone, fun n e he => ?_⟩
    by_cases hn : Styles v.stage.tree body n
    · cases styledAt_all (s := ⟨v.stage.tree, _⟩) hl g2 hn with
      | text c1 c2 c3 c4 c5 c6 =>
        rw [show v.stage.tree.ctx n = _ from c3] at he; injection he with he; subst he
        exact ⟨_, c5, rfl, rfl, rfl, fun _ => rfl⟩
      | element c1 c2 c3 c4 c5 c6 c7 c8 c9 =>
        rw [show v.stage.tree.ctx n = _ from c3] at he; injection he with he; subst he
        obtain ⟨f1, f2, f3⟩ := styleElement_form c7
        exact ⟨_, c8, f1.tag, f1.children, by rw [f1.text], fun ht => by rw [c4] at ht; cases ht⟩
    · exact ⟨e, by rw [hleaves n hn]; exact he, FixedForm.refl e⟩
  have hsfont : ∀ n e0 e, ¬ Reach t0 root body n → t0.ctx n = some e0 → styled.tree.ctx n = some e → e.font = e0.font := by
    intro n e0 e hn he0 he
    rw [hleaves n (fun hs => hn (styles_reach hv wf hs))] at he
    exact hvf n e0 e hn he0 he
  have hf0 : CtxRel FixedForm t0 styled.tree := CtxRel.chain @FixedForm.trans hv hsf
  constructor
  · rw [g5]
    refine ⟨er, eb, ?_, ?_⟩
    · refine CtxRel.chain @FixedForm.trans hf0 ⟨hsame.gone, fun n e he => ?_⟩
      obtain ⟨e', a1, a2⟩ := hsame.there n e he
      exact ⟨e', a1, a2.fixed.1⟩
    · intro n e0 e hn he0 he
      obtain ⟨e1, a1, -⟩ := hf0.there n e0 he0
      obtain ⟨e2, b1, b2⟩ := hsame.there n e1 a1
      rw [show t'.ctx n = some e from he] at b1; injection b1 with b1; subst b1
      rw [b2.fixed.2]
      exact hsfont n e0 e1 hn he0 a1
  · refine ⟨_, _, styled, ⟨wf, hpar, hv, hcalm, hstyles, ⟨_, g2⟩, ho, rfl, hu.frames, hsfont⟩, ?_⟩
    rw [g5]; exact hsame

/-- What two updates show of a node has the same font. -/
theorem FontFrame.same {fonts : NodeId → List Declaration} {t0 : Tree} {root body : NodeId} (hw0 : t0.Wf root body) {kept : NodeId → List ElementStyle} (hkept : ∀ n, FixedRules (kept n))
    {w1 w2 : Rat × Rat} {env1 env2 : FrameEnv} {s1 s2 r1 r2 : Styled}
    (h1 : FontFrame fonts t0 root body kept w1 env1 s1 r1) (h2 : FontFrame fonts t0 root body kept w2 env2 s2 r2) {n : NodeId} (hn : Reach t0 root body n)
    (d1 : Displayed s1.tree body n) (d2 : Displayed s2.tree body n) {e1 e2 : Element} (he1 : r1.tree.ctx n = some e1) (he2 : r2.tree.ctx n = some e2) :
    e2.font.core = e1.font.core := by
  have step : ∀ {n q : NodeId}, Reach t0 root body n → s1.tree.par n = some q → s2.tree.par n = some q → Displayed s1.tree body n → Displayed s2.tree body n →
      (∀ e1 e2, r1.tree.ctx q = some e1 → r2.tree.ctx q = some e2 → e2.font.core = e1.font.core) →
      ∀ e1 e2, r1.tree.ctx n = some e1 → r2.tree.ctx n = some e2 → e2.font.core = e1.font.core := by
    intro n q hn q1 q2 d1 d2 hpar e1 e2 he1 he2
    obtain ⟨depth1, v1⟩ := h1.style
    obtain ⟨depth2, v2⟩ := h2.style
    have st1 := reach_styles h1.form h1.wf h1.par d1 hn
    have st2 := reach_styles h2.form h2.wf h2.par d2 hn
    have a1 := styledAt_all (linked_of_wf h1.wf) v1 st1
    have a2 := styledAt_all (linked_of_wf h2.wf) v2 st2
    cases a1 with
    | @text p1 parent1 x1 b1 b2 b3 b4 b5 b6 =>
      cases a2 with
      | @text p2 parent2 x2 c1 c2 c3 c4 c5 c6 =>
        rw [q1] at b1; injection b1 with b1; subst b1
        rw [q2] at c1; injection c1 with c1; subst c1
        rw [he1] at b5; injection b5 with b5; subst b5
        rw [he2] at c5; injection c5 with c5; subst c5
        have := hpar _ _ b2 c2
        simp only [Element.inherit, FontFace.core, FontFace.mk.injEq] at this ⊢
        exact this
      | @element p2 parent2 x2 vars2 l2 y2 vars2' c1 c2 c3 c4 c5 c6 c7 c8 c9 =>
        exfalso
        obtain ⟨e0, g1, g2⟩ := h1.form.back' b3
        obtain ⟨e0', g3, g4⟩ := h2.form.back' c3
        rw [g1] at g3; injection g3 with g3; subst g3
        have := g4.text.trans g2.text.symm
        rw [b4, c4] at this
        cases this
    | @element p1 parent1 x1 vars1 l1 y1 vars1' b1 b2 b3 b4 b5 b6 b7 b8 b9 =>
      obtain ⟨e0, g1, g2⟩ := h1.form.back' b3
      cases a2 with
      | @text p2 parent2 x2 c1 c2 c3 c4 c5 c6 =>
        exfalso
        obtain ⟨e0', g3, g4⟩ := h2.form.back' c3
        rw [g1] at g3; injection g3 with g3; subst g3
        have := g4.text.trans g2.text.symm
        rw [b4, c4] at this
        cases this
      | @element p2 parent2 x2 vars2 l2 y2 vars2' c1 c2 c3 c4 c5 c6 c7 c8 c9 =>
        obtain ⟨e0', g3, g4⟩ := h2.form.back' c3
        rw [g1] at g3; injection g3 with g3; subst g3
        rw [q1] at b1; injection b1 with b1; subst b1
        rw [q2] at c1; injection c1 with c1; subst c1
        rw [he1] at b8; injection b8 with b8; subst b8
        rw [he2] at c8; injection c8 with c8; subst c8
        have hp := hpar _ _ b2 c2
        refine styleElement_font h1.fair h2.fair h1.frames h2.frames (by rw [h1.rules, h2.rules]) (by rw [h1.rules]; exact hkept n) (h1.calm _ _ b3) (h2.calm _ _ c3)
          (by rw [(h2.styles _ _ c3).2, (h1.styles _ _ b3).2]) hp ?_ ?_ b7 c7
        · rfl
        simp only [sizesAt]
        split
        · rfl
        · simp only [FontFace.core, FontFace.mk.injEq] at hp; exact hp.2.1
  induction hn generalizing e1 e2 with
  | body =>
    refine step .body h1.par h2.par d1 d2 ?_ e1 e2 he1 he2
    intro x1 x2 hx1 hx2
    have hroot : ¬ Reach t0 root body root := by
      intro hr
      have := hr.le hw0
      have h2 := (hw0.slotsYounger root body (by simp [Tree.slots])).1
      unfold NodeId at *
      omega
    obtain ⟨e0, g1⟩ := Option.isSome_iff_exists.1 hw0.rootExists
    rw [h1.font _ _ _ hroot g1 hx1, h2.font _ _ _ hroot g1 hx2]
  | @child q c e hq hc ht hl hs ih =>
    have hcb : c ≠ body := by
      intro hcb
      have := hq.le hw0
      have h2 := (hw0.slotsYounger _ _ hs).1
      unfold NodeId at *
      omega
    have up : ∀ {s : Tree}, s.Wf root body → CtxRel FixedForm t0 s → Displayed s body c → s.par c = some q ∧ Displayed s body q := by
      intro s hw hf hd
      cases hd with
      | root => exact absurd rfl hcb
      | @child q' _ hq' hc' =>
        have : q' = q := hw.slotsUnique _ _ _ (hw.sub _ _ hc') (by rw [slots_fixed hf]; exact hs)
        subst this
        exact ⟨(hw.link _ _).1 hc', hq'⟩
    obtain ⟨u1, u2⟩ := up h1.wf h1.form d1
    obtain ⟨u3, u4⟩ := up h2.wf h2.form d2
    exact step (.child hq hc ht hl hs) u1 u3 d1 d2 (fun x1 x2 hx1 hx2 => ih u2 u4 hx1 hx2) e1 e2 he1 he2

end Verif
