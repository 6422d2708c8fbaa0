import Verif.View.Look
/-!
# What the steps of an update leave alone (lemmas for C78-C80)
-/
namespace Verif

variable {p : Platform}

/-- The same elements, each in a relation to what it was. -/
structure CtxRel (R : Element → Element → Prop) (t t' : Tree) : Prop where
  gone : ∀ n, t.ctx n = none → t'.ctx n = none
  there : ∀ n e, t.ctx n = some e → ∃ e', t'.ctx n = some e' ∧ R e e'

theorem CtxRel.refl {R : Element → Element → Prop} (hR : ∀ e, R e e) (t : Tree) : CtxRel R t t := ⟨fun _ h => h, fun _ e h => ⟨e, h, hR e⟩⟩

theorem CtxRel.of_ctx {R : Element → Element → Prop} (hR : ∀ e, R e e) {t t' : Tree} (h : t'.ctx = t.ctx) : CtxRel R t t' :=
  ⟨fun _ hn => by rw [h]; exact hn, fun _ e he => ⟨e, by rw [h]; exact he, hR e⟩⟩

theorem CtxRel.trans {R S T : Element → Element → Prop} (hR : ∀ a b c, R a b → S b c → T a c) {t t' t'' : Tree} (h : CtxRel R t t') (g : CtxRel S t' t'') :
    CtxRel T t t'' :=
  ⟨fun n hn => g.gone n (h.gone n hn), fun n e he => by
    obtain ⟨e1, h1, h2⟩ := h.there n e he
    obtain ⟨e2, g1, g2⟩ := g.there n e1 h1
    exact ⟨e2, g1, hR _ _ _ h2 g2⟩⟩

theorem CtxRel.chain {R : Element → Element → Prop} (hR : ∀ {a b c}, R a b → R b c → R a c) {t t' t'' : Tree} (h : CtxRel R t t') (g : CtxRel R t' t'') :
    CtxRel R t t'' := CtxRel.trans (R := R) (S := R) (T := R) (fun _ _ _ a b => hR a b) h g

theorem CtxRel.back {R : Element → Element → Prop} {t t' : Tree} (h : CtxRel R t t') {n : NodeId} {e' : Element} (he : t'.ctx n = some e') :
    ∃ e, t.ctx n = some e ∧ R e e' := by
  cases hc : t.ctx n with
  | none => rw [h.gone n hc] at he; cases he
  | some e =>
    obtain ⟨e1, h1, h2⟩ := h.there n e hc
    rw [he] at h1; injection h1 with h1; subst h1
    exact ⟨e, rfl, h2⟩

theorem CtxRel.mono {R S : Element → Element → Prop} (hR : ∀ a b, R a b → S a b) {t t' : Tree} (h : CtxRel R t t') : CtxRel S t t' :=
  ⟨h.gone, fun n e he => by obtain ⟨e1, h1, h2⟩ := h.there n e he; exact ⟨e1, h1, hR _ _ h2⟩⟩

theorem Tree.Related.ctxRel {R : Element → Element → Prop} {t t' : Tree} (h : Tree.Related R t t') : CtxRel R t t' := ⟨h.gone, h.there⟩

theorem CtxRel.setCtx {R : Element → Element → Prop} (hR : ∀ e, R e e) {t : Tree} {n : NodeId} {e E : Element} (he : t.ctx n = some e) (h : R e E) :
    CtxRel R t (t.setCtx n E) := by
  refine ⟨fun m hm => ?_, fun m x hx => ?_⟩
  · by_cases hmn : m = n
    · subst hmn; rw [he] at hm; cases hm
    · simp only [Tree.setCtx, upd_other _ _ hmn]; exact hm
  · by_cases hmn : m = n
    · subst hmn; rw [he] at hx; injection hx with hx; subst hx
      exact ⟨E, upd_same _ _ _, h⟩
    · exact ⟨x, by simp only [Tree.setCtx, upd_other _ _ hmn]; exact hx, hR x⟩

/-! ## Bindings -/

/-- Bindings change texts, attributes, inline styles and the pictures of images. -/
def Rebound (e e' : Element) : Prop :=
  e' = { e with text := e'.text, attrs := e'.attrs, attrsBindings := e'.attrsBindings, style := e'.style, backgrounds := e'.backgrounds }

theorem Rebound.refl (e : Element) : Rebound e e := rfl

theorem Rebound.trans {a b c : Element} (h : Rebound a b) (g : Rebound b c) : Rebound a c := by
  unfold Rebound at *
  rw [g, h]

theorem updateImgSrc_rebound {t t' : Tree} {img : NodeId} {src : String} (hu : updateImgSrc t img src = .ok t') : CtxRel Rebound t t' := by
  unfold updateImgSrc at hu
  simp only [bind, Except.bind] at hu
  split at hu
  · cases hu
  · rename_i c _
    split at hu
    · cases hu
    · injection hu with hu; subst hu
      refine ⟨fun m hm => ?_, fun m x hx => ?_⟩
      · unfold Tree.modify
        by_cases hmc : m = c
        · subst hmc; simp [upd_same, hm]
        · simp only [upd_other _ _ hmc]; exact hm
      · unfold Tree.modify
        by_cases hmc : m = c
        · subst hmc
          simp only [upd_same, hx, Option.map_some, Option.some.injEq, exists_eq_left']
          rfl
        · simp only [upd_other _ _ hmc]; exact ⟨x, hx, Rebound.refl x⟩

theorem bindReact_rebound {inline} {s s' : Stage} {n : NodeId} {key : String} {i : Nat} {x : String}
    (hu : bindReact inline s n key i x = .ok s') : CtxRel Rebound s.tree s'.tree := by
  unfold bindReact Tree.elem at hu
  simp only [bind, Except.bind] at hu
  split at hu
  · cases hu
  · rename_i e he
    split at he
    · rename_i e1 he1
      injection he with he; subst he
      split at hu
      · cases hu
      · rename_i attr ha
        by_cases hk : key = "style"
        · simp only [if_pos hk] at hu
          have h0 : Rebound e1 { e1 with attrsBindings := e1.attrsBindings.set key (attr.set i x), attrs := e1.attrs.set key (attr.set i x).toString, style := (inline (attr.set i x).toString).getD e1.style } := rfl
          have h1 := CtxRel.setCtx Rebound.refl he1 h0
          split at hu
          · split at hu
            · cases hu
            · rename_i t ht
              injection hu with hu; subst hu
              exact CtxRel.chain @Rebound.trans h1 (updateImgSrc_rebound ht)
          · injection hu with hu; subst hu; exact h1
        · simp only [if_neg hk] at hu
          have h0 : Rebound e1 { e1 with attrsBindings := e1.attrsBindings.set key (attr.set i x), attrs := e1.attrs.set key (attr.set i x).toString } := rfl
          have h1 := CtxRel.setCtx Rebound.refl he1 h0
          split at hu
          · split at hu
            · cases hu
            · rename_i t ht
              injection hu with hu; subst hu
              exact CtxRel.chain @Rebound.trans h1 (updateImgSrc_rebound ht)
          · injection hu with hu; subst hu; exact h1
    · cases he

theorem updateTree_rebound {inline} {s s' : Stage} {root body : NodeId} (hw : s.tree.Wf root body) {r : Reaction} (hr : ReactionOk s.tree root body r)
    (hu : updateTree inline s r = .ok s') : CtxRel Rebound s.tree s'.tree := by
  cases r with
  | type m i x =>
    obtain ⟨em, hem, ht⟩ := hr
    obtain ⟨tx, htx⟩ := Option.isSome_iff_exists.1 ht
    simp only [updateTree, hem, htx, Except.ok.injEq] at hu
    subst hu
    exact CtxRel.setCtx Rebound.refl hem rfl
  | reattach p m v =>
    obtain ⟨K, par', h1, -⟩ := reattach_effect hw hr
    simp only [updateTree, h1, bind, Except.bind, Except.ok.injEq] at hu
    subst hu
    exact CtxRel.of_ctx Rebound.refl rfl
  | «repeat» p i k j =>
    obtain ⟨par', h1, -⟩ := repeat_effect hw hr
    simp only [updateTree, h1, bind, Except.bind, Except.ok.injEq] at hu
    subst hu
    exact CtxRel.of_ctx Rebound.refl rfl
  | tag m k b =>
    obtain ⟨em, hem⟩ := Option.isSome_iff_exists.1 hr
    simp only [updateTree, Tree.elem, hem, bind, Except.bind, Except.ok.injEq] at hu
    subst hu
    exact CtxRel.setCtx Rebound.refl hem rfl
  | bind m k i x => exact bindReact_rebound hu

theorem updateTrees_rebound {inline} {root body : NodeId} (rs : List Reaction) {s s' : Stage} (hw : s.tree.Wf root body) (hrs : ∀ r ∈ rs, ReactionOk s.tree root body r)
    (hu : updateTrees inline s rs = .ok s') : CtxRel Rebound s.tree s'.tree := by
  induction rs generalizing s with
  | nil => simp only [updateTrees, Except.ok.injEq] at hu; subst hu; exact CtxRel.refl Rebound.refl _
  | cons r rs ih =>
    simp only [updateTrees, bind, Except.bind] at hu
    split at hu
    · cases hu
    · rename_i s1 h1
      obtain ⟨s1', a1, a2, a3⟩ := C16_tree_stays_tree (inline := inline) s [r] hw (by simpa using hrs r (by simp))
      simp only [updateTrees, bind, Except.bind, h1, Except.ok.injEq] at a1
      subst a1
      exact CtxRel.chain @Rebound.trans (updateTree_rebound hw (hrs r (by simp)) h1) (ih a2 (fun x hx => a3 x (hrs x (by simp [hx]))) hu)

/-- Updating the bindings of a view that is alive. -/
theorem Living.rebound {fuel : Nat} {document : Html} {a : App} (h : Living p fuel document a) {value : Json} {v : View}
    (hu : a.screen.view.update p.inline value = .ok v) : CtxRel Rebound a.screen.view.stage.tree v.stage.tree := by
  obtain ⟨v0, hr, h⟩ := (session_ok h.session).twin
  obtain ⟨regs, hg⟩ := reached_good hr
  unfold View.update at hu
  cases hb : a.screen.view.vm.bind value with
  | none => rw [hb] at hu; simp at hu
  | some q =>
    obtain ⟨vm, rs⟩ := q
    rw [hb] at hu
    simp only at hu
    rw [h.vm] at hb
    obtain ⟨stage, a1, a2, a3, a4⟩ := viewGood_update (inline := p.inline) hg value hb
    obtain ⟨stage1, b1, b2, b3⟩ := updateTrees_form rs h.tree h.identified a1
    rw [b1] at hu
    simp only [Except.ok.injEq] at hu
    subst hu
    exact updateTrees_rebound rs (h.tree.wf hg.wf) (fun r hr => h.tree.reactionOk (a4 r hr)) b1

/-! ## Styling -/

/-- Styling does not move elements. -/
def Unshifted (e e' : Element) : Prop :=
  e'.position = e.position ∧ e'.size = e.size ∧ e'.contentSize = e.contentSize ∧ e'.opacity = e.opacity ∧ e'.scrolling = e.scrolling ∧ e'.clipping = e.clipping

theorem Unshifted.refl (e : Element) : Unshifted e e := ⟨rfl, rfl, rfl, rfl, rfl, rfl⟩

theorem Unshifted.trans {a b c : Element} (h : Unshifted a b) (g : Unshifted b c) : Unshifted a c := by
  obtain ⟨h1, h2, h3, h4, h5, h6⟩ := h
  obtain ⟨g1, g2, g3, g4, g5, g6⟩ := g
  exact ⟨g1.trans h1, g2.trans h2, g3.trans h3, g4.trans h4, g5.trans h5, g6.trans h6⟩

theorem write_unshifted (a : Assign) (i : Nat) (l : LayoutStyle) (e : Element) : Unshifted e (a.write i l e).2 := by
  cases a with
  | element a => cases a <;> exact Unshifted.refl _
  | _ => exact Unshifted.refl _

theorem applyAll_unshifted (sizes : Sizes) (l : ComputedStyle) (s : LayoutStyle × Element) : Unshifted s.2 (applyAll sizes l s).2 := by
  induction l generalizing s with
  | nil => exact Unshifted.refl _
  | cons x l ih =>
    obtain ⟨d, v⟩ := x
    exact (write_unshifted (assignment sizes d.key v).1 d.index s.1 s.2).trans (ih (applyValue sizes d v s))

theorem styleElement_unshifted {env : FrameEnv} {t : Tree} {n : NodeId} {parent e : Element} {sizes : Sizes} {vars vars' : Variables} {l : LayoutStyle}
    {r : LayoutStyle × Element} (h : styleElement env t n parent sizes vars l e = .ok (r, vars')) : Unshifted e r.2 := by
  obtain ⟨l', e'⟩ := r
  obtain ⟨rules, declared, animators, animated, transitions, final, st⟩ := styleElement_steps.1 h
  have := applyAll_unshifted sizes (env.order.style n final) (l, { parent.inherit e.reset with animators := animators, transitions := transitions })
  have h0 : Unshifted e { parent.inherit e.reset with animators := animators, transitions := transitions } := ⟨rfl, rfl, rfl, rfl, rfl, rfl⟩
  have := h0.trans this
  rw [st.hElement]
  exact this

theorem styleTree_unshifted {env : FrameEnv} (depth : Nat) :
    ∀ {n : NodeId} {sizes : Sizes} {vars : Variables} {s s' : Styled}, styleTree env depth n sizes vars s = .ok s' → CtxRel Unshifted s.tree s'.tree := by
  induction depth with
  | zero => intro n sizes vars s s' h; cases h
  | succ depth ih =>
    intro n sizes vars s s' h
    rw [styleTree] at h
    split at h
    · rename_i parent e hp he
      split at h
      · injection h with h; subst h
        exact CtxRel.setCtx Unshifted.refl he ⟨rfl, rfl, rfl, rfl, rfl, rfl⟩
      · split at h
        · cases h
        · rename_i l e' vars' hs
          have hc : CtxRel Unshifted s.tree (s.tree.setCtx n e') := CtxRel.setCtx Unshifted.refl he (styleElement_unshifted hs)
          split at h
          · injection h with h; subst h
            exact hc
          · refine CtxRel.chain @Unshifted.trans hc ?_
            exact forEach_induct (R := fun s s' : Styled => CtxRel Unshifted s.tree s'.tree) (fun s => CtxRel.refl Unshifted.refl s.tree)
              (fun _ _ _ => CtxRel.chain @Unshifted.trans) (fun s c s' hs => ih hs) _ h
    · cases h

end Verif
