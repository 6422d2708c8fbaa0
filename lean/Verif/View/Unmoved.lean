import Verif.View.Look
/-!
# Views without animations and transitions (lemmas for C77)
-/
namespace Verif

variable {p : Platform}

/-- Plain inline styles, no animators and no transitions. -/
def stillManner : Manner where
  free := True
  block b := ∀ x ∈ b, x.Still ∧ x.Singular
  animator _ := False
  transition _ := False
  none := by intro x hx; cases hx

theorem applyValue_still (sizes : Sizes) {d : Descriptor} (hd : d.key ∉ motionProperties) (v : ComputedValue) (s : LayoutStyle × Element) :
    (applyValue sizes d v s).2.animators = s.2.animators ∧ (applyValue sizes d v s).2.transitions = s.2.transitions := by
  obtain ⟨key, i⟩ := d
  have hs := assignment_slot sizes key v
  refine ⟨?_, ?_⟩
  · show ((assignment sizes key v).1.write i s.1 s.2).2.animators = _
    rw [write_animators]
    generalize (assignment sizes key v).1 = w at hs ⊢
    cases w with
    | animator x =>
      exfalso
      cases x <;> simp only [Assign.slot, AnimatorAssign.slot, Option.some.injEq, reduceCtorEq, or_false] at hs <;> subst hs <;> exact hd (by show _ ∈ motionProperties; simp [motionProperties])
    | _ => rfl
  · show ((assignment sizes key v).1.write i s.1 s.2).2.transitions = _
    rw [write_transitions]
    generalize (assignment sizes key v).1 = w at hs ⊢
    cases w with
    | transition x =>
      exfalso
      cases x <;> simp only [Assign.slot, TransitionAssign.slot, Option.some.injEq, reduceCtorEq, or_false] at hs <;> subst hs <;> exact hd (by show _ ∈ motionProperties; simp [motionProperties])
    | _ => rfl

theorem applyAll_still (sizes : Sizes) (l : ComputedStyle) (hl : ∀ x ∈ l, x.1.key ∉ motionProperties) (s : LayoutStyle × Element) :
    (applyAll sizes l s).2.animators = s.2.animators ∧ (applyAll sizes l s).2.transitions = s.2.transitions := by
  induction l generalizing s with
  | nil => exact ⟨rfl, rfl⟩
  | cons x l ih =>
    obtain ⟨d, v⟩ := x
    obtain ⟨h1, h2⟩ := applyValue_still sizes (hl (d, v) (by simp)) v s
    obtain ⟨h3, h4⟩ := ih (fun x hx => hl x (by simp [hx])) (applyValue sizes d v s)
    exact ⟨h3.trans h1, h4.trans h2⟩

theorem styleElement_still {env : FrameEnv} (hf : env.order.Fair) (hr : ∀ n, ∀ r ∈ env.rules n, ∀ x ∈ r.rule.declaration, x.Still)
    {t : Tree} {n : NodeId} {parent e : Element} {sizes : Sizes} {vars vars' : Variables} {l : LayoutStyle} {r : LayoutStyle × Element}
    (he : e.Calm stillManner) (h : styleElement env t n parent sizes vars l e = .ok (r, vars')) : r.2.Calm stillManner := by
  obtain ⟨hf1, -, hf3⟩ := styleElement_form h
  have ha : e.animators = [] := List.eq_nil_iff_forall_not_mem.2 he.animators
  have ht : e.transitions = [] := List.eq_nil_iff_forall_not_mem.2 he.transitions
  obtain ⟨l', e'⟩ := r
  obtain ⟨rules, declared, animators, animated, transitions, final, st⟩ := styleElement_steps.1 h
  have h1 := st.hAnimators
  rw [ha] at h1
  simp only [playAnimators, Except.ok.injEq, Prod.mk.injEq] at h1
  obtain ⟨rfl, rfl⟩ := h1
  have h2 := st.hTransitions
  rw [ht] at h2
  simp only [playTransitions, Except.ok.injEq, Prod.mk.injEq] at h2
  obtain ⟨rfl, rfl⟩ := h2
  have hdom := st.domain hf (P := fun d => d.key ∉ motionProperties) (by
    intro x hx vars d v hs
    refine Declaration.Still.sets ?_ hs
    rcases hx with hx | hx
    · unfold declarations at hx
      rw [st.hRules] at hx
      rcases List.mem_append.1 hx with hx | hx
      · obtain ⟨b, hb, hxb⟩ := List.mem_flatten.1 hx
        obtain ⟨s, hs, rfl⟩ := List.mem_map.1 hb
        obtain ⟨r, h1, rfl⟩ := applied_mem st.hRules s hs
        exact hr n r h1 x hxb
      · exact (he.style x hx).1
    · simp [keyframeDeclarations, ha] at hx)
  have hall := applyAll_still sizes (env.order.style n declared) (fun x hx => hdom x.1 x.2 (by
    have := (hf.style n declared).mem_iff.1 hx
    exact (st.declared_once.get_iff _ _).2 this)) (l, { parent.inherit e.reset with animators := [], transitions := [] })
  refine ⟨by rw [hf1.attrsBindings]; exact he.bound, by rw [hf3]; exact he.style, ?_, ?_⟩
  · rw [st.hElement]
    simp only
    rw [hall.1]
    simp
  · rw [st.hElement]
    simp only
    rw [hall.2]
    simp

theorem styleTree_still {env : FrameEnv} (hf : env.order.Fair) (hr : ∀ n, ∀ r ∈ env.rules n, ∀ x ∈ r.rule.declaration, x.Still) (depth : Nat) :
    ∀ {n : NodeId} {sizes : Sizes} {vars : Variables} {s s' : Styled}, styleTree env depth n sizes vars s = .ok s' → s.tree.Calm stillManner → s'.tree.Calm stillManner := by
  induction depth with
  | zero => intro n sizes vars s s' h; cases h
  | succ depth ih =>
    intro n sizes vars s s' h hc
    rw [styleTree] at h
    split at h
    · rename_i parent e hp he
      have := hc n e he
      split at h
      · injection h with h; subst h
        exact hc.setCtx ⟨this.bound, this.style, this.animators, this.transitions⟩
      · split at h
        · cases h
        · rename_i l e' vars' hs
          have hc' := styleElement_still hf hr this hs
          split at h
          · injection h with h; subst h
            exact hc.setCtx hc'
          · exact forEach_keeps (P := fun s : Styled => s.tree.Calm stillManner) (fun s c s' hs => ih hs) _ h (hc.setCtx hc')
    · cases h

/-- Between updates of a view without animations and transitions, before updates with `values`. -/
structure Unmoved (p : Platform) (fuel : Nat) (document : Html) (a : App) (values : List Json) : Prop where
  living : Living p fuel document a
  calm : a.screen.view.stage.tree.Calm stillManner.loose
  fed : Fed p fuel document (fun _ => stillManner.block) a values
  rules : ∀ n, ∀ r ∈ a.kept n, ∀ x ∈ r.rule.declaration, x.Still

theorem plainStyle_calm (inline : String → Option (List Declaration)) : Html.PlainStyle inline = CalmHtml inline stillManner.strict := by
  funext h
  unfold Html.PlainStyle CalmHtml
  refine propext (forall₂_congr fun b _ => ?_)
  cases b with
  | «attribute» key spans => exact ⟨.inr, fun h => h.resolve_left id⟩
  | _ => exact Iff.rfl

/-- A document without bound inline styles, all of them plain. -/
theorem PlainStyles.styles {fuel : Nat} {document : Html} {css : Css} {a : App} (ho : openApp p fuel document css = .ok a) {values : List Json} (hd : PlainStyles p document a values) :
    a.screen.view.InlineStyles p.inline (fun _ => stillManner.block) values := by
  rcases hd with hd | hd
  · unfold PlainDocument at hd
    rw [plainStyle_calm] at hd
    exact static_styles (G := stillManner) ho hd values
  · exact hd

theorem PlainDocument.styles {fuel : Nat} {document : Html} {css : Css} {a : App} (ho : openApp p fuel document css = .ok a) (hd : PlainDocument p document)
    (values : List Json) : a.screen.view.InlineStyles p.inline (fun _ => stillManner.block) values := by
  unfold PlainDocument at hd
  rw [plainStyle_calm] at hd
  exact static_styles (G := stillManner) ho hd values

theorem Unmoved.opened {fuel : Nat} {document : Html} {css : Css} {a : App} (h : openApp p fuel document css = .ok a) (hc : css.NeverMoves) {values : List Json}
    (hd : a.screen.view.InlineStyles p.inline (fun _ => stillManner.block) values) : Unmoved p fuel document a values := by
  obtain ⟨σ, ho⟩ := openApp_opened h
  exact ⟨.opened h, openApp_loose ho, .opened ho hd, fun n r hr => hc _ (openApp_rules ho n r hr)⟩

theorem Unmoved.bound {fuel : Nat} {document : Html} {a : App} {value : Json} {values : List Json} (h : Unmoved p fuel document a (value :: values)) {v : View}
    (hv : a.screen.view.update p.inline value = .ok v) : v.stage.tree.Calm stillManner := by
  obtain ⟨v0, hr, htw⟩ := (session_ok h.living.session).twin
  exact ((twin_kids hr htw hv).2 _ (fun _ _ => trivial) h.calm).with trivial (h.fed.bound hv)

theorem Unmoved.updated {fuel fuel' : Nat} {document : Html} {a a' : App} {value : Json} {values : List Json} (h : Unmoved p fuel document a (value :: values)) {order : FrameOrder} (ho : order.Fair) {input : Input}
    {out : Output} (hu : a.update p fuel' order input value = .ok (a', out)) : Unmoved p fuel document a' values := by
  refine ⟨h.living.updated hu, ?_, h.fed.updated h.living.session hu, ?_⟩
  all_goals
    obtain ⟨v, styled, tree, t', ui, g1, g2, g3, g4, g5⟩ := update_parts hu
    have hst : Restyled v.stage.tree styled.tree := styleView_restyled (s := ⟨v.stage.tree, _⟩) (h.living.bound g1).1 g2
    have hpl : Restyled styled.tree tree := placeTree_restyled _ g3
    have hso := handleOutput_states (session_ok h.living.session) g1 (hst.trans hpl) g4
    rw [g5]
  · exact (stateOnly_calm (placeTree_calm _ g3 (styleTree_still ho h.rules _ g2 (h.bound g1))) hso).loosen
  · exact h.rules

theorem Unmoved.run {fuel fuel' : Nat} {document : Html} (fs : List Frame) (hf : ∀ f ∈ fs, f.order.Fair) {a a' : App} {outs : List Output} {values : List Json} (h : Unmoved p fuel document a (fs.map (·.value) ++ values))
    (hr : a.run p fuel' fs = .ok (a', outs)) : Unmoved p fuel document a' values := by
  induction fs generalizing a outs with
  | nil => simp only [App.run, Except.ok.injEq, Prod.mk.injEq] at hr; rw [← hr.1]; exact h
  | cons f fs ih =>
    rw [App.run] at hr
    split at hr
    · cases hr
    · rename_i a1 out h1
      split at hr
      · cases hr
      · rename_i a2 outs' h2
        injection hr with hr
        injection hr with e1 e2
        subst e1
        exact ih (fun f hf' => hf f (by simp [hf'])) (h.updated (hf f (by simp)) h1) h2

theorem Element.Calm.unmoved {e : Element} (h : e.Calm stillManner) : e.animators = [] ∧ e.transitions = [] ∧ ∀ x ∈ e.style, x.Singular :=
  ⟨List.eq_nil_iff_forall_not_mem.2 h.animators, List.eq_nil_iff_forall_not_mem.2 h.transitions, fun x hx => (h.style x hx).2⟩

end Verif
