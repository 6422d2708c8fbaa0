import Verif.View.Placement
/-!
# Borders and the room for them (`src/element.rs` 190-238; lemmas for C87)
-/
namespace Verif

variable {p : Platform}

/-- `element.rs` 200-206 `Borders::top`. -/
def Borders.topEdge (b : Borders) : Option Border := if 0 < b.top.width then some b.top else none

/-- `element.rs` 208-214 `Borders::right`. -/
def Borders.rightEdge (b : Borders) : Option Border := if 0 < b.right.width then some b.right else none

/-- `element.rs` 216-222 `Borders::bottom`. -/
def Borders.bottomEdge (b : Borders) : Option Border := if 0 < b.bottom.width then some b.bottom else none

/-- `element.rs` 224-230 `Borders::left`. -/
def Borders.leftEdge (b : Borders) : Option Border := if 0 < b.left.width then some b.left else none

/-- A border has no width or that of the layout style. -/
def Roomy (l : LayoutStyle) (e : Element) : Prop := ∀ s, (e.borders.side s).width = 0 ∨ l.border.get s = .length (e.borders.side s).width

theorem Roomy.of_borders {l l' : LayoutStyle} {e e' : Element} (hl : l'.border = l.border) (he : e'.borders = e.borders) (h : Roomy l e) : Roomy l' e' := by
  unfold Roomy; rw [hl, he]; exact h

theorem Roomy.bare {l : LayoutStyle} {e : Element} (h : e.borders = {}) : Roomy l e := by
  intro s; rw [h]; cases s <;> exact .inl rfl

theorem write_roomy (a : Assign) (i : Nat) (l : LayoutStyle) (e : Element) (h : Roomy l e) : Roomy (a.write i l e).1 (a.write i l e).2 := by
  cases a with
  | element a => cases a <;> exact h
  | layout a => cases a <;> exact Roomy.of_borders rfl rfl h
  | borderWidth s v =>
    intro s'
    have := h s'
    cases s <;> cases s' <;> first | exact .inr rfl | exact this
  | borderColor s v => intro s'; have := h s'; cases s <;> cases s' <;> exact this
  | radius c v => intro s'; have := h s'; cases c <;> cases s' <;> exact this
  | _ => exact h

theorem applyAll_roomy (sizes : Sizes) (c : ComputedStyle) (s : LayoutStyle × Element) (h : Roomy s.1 s.2) : Roomy (applyAll sizes c s).1 (applyAll sizes c s).2 := by
  induction c generalizing s with
  | nil => exact h
  | cons x c ih =>
    obtain ⟨d, v⟩ := x
    exact ih (applyValue sizes d v s) (write_roomy _ _ _ _ h)

theorem styleElement_roomy {env : FrameEnv} {t : Tree} {n : NodeId} {parent e e' : Element} {sizes : Sizes} {vars vars' : Variables} {layout l : LayoutStyle}
    (h : styleElement env t n parent sizes vars layout e = .ok ((l, e'), vars')) : Roomy l e' := by
  obtain ⟨rules, declared, animators, animated, transitions, final, st⟩ := styleElement_steps.1 h
  have := applyAll_roomy sizes (env.order.style n final) (layout, { parent.inherit e.reset with animators := animators, transitions := transitions }) (Roomy.bare rfl)
  rw [st.hLayout, st.hElement]
  exact this

/-- All elements with their layout styles. -/
def Styled.Every (P : LayoutStyle → Element → Prop) (s : Styled) : Prop := ∀ n e, s.tree.ctx n = some e → P (s.layouts n) e

theorem Styled.Every.put {P : LayoutStyle → Element → Prop} {s : Styled} (h : s.Every P) {n : NodeId} {l : LayoutStyle} {e : Element} (he : P l e) : (s.put n l e).Every P := by
  intro m x hx
  by_cases hm : m = n
  · subst hm
    simp only [Styled.put, Tree.setCtx, upd_same, Option.some.injEq] at hx ⊢
    subst hx; exact he
  · simp only [Styled.put, Tree.setCtx, upd_other _ _ hm] at hx ⊢
    exact h m x hx

theorem Styled.Every.related {P : LayoutStyle → Element → Prop} {R : Element → Element → Prop} {s : Styled} {t : Tree} (h : s.Every P) (hr : CtxRel R s.tree t)
    (hP : ∀ l e e', R e e' → P l e → P l e') : Styled.Every P ⟨t, s.layouts⟩ := by
  intro n e he
  obtain ⟨e0, h0, h1⟩ := hr.back he
  exact hP _ _ _ h1 (h n e0 h0)

/-- What every styled element has and texts keep, styling establishes or keeps. -/
theorem styleTree_everyLayout {P : LayoutStyle → Element → Prop} {env : FrameEnv}
    (hText : ∀ l e parent, P l e → e.text.isSome → P l (Element.inherit parent e))
    (hStyle : ∀ {t n parent e e' sizes vars vars' layout l}, styleElement env t n parent sizes vars layout e = .ok ((l, e'), vars') → P layout e → P l e')
    (depth : Nat) : ∀ {n : NodeId} {sizes : Sizes} {vars : Variables} {s s' : Styled}, styleTree env depth n sizes vars s = .ok s' → s.Every P → s'.Every P := by
  induction depth with
  | zero => intro n sizes vars s s' h; cases h
  | succ depth ih =>
    intro n sizes vars s s' h hs
    rw [styleTree] at h
    split at h
    · rename_i parent e hp he
      split at h
      · rename_i ht
        injection h with h; subst h
        exact hs.put (hText _ _ _ (hs n e he) ht)
      · split at h
        · cases h
        · rename_i l e' vars' hse
          have hput := hs.put (n := n) (hStyle hse (hs n e he))
          split at h
          · injection h with h; subst h; exact hput
          · exact forEach_induct (R := fun s s' : Styled => s.Every P → s'.Every P) (fun s => id) (fun _ _ _ f g h => g (f h)) (fun s c s' hs => ih hs) _ h hput
    · cases h

theorem roomy_opened {fuel : Nat} {document : Html} {css : Css} {a : App} (h : openApp p fuel document css = .ok a) :
    Styled.Every Roomy ⟨a.screen.view.stage.tree, a.layouts⟩ := by
  obtain ⟨σ, ho⟩ := openApp_opened h
  have hv := renderView_ok ho.rendered
  have hm : σ.tree.Every (fun _ e => e.borders = {}) :=
    renderView_modest (env := docEnv p.translate p.inline document)
      ⟨fun _ _ => rfl, fun _ _ => rfl, fun _ _ => rfl, fun _ _ _ h => h, fun _ _ _ h => h, fun _ _ _ h => h, fun _ _ _ h => h, fun _ _ _ h => h, fun _ _ _ h => h⟩ ho.rendered
  have := every_related (P := fun _ e => e.borders = {}) (updateTrees_rebound (inline := p.inline) _ (s := ⟨σ.tree, σ.staticId⟩) hv.wf (defaultReactions_ok ho.rendered) ho.stage)
    (fun _ e e' hr hq => by rw [hr]; exact hq) hm
  exact fun n e he => Roomy.bare (this n e he)

theorem roomy_updated {fuel fuel' : Nat} {document : Html} {a a' : App} (h : Living p fuel document a)
    {order : FrameOrder} {input : Input} {value : Json} {out : Output} (hu : a.update p fuel' order input value = .ok (a', out))
    (ha : Styled.Every Roomy ⟨a.screen.view.stage.tree, a.layouts⟩) : Styled.Every Roomy ⟨a'.screen.view.stage.tree, a'.layouts⟩ := by
  obtain ⟨v, styled, tree, t', ui, g1, g2, g3, g4, g5⟩ := update_parts hu
  have hst : Restyled v.stage.tree styled.tree := styleView_restyled (s := ⟨v.stage.tree, _⟩) (h.bound g1).1 g2
  have hpl : Restyled styled.tree tree := placeTree_restyled _ g3
  have hso := handleOutput_states (session_ok h.session) g1 (hst.trans hpl) g4
  have h1 := ha.related (h.rebound g1) (fun l e e' hr hq => Roomy.of_borders rfl (by rw [hr]) hq)
  have h1' : Styled.Every Roomy ⟨v.stage.tree, upd a.layouts v.root (resizeRoot input.viewport (a.layouts v.root))⟩ := by
    intro n e he
    by_cases hn : n = v.root
    · subst hn; simp only [upd_same]; exact Roomy.of_borders (l := a.layouts v.root) (by unfold resizeRoot; split <;> rfl) rfl (h1 _ e he)
    · simp only [upd_other _ _ hn]; exact h1 n e he
  have h2 := styleTree_everyLayout (P := Roomy) (fun l e parent he _ => he.of_borders rfl rfl) (fun hse _ => styleElement_roomy hse) _ g2 h1'
  have h3 := h2.related (Tree.Related.ctxRel (placeTree_styled _ g3)) (fun l e e' hr hq => Roomy.of_borders rfl (by rw [hr]) hq)
  have h4 := h3.related (Tree.Related.ctxRel hso) (fun l e e' hr hq => Roomy.of_borders rfl (by rw [hr]) hq)
  rw [g5]; exact h4

theorem roomy_run {fuel fuel' : Nat} {document : Html} (fs : List Frame) {a a' : App} {outs : List Output}
    (h : Living p fuel document a) (hr : a.run p fuel' fs = .ok (a', outs)) (ha : Styled.Every Roomy ⟨a.screen.view.stage.tree, a.layouts⟩) :
    Styled.Every Roomy ⟨a'.screen.view.stage.tree, a'.layouts⟩ := by
  induction fs generalizing a outs with
  | nil => simp only [App.run, Except.ok.injEq, Prod.mk.injEq] at hr; obtain ⟨rfl, -⟩ := hr; exact ha
  | cons f fs ih =>
    obtain ⟨a1, out, rest, h1, h2, -⟩ := run_cons hr
    exact ih (h.updated h1) h2 (roomy_updated h h1 ha)

end Verif
