import Verif.View.Unmoved
/-!
# C77: from the stylesheet to the look

`v` is the view after the bindings of the last update, `a'` is the program after that update. What is said about
an element of `a'` is what a renderer reads (`view.rs`, `Element`).
-/
namespace Verif

variable {p : Platform}

/-- **C77 (part).** After any run of the program, a displayed element without animations and transitions has, for
every property, the value of the last declaration for it among the rules of the stylesheet that match it as CSS says, in
stylesheet order, and then its inline style; lengths are in pixels for the window and the font size of its parent as
it is displayed. Missing: selectors of other kinds (C39, C40), attributes bound with `#class` or `#id` (C42), lists of
values for properties that take one (C47), and animations (C51-C56). -/
theorem C77_look_partial {document : Html} {css : Css} {last : Frame} {v : View} {a' : App} {n : NodeId} {d : Descriptor} {val : ComputedValue}
    (h : Presents p document css last v a' n d val) :
    ∃ q parent e', a'.screen.view.stage.tree.par n = some q ∧ a'.screen.view.stage.tree.ctx q = some parent ∧ a'.screen.view.stage.tree.ctx n = some e' ∧
      ((assignment (sizesAt v.body last.input.viewport n parent) d.key val).1.slot = some d.key →
        (assignment (sizesAt v.body last.input.viewport n parent) d.key val).1.read d.index (a'.layouts n, e') =
          some (assignment (sizesAt v.body last.input.viewport n parent) d.key val).1) := by
  obtain ⟨env, s, styled, parent, parent', e, e1, e2, q, hd, wf, hl, h1, h2, h3, h4, h5⟩ := h.shown
  refine ⟨q, parent', e2, h1, h2, h4, fun ha => ?_⟩
  rw [sizesAt_styled h3] at ha ⊢
  rw [h5.read, hl]
  exact C43_shown wf hd ha

/-- **C77 (part).** Some properties by name. -/
theorem C77_values_partial {document : Html} {css : Css} {last : Frame} {v : View} {a' : App} {n : NodeId} {e : Element}
    (he : a'.screen.view.stage.tree.ctx n = some e) :
    (∀ c, Presents p document css last v a' n ⟨.Color, 0⟩ (.color c) → e.color = c) ∧
    (∀ c i, Presents p document css last v a' n ⟨.BackgroundColor, i⟩ (.color c) → (e.backgrounds[i]?).map (·.color) = some c) ∧
    (∀ x i, Presents p document css last v a' n ⟨.BackgroundImage, i⟩ (.str x) → (e.backgrounds[i]?).map (·.image) = some (some x)) ∧
    (∀ x, Presents p document css last v a' n ⟨.Opacity, 0⟩ (.number x) → e.selfOpacity = x) ∧
    (∀ x, Presents p document css last v a' n ⟨.FontFamily, 0⟩ (.str x) → e.font.family = x) ∧
    (Presents p document css last v a' n ⟨.FontWeight, 0⟩ (.keyword "bold") → e.font.weight = 700) ∧
    (Presents p document css last v a' n ⟨.Visibility, 0⟩ (.keyword "hidden") → e.visible = false) ∧
    (Presents p document css last v a' n ⟨.PointerEvents, 0⟩ (.keyword "none") → e.pointerEvents = .none) ∧
    (Presents p document css last v a' n ⟨.Cursor, 0⟩ (.keyword "pointer") → e.pointer = .pointer) ∧
    (Presents p document css last v a' n ⟨.Display, 0⟩ (.keyword "flex") → (a'.layouts n).display = .flex) ∧
    (∀ c, Presents p document css last v a' n ⟨.BorderTopColor, 0⟩ (.color c) → e.borders.top.color = c) := by
  have key : ∀ {d val}, Presents p document css last v a' n d val → ∃ env s styled parent e0 e1,
      Declared env s styled v.body last.input.viewport n parent e0 e1 d val ∧ s.tree.Wf v.root v.body ∧ a'.layouts = styled.layouts ∧ SameStyled e1 e := by
    intro d val h
    obtain ⟨env, s, styled, parent, parent', e0, e1, e2, q, hd, wf, hl, h1, h2, h3, h4, h5⟩ := h.shown
    rw [he] at h4; injection h4 with h4; subst h4
    exact ⟨env, s, styled, parent, e0, e1, hd, wf, hl, h5⟩
  refine ⟨fun c h => ?_, fun c i h => ?_, fun c i h => ?_, fun c h => ?_, fun c h => ?_, fun h => ?_, fun h => ?_, fun h => ?_, fun h => ?_, fun h => ?_, fun c h => ?_⟩
  all_goals
    obtain ⟨env, s, styled, parent, e0, e1, hd, wf, hl, h5⟩ := key h
    obtain ⟨r1, r2, r3, r4, r5, r6, r7, r8, r9, r10, r11⟩ := C43_shown_values (env := env) (s := s) (s' := styled) (viewport := last.input.viewport) (n := n) (parent := parent) (e := e0) (e' := e1) wf
  · rw [h5]; exact r1 c hd
  · rw [h5]; exact r2 c i hd
  · rw [h5]; exact r3 c i hd
  · rw [h5]; exact r4 c hd
  · rw [h5]; exact r5 c hd
  · rw [h5]; exact r6 hd
  · rw [h5]; exact r7 hd
  · rw [h5]; exact r8 hd
  · rw [h5]; exact r9 hd
  · rw [hl]; exact r10 hd
  · rw [h5]; exact r11 c hd

/-- **C77 (part).** Lengths by name: what is given to layout is the declared length in pixels, where one `em` is the
font size the parent is displayed with. -/
theorem C77_lengths_partial {document : Html} {css : Css} {last : Frame} {v : View} {a' : App} {n q : NodeId} {e parent : Element}
    (hq : a'.screen.view.stage.tree.par n = some q) (hp : a'.screen.view.stage.tree.ctx q = some parent) (he : a'.screen.view.stage.tree.ctx n = some e)
    (em : Rat) (hem : em = if n = v.body then 16 else parent.font.size) :
    (∀ key get, (key, get) ∈ autoLengths →
      (∀ x u, Presents p document css last v a' n ⟨key, 0⟩ (.dimension ⟨x, u⟩) → get (a'.layouts n) = .length (pixels em last.input.viewport.1 last.input.viewport.2 u x)) ∧
      (∀ x, Presents p document css last v a' n ⟨key, 0⟩ (.percentage x) → get (a'.layouts n) = .percent x) ∧
      (Presents p document css last v a' n ⟨key, 0⟩ (.keyword "auto") → get (a'.layouts n) = .auto) ∧
      (Presents p document css last v a' n ⟨key, 0⟩ .zero → get (a'.layouts n) = .length 0)) ∧
    (∀ key get, (key, get) ∈ plainLengths →
      (∀ x u, Presents p document css last v a' n ⟨key, 0⟩ (.dimension ⟨x, u⟩) → get (a'.layouts n) = .length (pixels em last.input.viewport.1 last.input.viewport.2 u x)) ∧
      (∀ x, Presents p document css last v a' n ⟨key, 0⟩ (.percentage x) → get (a'.layouts n) = .percent x) ∧
      (Presents p document css last v a' n ⟨key, 0⟩ .zero → get (a'.layouts n) = .length 0)) ∧
    (∀ key side, (key, side) ∈ borderWidths → ∀ x u, Presents p document css last v a' n ⟨key, 0⟩ (.dimension ⟨x, u⟩) →
      (a'.layouts n).border.get side = .length (pixels em last.input.viewport.1 last.input.viewport.2 u x) ∧
        (e.borders.side side).width = pixels em last.input.viewport.1 last.input.viewport.2 u x) ∧
    (∀ x u, Presents p document css last v a' n ⟨.FontSize, 0⟩ (.dimension ⟨x, u⟩) → e.font.size = pixels em last.input.viewport.1 last.input.viewport.2 u x) ∧
    (∀ x, Presents p document css last v a' n ⟨.FontSize, 0⟩ (.percentage x) → e.font.size = x * em) := by
  have key : ∀ {d val}, Presents p document css last v a' n d val → ∃ env s styled parent' e0 e1,
      Declared env s styled v.body last.input.viewport n parent' e0 e1 d val ∧ s.tree.Wf v.root v.body ∧ a'.layouts = styled.layouts ∧ SameStyled e1 e ∧
        em = if n = v.body then 16 else parent'.font.size := by
    intro d val h
    obtain ⟨env, s, styled, par1, par2, e0, e1, e2, q', hd, wf, hl, h1, h2, h3, h4, h5⟩ := h.shown
    rw [he] at h4; injection h4 with h4; subst h4
    rw [hq] at h1; injection h1 with h1; subst h1
    rw [hp] at h2; injection h2 with h2; subst h2
    refine ⟨env, s, styled, par1, e0, e1, hd, wf, hl, h5, ?_⟩
    rw [hem, h3]
  refine ⟨fun k get hk => ⟨fun x u h => ?_, fun x h => ?_, fun h => ?_, fun h => ?_⟩, fun k get hk => ⟨fun x u h => ?_, fun x h => ?_, fun h => ?_⟩,
    fun k side hk x u h => ?_, fun x u h => ?_, fun x h => ?_⟩
  all_goals
    obtain ⟨env, s, styled, par', e0, e1, hd, wf, hl, h5, hem'⟩ := key h
    obtain ⟨r1, r2, r3, r4, r5⟩ := C49_units (env := env) (s := s) (s' := styled) (viewport := last.input.viewport) (n := n) (parent := par') (e := e0) (e' := e1) wf em hem'
  · rw [hl]; exact (r1 k get hk).1 x u hd
  · rw [hl]; exact (r1 k get hk).2.1 x hd
  · rw [hl]; exact (r1 k get hk).2.2.1 hd
  · rw [hl]; exact (r1 k get hk).2.2.2 hd
  · rw [hl]; exact (r2 k get hk).1 x u hd
  · rw [hl]; exact (r2 k get hk).2.1 x hd
  · rw [hl]; exact (r2 k get hk).2.2 hd
  · rw [hl, h5]; exact r3 k side hk x u hd
  · rw [h5]; exact r4 x u hd
  · rw [h5]; exact r5 x hd

/-- **C77 (part).** A displayed element for which neither the stylesheet nor its inline style says anything about an
inherited property, and that has no animations and transitions, has that property from its parent as it is displayed; a
text always does. -/
theorem C77_inherits_partial {document : Html} {css : Css} {last : Frame} {v : View} {a' : App} {n q : NodeId} {e parent : Element}
    (h : LastUpdate p document css last v a') (hn : Styles v.stage.tree v.body n) (k : Heritage)
    (hs : ∀ e0, v.stage.tree.ctx n = some e0 → e0.text.isSome ∨ e0.animators = [] ∧ css.SilentAt v.stage.tree n k.key)
    (hq : a'.screen.view.stage.tree.par n = some q) (hp : a'.screen.view.stage.tree.ctx q = some parent) (he : a'.screen.view.stage.tree.ctx n = some e) :
    k.Same e parent := by
  obtain ⟨fuel', order, a1, styled, hst, wf, hdecl, hsame, hpar, -⟩ := h.styled
  obtain ⟨e1, he1, hs1⟩ := hsame.back he
  obtain ⟨p1, hp1, hs2⟩ := hsame.back hp
  obtain ⟨e0, he0, -⟩ := (styleView_restyled (s := ⟨v.stage.tree, _⟩) wf hst).back he1
  rw [hpar] at hq
  have hres := (C50_inherits (s := ⟨v.stage.tree, _⟩) wf h.fair hst hn he0 hq hp1 he1).1 k (by
    rcases hs e0 he0 with h1 | ⟨h1, h2⟩
    · exact .inl h1
    · right
      rintro x (hx | hx)
      · rw [show declarations _ _ n e0 = _ from hdecl n e0 hn he0] at hx
        exact h2 x hx
      · simp [keyframeDeclarations, h1] at hx)
  rw [hs1, hs2]
  cases k <;> exact hres

/-- **C77.** If neither the stylesheet nor an inline style declares animations or transitions, no
element ever has any, in any history of updates: what C77 asks of an element holds for all. -/
theorem C77_nothing_moves {fuel fuel' : Nat} {document : Html} {css : Css} {a a1 : App} {fs : List Frame} {outs : List Output}
    (ho : openApp p fuel document css = .ok a) (hc : css.NeverMoves) {value : Json} (hd : PlainStyles p document a (fs.map (·.value) ++ [value])) (hf : ∀ f ∈ fs, f.order.Fair)
    (hr : a.run p fuel' fs = .ok (a1, outs)) {v : View} (hv : a1.screen.view.update p.inline value = .ok v) :
    ∀ n e, v.stage.tree.ctx n = some e → e.animators = [] ∧ e.transitions = [] ∧ ∀ x ∈ e.style, x.Singular :=
  fun n e he => (((Unmoved.opened ho hc (hd.styles ho)).run fs hf hr).bound hv n e he).unmoved

end Verif
