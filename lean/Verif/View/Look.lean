import Verif.Spec.Look
import Verif.Spec.Placement
import Verif.Props.Whole
import Verif.Props.Style
/-!
# From the stylesheet to the look of an element (lemmas for C77)
-/
namespace Verif

variable {p : Platform}

/-! ## Selectors -/

theorem Selector.extend_written (l : Selector) (x : Simple) : (l.extend x).written = l.written ++ [x] := by
  cases x <;> cases l <;> simp [Selector.extend, Selector.written]

theorem selectorOf_written (c : Complex) : (selectorOf c).written = c := by
  have : ∀ (l : Selector), (c.foldl Selector.extend l).written = l.written ++ c := by
    induction c with
    | nil => intro l; simp
    | cons x c ih => intro l; rw [List.foldl_cons, ih, Selector.extend_written]; simp
  rw [selectorOf, this]
  rfl

/-- No part of a compound is a combinator. -/
def Selector.Proper (P : Simple → Prop) (l : Selector) : Prop :=
  (∀ parts ∈ l.compounds, ∀ x ∈ parts, P x) ∧ ∀ c ∈ l.combinators, c = '>'

theorem Selector.Proper.extend {P : Simple → Prop} {l : Selector} (h : l.Proper P) {x : Simple} (hx : P x ∧ (∀ c, x ≠ .combinator c) ∨ x = .combinator '>') :
    (l.extend x).Proper P := by
  rcases hx with ⟨hx, hn⟩ | rfl
  · have : l.extend x = match l with | .compound parts => .compound (parts ++ [x]) | .combine l c parts => .combine l c (parts ++ [x]) := by
      cases x <;> cases l <;> first | rfl | exact absurd rfl (hn _)
    rw [this]
    cases l with
    | compound parts =>
      refine ⟨?_, by simp [Selector.combinators]⟩
      intro q hq y hy
      simp only [Selector.compounds, List.mem_singleton] at hq
      subst hq
      rcases List.mem_append.1 hy with hy | hy
      · exact h.1 parts (by simp [Selector.compounds]) y hy
      · rw [List.mem_singleton] at hy; subst hy; exact hx
    | combine l c parts =>
      refine ⟨?_, h.2⟩
      intro q hq y hy
      simp only [Selector.compounds, List.mem_append, List.mem_singleton] at hq
      rcases hq with hq | rfl
      · exact h.1 q (by simp [Selector.compounds, hq]) y hy
      · rcases List.mem_append.1 hy with hy | hy
        · exact h.1 parts (by simp [Selector.compounds]) y hy
        · rw [List.mem_singleton] at hy; subst hy; exact hx
  · refine ⟨?_, ?_⟩
    · intro q hq y hy
      simp only [Selector.extend, Selector.compounds, List.mem_append, List.mem_singleton] at hq
      rcases hq with hq | rfl
      · exact h.1 q hq y hy
      · cases hy
    · intro c hc
      simp only [Selector.extend, Selector.combinators, List.mem_append, List.mem_singleton] at hc
      rcases hc with hc | rfl
      · exact h.2 c hc
      · rfl

theorem selectorOf_proper {t : Tree} {c : Complex} (hp : ∀ x ∈ c, x.PlainIn t) (h : ∀ x ∈ c, x.Faithful ∨ x = .combinator '>') :
    (selectorOf c).Proper (fun x => x.Faithful ∧ x.PlainIn t) := by
  have : ∀ (l : Selector), l.Proper (fun x => x.Faithful ∧ x.PlainIn t) → (c.foldl Selector.extend l).Proper (fun x => x.Faithful ∧ x.PlainIn t) := by
    induction c with
    | nil => intro l hl; exact hl
    | cons x c ih =>
      intro l hl
      rw [List.foldl_cons]
      refine ih (fun y hy => hp y (by simp [hy])) (fun y hy => h y (by simp [hy])) _ (hl.extend ?_)
      rcases h x (by simp) with hx | hx
      · refine .inl ⟨⟨hx, hp x (by simp)⟩, ?_⟩
        rintro c rfl
        exact hx
      · exact .inr hx
  exact this _ ⟨by simp [Selector.compounds], by simp [Selector.combinators]⟩

theorem matchAny_selects {checks : Bool} {t : Tree} {root body : NodeId} (hw : t.Wf root body) {n : NodeId} (hn : (t.ctx n).isSome)
    (cs : List Complex) (hp : ∀ c ∈ cs, ∀ x ∈ c, x.PlainIn t) (h : ∀ c ∈ cs, ∀ x ∈ c, x.Faithful ∨ x = .combinator '>') :
    ∃ b, matchAny checks viewPseudo t n cs = .ok b ∧ (b = true ↔ ∃ c ∈ cs, (selectorOf c).Matches viewPseudo t n) := by
  induction cs with
  | nil => exact ⟨false, rfl, by simp⟩
  | cons c cs ih =>
    obtain ⟨b2, h3, h4⟩ := ih (fun c hc => hp c (by simp [hc])) (fun c hc => h c (by simp [hc]))
    have hpr := selectorOf_proper (hp c (by simp)) (h c (by simp))
    obtain ⟨b, h1, h2⟩ := matchComplex_child (checks := checks) (pc := viewPseudo) hw (selectorOf c) (fun ps hps x hx => (hpr.1 ps hps x hx).2) (fun ps hps x hx => (hpr.1 ps hps x hx).1) hpr.2 n hn
    rw [selectorOf_written] at h1
    simp only [matchAny, h1]
    cases b with
    | true => exact ⟨true, rfl, by simp [h2.1 rfl]⟩
    | false =>
      have hno : ¬ (selectorOf c).Matches viewPseudo t n := fun hm => by simpa using h2.2 hm
      exact ⟨b2, h3, by simp [h4, hno]⟩

theorem matchesNow_selects {checks : Bool} {t : Tree} {root body : NodeId} (hw : t.Wf root body) {n : NodeId} (hn : (t.ctx n).isSome)
    {s : Style} (hp : ∀ c ∈ s.selectors, ∀ x ∈ c, x.PlainIn t) (h : ∀ c ∈ s.selectors, ∀ x ∈ c, x.Faithful ∨ x = .combinator '>') :
    matchesNow checks viewPseudo t n s = true ↔ s.Selects t n := by
  obtain ⟨b, h1, h2⟩ := matchAny_selects (checks := checks) hw hn s.selectors hp h
  unfold matchesNow matchStyle Style.Selects
  rw [h1, ← h2]
  cases b <;> simp

theorem declarationsFor_now (checks : Bool) {css : Css} {t : Tree} {root body : NodeId} (hw : t.Wf root body) {n : NodeId} {e : Element} (he : t.ctx n = some e)
    (hp : ∀ s ∈ css.styles, ∀ c ∈ s.selectors, ∀ x ∈ c, x.PlainIn t) (hs : css.Supported) :
    css.declarationsFor t n = ((css.styles.filter (matchesNow checks viewPseudo t n)).map (·.declaration)).flatten ++ e.style := by
  unfold Css.declarationsFor
  rw [he]
  simp only [Option.elim]
  congr 3
  refine List.filter_congr ?_
  intro s hss
  rw [Bool.eq_iff_iff, @decide_eq_true_iff _ (Classical.propDecidable _)]
  exact (matchesNow_selects hw (by rw [he]; rfl) (hp s hss) (hs s hss).1).symm

/-! ## Declarations -/

/-- Where styling gets to is displayed. -/
theorem Styles.displayed {t : Tree} {root body n : NodeId} (hk : body ∈ t.kids root) (h : Styles t body n) : Displayed t root n := by
  induction h with
  | body => exact .child .root hk
  | child _ _ _ _ hc ih => exact .child ih hc

/-- The parent of a styled node other than the body is styled. -/
theorem Styles.parent {t : Tree} {root body n q : NodeId} (hw : t.Wf root body) (h : Styles t body n) (hn : n ≠ body) (hq : t.par n = some q) :
    Styles t body q := by
  cases h with
  | body => exact absurd rfl hn
  | child h1 h2 h3 h4 h5 =>
    rw [(hw.link _ _).1 h5] at hq
    injection hq with hq
    subst hq
    exact h1

/-- The declarations that are used are those the stylesheet and the inline style have for the node. -/
theorem declarations_for {fuel fuel' : Nat} {document : Html} {css : Css} {a a1 : App} {outs : List Output} (ho : openApp p fuel document css = .ok a)
    {fs : List Frame} (hr : a.run p fuel' fs = .ok (a1, outs)) {value : Json} {v : View} (hv : a1.screen.view.update p.inline value = .ok v)
    (hs : css.Supported) (hu : css.Undisturbed v.vm.bindings) (hp : ∀ s ∈ css.styles, ∀ c ∈ s.selectors, ∀ x ∈ c, x.PlainIn v.stage.tree) {n : NodeId} (hn : Styles v.stage.tree v.body n)
    {e : Element} (he : v.stage.tree.ctx n = some e) (order : FrameOrder) (time : Rat) (fuel'' : Nat) :
    declarations (a1.env p fuel'' order time) v.stage.tree n e = css.declarationsFor v.stage.tree n := by
  have hl := living_run fs (Living.opened ho) hr
  obtain ⟨wf, hk, hpar, -⟩ := hl.bound hv
  have hplus : ∀ s ∈ css.styles, s.NoPlus := by
    intro s hss c hc hx
    rcases (hs s hss).1 c hc _ hx with h | h
    · exact h
    · injection h with h; revert h; decide
  have hd : Displayed v.stage.tree v.root n := hn.displayed (by rw [hk]; simp)
  have hlt := (linked_of_wf wf).older _ _ hpar
  have hroot : n ≠ v.root := by
    rintro rfl
    have hb : ∀ m, Styles v.stage.tree v.body m → v.body ≤ m := by
      intro m hm
      induction hm with
      | body => exact Nat.le_refl _
      | child _ _ _ _ hc ih =>
        have := (linked_of_wf wf).older _ _ ((wf.link _ _).1 hc)
        unfold NodeId at *; omega
    have := hb _ hn
    unfold NodeId at *; omega
  have happ := C42_program_partial ho hr hv hplus hd hroot (fun path b hb => hu.1 path b hb n)
    (fun s hss hc m _ k hb => hu.2 s hss hc m k hb)
  rw [declarationsFor_now p.checks wf he hp hs]
  unfold declarations
  rw [show applied (a1.env p fuel'' order time).checks viewPseudo v.stage.tree n ((a1.env p fuel'' order time).rules n) = _ from happ]

theorem given_gives {env : FrameEnv} {css : Css} {t : Tree} {root body : NodeId} (hw : t.Wf root body)
    (hd : ∀ n e, Styles t body n → t.ctx n = some e → declarations env t n e = css.declarationsFor t n) (hc : ∀ n, Styles t body n → (t.ctx n).isSome)
    {name : String} {l : Shorthand} {n : NodeId} (hn : Styles t body n) : Given env t body name l n ↔ css.Gives t body name l n := by
  constructor
  · intro h
    induction h with
    | here he hg => exact .here (by rw [← hd _ _ hn he]; exact hg)
    | up h1 h2 h3 h4 _ ih => exact .up h1 (by rw [← hd _ _ hn h2]; exact h3) h4 (ih (hn.parent hw h1 h4))
  · intro h
    induction h with
    | @here n hg =>
      obtain ⟨e, he⟩ := Option.isSome_iff_exists.1 (hc n hn)
      exact .here he (by rw [hd _ _ hn he]; exact hg)
    | @up n q h1 h3 h4 _ ih =>
      obtain ⟨e, he⟩ := Option.isSome_iff_exists.1 (hc n hn)
      exact .up h1 he (by rw [hd _ _ hn he]; exact h3) h4 (ih (hn.parent hw h1 h4))

/-! ## What is left of the style at the end of an update -/

theorem SameStyled.refl (e : Element) : SameStyled e e := rfl

theorem SameStyled.trans {a b c : Element} (h : SameStyled a b) (g : SameStyled b c) : SameStyled a c := by
  unfold SameStyled at *
  rw [g, h]

theorem SameStyled.related_trans {t t' t'' : Tree} (h : Tree.Related SameStyled t t') (g : Tree.Related SameStyled t' t'') : Tree.Related SameStyled t t'' := by
  refine ⟨g.kids.trans h.kids, g.par.trans h.par, g.next.trans h.next, fun n hn => g.gone n (h.gone n hn), fun n e he => ?_⟩
  obtain ⟨e1, h1, h2⟩ := h.there n e he
  obtain ⟨e2, g1, g2⟩ := g.there n e1 h1
  exact ⟨e2, g1, h2.trans g2⟩

theorem placeTree_styled {boxes : NodeId → Layout} (depth : Nat) : ∀ {n : NodeId} {location : Rat × Rat} {opacity : Rat}
    {clipping : Option Layout} {t t' : Tree}, placeTree boxes depth n location opacity clipping t = .ok t' → Tree.Related SameStyled t t' := by
  induction depth with
  | zero => intro n l o c t t' h; cases h
  | succ depth ih =>
    intro n location opacity clipping t t' h
    rw [placeTree] at h
    cases he : t.ctx n with
    | none => rw [he] at h; cases h
    | some e =>
      rw [he] at h
      simp only at h
      refine SameStyled.related_trans ?_ (forEach_induct (R := Tree.Related SameStyled) (fun t => Tree.Related.refl SameStyled.refl t)
        (fun _ _ _ => SameStyled.related_trans) (fun s c s' hs => ih hs) _ h)
      refine ⟨rfl, rfl, rfl, ?_, ?_⟩
      · intro m hm
        by_cases hmn : m = n
        · subst hmn; rw [he] at hm; cases hm
        · simp only [Tree.setCtx, upd_other _ _ hmn]; exact hm
      · intro m x hx
        by_cases hmn : m = n
        · subst hmn
          rw [he] at hx; injection hx with hx; subst hx
          exact ⟨_, upd_same _ _ _, rfl⟩
        · exact ⟨x, by simp only [Tree.setCtx, upd_other _ _ hmn]; exact hx, SameStyled.refl x⟩

theorem stateOnly_styled {t t' : Tree} (h : StateOnly t t') : Tree.Related SameStyled t t' :=
  Tree.Related.mono (fun a b hab => by unfold SameStyled; rw [hab]) h

/-- What was assigned is read back from either. -/
theorem SameStyled.read {e e' : Element} (h : SameStyled e e') (i : Nat) (l : LayoutStyle) (a : Assign) :
    a.read i (l, e') = a.read i (l, e) := by
  rw [h]
  cases a with
  | element a => cases a <;> rfl
  | _ => rfl

/-- The styling in the last update. -/
theorem LastUpdate.styled {document : Html} {css : Css} {last : Frame} {v : View} {a' : App} (h : LastUpdate p document css last v a') :
    ∃ fuel' layouts, ∃ a1 : App, ∃ styled,
      styleView (a1.env p fuel' last.order last.input.time) fuel' v.body last.input.viewport ⟨v.stage.tree, layouts⟩ = .ok styled ∧
      v.stage.tree.Wf v.root v.body ∧
      (∀ m e, Styles v.stage.tree v.body m → v.stage.tree.ctx m = some e →
        declarations (a1.env p fuel' last.order last.input.time) v.stage.tree m e = css.declarationsFor v.stage.tree m) ∧
      Tree.Related SameStyled styled.tree a'.screen.view.stage.tree ∧ a'.screen.view.stage.tree.par = v.stage.tree.par ∧
      a'.layouts = styled.layouts ∧ v.stage.tree.par v.body = some v.root ∧ ∀ m, Styles v.stage.tree v.body m → (v.stage.tree.ctx m).isSome := by
  obtain ⟨fuel, fuel', a, fs, a1, outs, out, ho, hr, hv, hu⟩ := h.program
  have hl := living_run fs (Living.opened ho) hr
  obtain ⟨wf, hk, hpar, hbs⟩ := hl.bound hv
  obtain ⟨v', styled, tree, t', ui, g1, g2, g3, g4, g5⟩ := update_parts hu
  rw [hv] at g1; injection g1 with g1; subst g1
  have hst : Restyled v.stage.tree styled.tree := styleView_restyled (s := ⟨v.stage.tree, _⟩) wf g2
  have hpl : Restyled styled.tree tree := placeTree_restyled _ g3
  have hso := handleOutput_states (session_ok hl.session) hv (hst.trans hpl) g4
  have hsame : Tree.Related SameStyled styled.tree t' := SameStyled.related_trans (placeTree_styled _ g3) (stateOnly_styled hso)
  have hctx : ∀ m, Styles v.stage.tree v.body m → (v.stage.tree.ctx m).isSome := by
    intro m hm
    cases hm with
    | body => exact hbs
    | child _ _ _ _ hc => exact (wf.slotsYounger _ _ (wf.sub _ _ hc)).2.2
  refine ⟨fuel', _, a1, styled, g2, wf, ?_, ?_, ?_, ?_, hpar, hctx⟩
  · exact fun m e hm he => declarations_for ho hr hv h.supported h.undisturbed h.spaces hm he _ _ _
  · rw [g5]; exact hsame
  · rw [g5]; show t'.par = _; rw [hsame.par, hst.par]
  · rw [g5]

/-- A value that is declared for an element, as styling has it. -/
theorem Presents.shown {document : Html} {css : Css} {last : Frame} {v : View} {a' : App} {n : NodeId} {d : Descriptor} {val : ComputedValue}
    (h : Presents p document css last v a' n d val) :
    ∃ env s styled parent parent' e e1 e2 q, Declared env s styled v.body last.input.viewport n parent e e1 d val ∧ s.tree.Wf v.root v.body ∧
      a'.layouts = styled.layouts ∧ a'.screen.view.stage.tree.par n = some q ∧ a'.screen.view.stage.tree.ctx q = some parent' ∧ SameStyled parent parent' ∧
      a'.screen.view.stage.tree.ctx n = some e2 ∧ SameStyled e1 e2 := by
  obtain ⟨fuel', layouts, a1, styled, g2, wf, hdecl, hsame, hpars, hlay, hpar, hctx⟩ := h.styled
  have hst : Restyled v.stage.tree styled.tree := styleView_restyled (s := ⟨v.stage.tree, _⟩) wf g2
  obtain ⟨e, he, het, hea, hetr, hes⟩ := h.still
  obtain ⟨q, hq, hqs⟩ : ∃ q, v.stage.tree.par n = some q ∧ (v.stage.tree.ctx q).isSome := by
    cases h.reached with
    | body => exact ⟨_, hpar, wf.rootExists⟩
    | child h1 h2 _ _ hc => exact ⟨_, (wf.link _ _).1 hc, by rw [h2]; rfl⟩
  obtain ⟨pe, hpe⟩ := Option.isSome_iff_exists.1 hqs
  obtain ⟨pe1, hpe1, -⟩ := hst.there q pe hpe
  obtain ⟨pe2, hpe2, hpes⟩ := hsame.there q pe1 hpe1
  obtain ⟨e1, he1, -⟩ := hst.there n e he
  obtain ⟨e2, he2, hes2⟩ := hsame.there n e1 he1
  refine ⟨a1.env p fuel' last.order last.input.time, ⟨v.stage.tree, layouts⟩, styled, pe1, pe2, e, e1, e2, q, ?_, wf, hlay, ?_, hpe2, hpes, he2, hes2⟩
  · refine ⟨⟨fuel', g2⟩, h.fair, h.reached, he, het, ⟨q, hq, hpe1⟩, he1, ⟨hea, hetr⟩, ?_, ?_⟩
    · intro x hx
      rw [show declarations _ _ n e = _ from hdecl n e h.reached he] at hx
      unfold Css.declarationsFor at hx
      rw [he] at hx
      rcases List.mem_append.1 hx with hx | hx
      · obtain ⟨b, hb, hxb⟩ := List.mem_flatten.1 hx
        obtain ⟨s, hs, rfl⟩ := List.mem_map.1 hb
        exact (h.supported s (List.mem_filter.1 hs).1).2 x hxb
      · exact hes x hx
    · obtain ⟨vars, i, h1, h2, h3⟩ := h.declared
      refine ⟨vars, i, ?_, ?_, ?_⟩
      · intro name l
        rw [h1 name l]
        refine and_congr_right fun hnb => exists_congr fun r => and_congr_right fun hr' => ?_
        exact (given_gives wf hdecl hctx (h.reached.parent wf hnb hr')).symm
      · rw [show declarations _ _ n e = _ from hdecl n e h.reached he]; exact h2
      · rw [show declarations _ _ n e = _ from hdecl n e h.reached he]; exact h3
  · rw [hpars]; exact hq

theorem sizesAt_styled {parent parent' : Element} (h : SameStyled parent parent') (body : NodeId) (viewport : Rat × Rat) (n : NodeId) :
    sizesAt body viewport n parent' = sizesAt body viewport n parent := by
  rw [h]
  rfl

end Verif
