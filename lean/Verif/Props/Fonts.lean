import Verif.View.FontRun
import Verif.View.Hints
import Verif.Props.Cache
import Verif.Props.Reproducible
import Verif.Props.Idle
/-!
# Fonts that do not change (C82, C84, C85)
-/
namespace Verif

variable {p : Platform}

theorem isStatic_settled {K : String → Prop} {e : Element} (he : e.Hinted K) {s : Style} (hs : ∀ k, s.Tests k → ¬ K k) : isStatic e.hints s = true := by
  unfold isStatic
  have h1 : s.hasAttrsSelector e.hints.dynamicAttrs = false := by
    rw [Bool.eq_false_iff]
    intro h
    unfold Style.hasAttrsSelector at h
    simp only [List.any_eq_true] at h
    obtain ⟨c, hc, x, hx, h⟩ := h
    split at h
    · rename_i name m v
      exact hs name ⟨c, hc, _, hx, rfl⟩ (he.keys name (by simpa using h))
    · cases h
  have h2 : e.hints.hasDynamicClasses = true → s.hasClassSelector = false := by
    intro hd
    rw [Bool.eq_false_iff]
    intro h
    unfold Style.hasClassSelector at h
    simp only [List.any_eq_true] at h
    obtain ⟨c, hc, x, hx, h⟩ := h
    split at h
    · exact hs "class" ⟨c, hc, _, hx, rfl⟩ (he.classes hd)
    · cases h
  have h3 : e.hints.hasDynamicId = true → s.hasIdSelector = false := by
    intro hd
    rw [Bool.eq_false_iff]
    intro h
    unfold Style.hasIdSelector at h
    simp only [List.any_eq_true] at h
    obtain ⟨c, hc, x, hx, h⟩ := h
    split at h
    · exact hs "id" ⟨c, hc, _, hx, rfl⟩ (he.ids hd)
    · cases h
  rw [h1]
  cases hd : e.hints.hasDynamicClasses <;> cases hd' : e.hints.hasDynamicId <;> simp [h2, h3, hd, hd']

theorem settled_pseudo {s : Style} (h : ∀ c ∈ s.selectors, ∀ x ∈ c, ∀ name, x ≠ .pseudoClass name) : s.hasPseudoSelector = false := by
  rw [Bool.eq_false_iff]
  intro hp
  unfold Style.hasPseudoSelector at hp
  simp only [List.any_eq_true] at hp
  obtain ⟨c, hc, x, hx, hp⟩ := hp
  split at hp
  · exact h c hc _ hx _ rfl
  · cases hp

theorem classify_dynamic {checks : Bool} {t : Tree} {n : NodeId} {e : Element} {styles : List Style} {l : List ElementStyle} (h : classify checks t n e styles = .ok l) {s : Style}
    (hs : .dynamic s ∈ l) : s ∈ styles ∧ ¬ (isStatic e.hints s = true ∧ s.hasPseudoSelector = false) := by
  induction styles generalizing l with
  | nil => simp only [classify, Except.ok.injEq] at h; subst h; cases hs
  | cons r styles ih =>
    rw [classify] at h
    split at h
    · cases h
    · split at h
      · cases h
      · rename_i l' hl
        have ih := fun hs => ih hl hs
        split at h
        · split at h
          · injection h with h; subst h
            rcases List.mem_cons.1 hs with hs | hs
            · cases hs
            · exact ⟨List.mem_cons_of_mem _ (ih hs).1, (ih hs).2⟩
          · rename_i hcond
            injection h with h; subst h
            rcases List.mem_cons.1 hs with hs | hs
            · injection hs with hs; subst hs
              refine ⟨List.mem_cons_self, fun hc => hcond ?_⟩
              rw [hc.1, hc.2]; rfl
            · exact ⟨List.mem_cons_of_mem _ (ih hs).1, (ih hs).2⟩
        · split at h
          · injection h with h; subst h
            exact ⟨List.mem_cons_of_mem _ (ih hs).1, (ih hs).2⟩
          · rename_i hcond
            injection h with h; subst h
            rcases List.mem_cons.1 hs with hs | hs
            · injection hs with hs; subst hs
              exact ⟨List.mem_cons_self, fun hc => hcond hc.1⟩
            · exact ⟨List.mem_cons_of_mem _ (ih hs).1, (ih hs).2⟩

theorem kept_fixed {fuel : Nat} {document : Html} {css : Css} {a : App} (ho : openApp p fuel document css = .ok a) (h : css.FixedFonts p document)
    (htr : ∀ s ∈ css.styles, ∀ x ∈ s.declaration, x.FontsAside) (n : NodeId) : FixedRules (a.kept n) := by
  obtain ⟨σ, ho⟩ := openApp_opened ho
  refine ⟨fun r hr x hx => ?_, fun s hs => ?_⟩
  · have hm := openApp_rules ho n r hr
    refine ⟨?_, htr _ hm x hx⟩
    rcases h _ hm with hf | hf
    · exact (hf x hx).fixed
    · exact hf.1 x hx
  · have hv := renderView_ok ho.rendered
    rcases (keepRules_spec hv.wf _ ho.kept).1 n with hn | ⟨e, he, hc⟩
    · rw [hn] at hs; cases hs
    · obtain ⟨h1, h2⟩ := classify_dynamic hc hs
      rcases h s h1 with hf | ⟨-, hf, hk⟩
      · exact hf
      · exfalso
        have hint : σ.tree.Hinted (fun k => ¬ NeverBound p document k) := by
          refine renderView_hinted (env := docEnv p.translate p.inline document) (h := docBody document) ?_ ho.rendered
          have key : ∀ h : Html, (∀ k, h.BindsKey k → ¬ NeverBound p document k) → HintedHtml (fun k => ¬ NeverBound p document k) h := by
            intro h hk b hb
            cases b with
            | tag k x => exact hk k ⟨_, hb, rfl⟩
            | «attribute» k x => exact hk k ⟨_, hb, rfl⟩
            | _ => trivial
          refine ⟨key _ fun k hb hn => hn.1 hb, fun d hd => key d fun k hb hn => hn.2.1 d hd hb, fun id t ht => ⟨key t fun k hb hn => (hn.2.2 id t ht).1 hb, fun d hd => key d fun k hb hn => (hn.2.2 id t ht).2 d hd hb⟩⟩
        exact h2 ⟨isStatic_settled (hint n e he) (fun k ht hn => hn (hk k ht)), settled_pseudo hf⟩

theorem fixedFonts_calm (inline : String → Option (List Declaration)) : Html.FixedFonts inline = CalmHtml inline asideManner.strict := by
  funext h
  unfold Html.FixedFonts CalmHtml
  refine propext (forall₂_congr fun b _ => ?_)
  cases b with
  | «attribute» key spans => exact ⟨.inr, fun h => h.resolve_left id⟩
  | _ => exact Iff.rfl

/-- Inline styles that are not bound stay as they are. -/
theorem updates_style {fuel : Nat} {document : Html} (values : List Json) {v v' : View} (hr : Reached p.translate p.inline p.transformers fuel document v)
    (hc : v.stage.tree.Calm unboundManner) (hu : v.updates p.inline values = .ok v') :
    ∀ n e', v'.stage.tree.ctx n = some e' → ∃ e, v.stage.tree.ctx n = some e ∧ e'.style = e.style := by
  induction values generalizing v with
  | nil => simp only [View.updates, Except.ok.injEq] at hu; subst hu; exact fun n e he => ⟨e, he, rfl⟩
  | cons x xs ih =>
    rw [View.updates] at hu
    split at hu
    · cases hu
    · rename_i v1 h1
      obtain ⟨regs, hg⟩ := reached_good hr
      have h1' := h1
      unfold View.update at h1
      cases hb : v.vm.bind x with
      | none => rw [hb] at h1; simp at h1
      | some q =>
        obtain ⟨vm, rs⟩ := q
        rw [hb] at h1
        simp only at h1
        obtain ⟨stage, a1, a2, a3, a4⟩ := viewGood_update (inline := p.inline) hg x hb
        rw [a1] at h1
        simp only [Except.ok.injEq] at h1
        subst h1
        have hheld := updateTrees_held rs hg.wf a4 a1
        intro n e' he'
        obtain ⟨e1, b1, b2⟩ := ih (.updated hr h1') (updateTrees_calm False.elim rs hg.wf a4 a1 hc).1 hu n e' he'
        obtain ⟨e, c1, c2⟩ := hheld.back' b1
        exact ⟨e, c1, b2.trans (c2.2.2 ((hc n e c1).bound.resolve_left id)).2⟩

/-- The inline styles of a program with fixed fonts. -/
theorem FixedFontStyles.styles {fuel : Nat} {document : Html} {css : Css} {a : App} (ho : openApp p fuel document css = .ok a) {values : List Json} (h : FixedFontStyles p document a values) :
    ∃ fonts, a.screen.view.InlineStyles p.inline (FontBlock fonts) values := by
  rcases h with h | h
  · unfold FixedFontDocument at h
    rw [fixedFonts_calm] at h
    refine ⟨fun n => match a.screen.view.stage.tree.ctx n with | some e => e.style.filter Declaration.aboutFonts | none => [], fun k v' hv n e he => ?_⟩
    refine ⟨static_styles (G := asideManner) ho h values k v' hv n e he, ?_⟩
    obtain ⟨σ, hop⟩ := openApp_opened ho
    obtain ⟨e0, h0, h1⟩ := updates_style _ (.opened hop.view) (openApp_strict (G := asideManner) hop h).unbound hv n e he
    simp only [h0, h1]
  · exact h

theorem Lettered.opened {fuel : Nat} {document : Html} {css : Css} {a : App} (ho : openApp p fuel document css = .ok a) {values : List Json} (h : FixedFonts p document css a values) :
    ∃ fonts, Lettered p fuel document fonts a values := by
  obtain ⟨fonts, hs⟩ := h.inline.styles ho
  obtain ⟨σ, hop⟩ := openApp_opened ho
  refine ⟨fonts, .opened ho, openApp_loose hop, .opened hop hs, kept_fixed ho h.rules h.transitions, ?_⟩
  rw [hop.sheet]
  exact h.keyframes

theorem run_init {fuel : Nat} {fs gs : List Frame} {a a' : App} {outs : List Output} (h : a.run p fuel (fs ++ gs) = .ok (a', outs)) :
    ∃ b outs', a.run p fuel fs = .ok (b, outs') := by
  induction fs generalizing a outs with
  | nil => exact ⟨a, [], rfl⟩
  | cons f fs ih =>
    obtain ⟨b1, out, rest, h1, h2, rfl⟩ := run_cons (fs := fs ++ gs) h
    obtain ⟨b, outs', hb⟩ := ih h2
    exact ⟨b, out :: outs', by simp only [App.run, h1, hb]⟩

/-- In a run of a program with fixed fonts, what an update shows of a text always has the same font. -/
theorem fonted_run {fuel fuel' : Nat} {document : Html} {t0 : Tree} {root body : NodeId} {fs : List Frame} (hf : ∀ f ∈ fs, f.order.Fair) {b b' : App} {outs : List Output}
    {fonts : NodeId → List Declaration} {values : List Json} (hu : Lettered p fuel document fonts b (fs.map (·.value) ++ values)) (h : Fonted t0 root body b) (hr : b.run p fuel' fs = .ok (b', outs)) : Fonted t0 root body b' := by
  induction fs generalizing b outs with
  | nil => simp only [App.run, Except.ok.injEq, Prod.mk.injEq] at hr; rw [← hr.1]; exact h
  | cons f fs ih =>
    obtain ⟨b1, out, rest, h1, h2, rfl⟩ := run_cons hr
    exact ih (fun g hg => hf g (by simp [hg])) (hu.updated (hf f (by simp)) h1) (h.updated hu (hf f (by simp)) h1).1 h2

theorem displayed_kids {t t' : Tree} (hk : t'.kids = t.kids) {body n : NodeId} (h : Displayed t' body n) : Displayed t body n := by
  induction h with
  | root => exact .root
  | child _ hc ih => exact .child ih (by rw [← hk]; exact hc)

/-- **C82.** A program in which the rules and inline styles with something about fonts have fixed values and are always for the same
elements, and whose animations and transitions are of other properties, keeps the font of every text in every run: its fonts
are steady. -/
theorem C82_steady_fonts {fuel fuel' : Nat} {document : Html} {css : Css} {a : App} (ho : openApp p fuel document css = .ok a)
    {fs : List Frame} (h : FixedFonts p document css a (fs.map (·.value))) (hf : ∀ f ∈ fs, f.order.Fair) : SteadyFonts p fuel' a fs := by
  obtain ⟨fonts, hun⟩ := Lettered.opened ho h
  have hw0 : a.screen.view.stage.tree.Wf a.screen.view.root a.screen.view.body := (session_ok hun.living.session).standing.wf
  have h0 : Fonted a.screen.view.stage.tree a.screen.view.root a.screen.view.body a :=
    ⟨rfl, rfl, CtxRel.refl FixedForm.refl _, fun n e0 e _ h1 h2 => by rw [h1] at h2; injection h2 with h2; rw [h2]⟩
  -- the programs after an update
  let After : App → Prop := fun b => Fonted a.screen.view.stage.tree a.screen.view.root a.screen.view.body b ∧ ∃ w env s styled,
    FontFrame fonts a.screen.view.stage.tree a.screen.view.root a.screen.view.body a.kept w env s styled ∧ Tree.Related SameStyled styled.tree b.screen.view.stage.tree
  have after : ∀ before f after, fs = before ++ f :: after → ∀ b outs, a.run p fuel' (before ++ [f]) = .ok (b, outs) → After b := by
    intro before f after hfs b outs hr
    have hfb : ∀ g ∈ before, g.order.Fair := fun g hg => hf g (by rw [hfs]; simp [hg])
    have hff : f.order.Fair := hf f (by rw [hfs]; simp)
    obtain ⟨b0, outs0, hr0⟩ : ∃ b0 outs0, a.run p fuel' before = .ok (b0, outs0) := run_init hr
    obtain ⟨rest, hr1, -⟩ := run_split hr0 hr
    obtain ⟨b1, out, rest', k1, k2, -⟩ := run_cons (fs := []) hr1
    simp only [App.run, Except.ok.injEq, Prod.mk.injEq] at k2
    obtain ⟨rfl, -⟩ := k2
    have hun' : Lettered p fuel document fonts a (before.map (·.value) ++ f.value :: after.map (·.value)) := by
      rw [hfs, List.map_append, List.map_cons] at hun; exact hun
    obtain ⟨g1, env, s, styled, g2, g3⟩ := (fonted_run hfb hun' h0 hr0).updated (hun'.run before hfb hr0) hff k1
    rw [(run_keeps before hr0).1] at g2
    exact ⟨g1, _, env, s, styled, g2, g3⟩
  have same : ∀ b1 b2, After b1 → After b2 → ∀ n e1 e2, Displayed b1.screen.view.stage.tree b1.screen.view.body n → Displayed b2.screen.view.stage.tree b2.screen.view.body n →
      b1.screen.view.stage.tree.ctx n = some e1 → b2.screen.view.stage.tree.ctx n = some e2 → e1.text.isSome → e2.font = e1.font := by
    rintro b1 b2 ⟨k1, w1, env1, s1, r1, f1, q1⟩ ⟨k2, w2, env2, s2, r2, f2, q2⟩ n e1 e2 d1 d2 he1 he2 ht
    obtain ⟨e0, g1, g2⟩ := k1.form.back' he1
    obtain ⟨e0', g3, g4⟩ := k2.form.back' he2
    rw [g1] at g3; injection g3 with g3; subst g3
    have ht0 : e0.text.isSome := by rw [← g2.text]; exact ht
    by_cases hn : Reach a.screen.view.stage.tree a.screen.view.root a.screen.view.body n
    · have disp : ∀ {s r : Styled} {b : App} {w env}, FontFrame fonts a.screen.view.stage.tree a.screen.view.root a.screen.view.body a.kept w env s r →
          Tree.Related SameStyled r.tree b.screen.view.stage.tree → Displayed b.screen.view.stage.tree a.screen.view.body n →
          ∀ e, b.screen.view.stage.tree.ctx n = some e → Displayed s.tree a.screen.view.body n ∧ ∃ e', r.tree.ctx n = some e' ∧ e.font = e'.font := by
        intro s r b w env hfr hrel hd e he
        obtain ⟨depth, hst⟩ := hfr.style
        have hre : Restyled s.tree r.tree := styleView_restyled hfr.wf hst
        refine ⟨?_, ?_⟩
        · have hk : b.screen.view.stage.tree.kids = s.tree.kids := by rw [hrel.kids, hre.kids]
          exact displayed_kids hk hd
        · cases hc : r.tree.ctx n with
          | none => rw [hrel.gone n hc] at he; cases he
          | some e' =>
            obtain ⟨e'', a1, a2⟩ := hrel.there n e' hc
            rw [he] at a1; injection a1 with a1; subst a1
            exact ⟨e', rfl, a2.fixed.2⟩
      rw [k1.sameBody] at d1
      rw [k2.sameBody] at d2
      obtain ⟨x1, y1, z1, z2⟩ := disp f1 q1 d1 e1 he1
      obtain ⟨x2, y2, z3, z4⟩ := disp f2 q2 d2 e2 he2
      have hcore := FontFrame.same hw0 hun.rules f1 f2 hn x1 x2 z1 z3
      rw [← z2, ← z4] at hcore
      have ha : e2.font.align = e1.font.align := (g4.align ht0).trans (g2.align ht0).symm
      simp only [FontFace.core, FontFace.mk.injEq] at hcore
      obtain ⟨c1, c2, c3, c4, c5, -⟩ := hcore
      cases hx : e1.font
      cases hy : e2.font
      rw [hx, hy] at c1 c2 c3 c4 c5 ha
      simp only at c1 c2 c3 c4 c5 ha
      rw [c1, c2, c3, c4, c5, ha]
    · rw [k1.font n e0 e1 hn g1 he1, k2.font n e0 e2 hn g1 he2]
  classical
  let Shows : NodeId → FontFace → Prop := fun n f => ∃ b e, After b ∧ Displayed b.screen.view.stage.tree b.screen.view.body n ∧ b.screen.view.stage.tree.ctx n = some e ∧ e.text.isSome ∧ e.font = f
  refine ⟨fun n => if hx : ∃ f, Shows n f then hx.choose else {}, ?_⟩
  intro before f af hfs b outs hr n e hd he ht
  have hb := after before f af hfs b outs hr
  have hx : ∃ f, Shows n f := ⟨e.font, b, e, hb, hd, he, ht, rfl⟩
  simp only [dif_pos hx]
  obtain ⟨b', e', hb', hd', he', ht', hfe⟩ := hx.choose_spec
  rw [← hfe]
  exact (same b' b hb' hb n e' e hd' hd he' he ht').symm ▸ rfl

/-- **C82 (part).** So such a program does what it would do if the layout engine computed everything again in every update. -/
theorem C82_fixed_fonts_partial {fuel fuel' : Nat} {document : Html} {css : Css} {a a' : App} {m' : Memory} {fs : List Frame} {outs : List Output}
    (ho : openApp p fuel document css = .ok a) (h : FixedFonts p document css a (fs.map (·.value))) (hf : ∀ f ∈ fs, f.order.Fair) (hr : Cached p fuel' a Memory.empty fs a' m' outs) :
    a.run p fuel' (fs.map Frame.anew) = .ok (a', outs) :=
  C82_as_if_computed_partial ho hr (C82_steady_fonts ho h hf)

theorem FixedFonts.take {document : Html} {css : Css} {a : App} {values : List Json} (h : FixedFonts p document css a values) (k : Nat) :
    FixedFonts p document css a (values.take k) := by
  refine ⟨h.rules, h.transitions, h.keyframes, ?_⟩
  rcases h.inline with h | ⟨fonts, h⟩
  · exact .inl h
  · refine .inr ⟨fonts, fun j v' hv => ?_⟩
    rw [List.take_take] at hv
    exact h _ v' hv

/-- **C82.** And such an engine exists for every run: if the program runs when everything is computed again, then there is a run
with kept results of the same updates, to the same state with the same messages. -/
theorem C82_fixed_fonts_runs {fuel fuel' : Nat} {document : Html} {css : Css} {a a' : App} {fs : List Frame} {outs : List Output}
    (ho : openApp p fuel document css = .ok a) (h : FixedFonts p document css a (fs.map (·.value))) (hf : ∀ f ∈ fs, f.order.Fair)
    (hr : a.run p fuel' (fs.map Frame.anew) = .ok (a', outs)) :
    ∃ fs' m', List.Forall₂ (fun f f' => ∃ recall, f' = f.recalling recall) fs fs' ∧ Cached p fuel' a Memory.empty fs' a' m' outs := by
  have key : ∀ k, k ≤ fs.length → ∀ b outs, a.run p fuel' ((fs.take k).map Frame.anew) = .ok (b, outs) →
      ∃ fs' m', List.Forall₂ (fun f f' => ∃ recall, f' = f.recalling recall) (fs.take k) fs' ∧ Cached p fuel' a Memory.empty fs' b m' outs := by
    intro k
    induction k with
    | zero =>
      intro _ b outs hb
      simp only [List.take_zero, List.map_nil, App.run, Except.ok.injEq, Prod.mk.injEq] at hb
      obtain ⟨rfl, rfl⟩ := hb
      exact ⟨[], _, .nil, .nil⟩
    | succ k ih =>
      intro hk b outs hb
      have hk' : k < fs.length := hk
      rw [List.take_succ_eq_append_getElem hk'] at hb ⊢
      rw [List.map_append] at hb
      generalize hff : fs[k] = f at hb ⊢
      have hmem : f ∈ fs := hff ▸ List.getElem_mem hk'
      obtain ⟨b0, outs0, h0⟩ : ∃ b0 outs0, a.run p fuel' ((fs.take k).map Frame.anew) = .ok (b0, outs0) := by
        clear ih hff
        generalize (fs.take k).map Frame.anew = l at hb
        clear h hf hr hmem ho
        induction l generalizing a outs with
        | nil => exact ⟨_, _, rfl⟩
        | cons g l ih =>
          obtain ⟨b1, o1, os, g1, g2, -⟩ := run_cons hb
          obtain ⟨b2, o2, g3⟩ := ih _ g2
          exact ⟨b2, o1 :: o2, by simp [App.run, g1, g3]⟩
      obtain ⟨rest, h1, rfl⟩ := run_split h0 hb
      obtain ⟨b1, out, outs1, g1, g2, rfl⟩ := run_cons (show b0.run p fuel' (f.anew :: []) = _ from h1)
      simp only [App.run, Except.ok.injEq, Prod.mk.injEq] at g2
      obtain ⟨rfl, rfl⟩ := g2
      obtain ⟨fs', m', hfs', hc⟩ := ih (by omega) _ _ h0
      obtain ⟨recall, a2, m2, out2, hc2⟩ := C82_engine_goes_on (last := f.anew) ho hc g1
      refine ⟨fs' ++ [f.recalling recall], m2, List.rel_append hfs' (.cons ⟨recall, rfl⟩ .nil), ?_⟩
      have hall : List.Forall₂ (fun f f' => ∃ recall, f' = f.recalling recall) (fs.take k ++ [f]) (fs' ++ [f.recalling recall]) :=
        List.rel_append hfs' (.cons ⟨recall, rfl⟩ .nil)
      have hsub : ∀ g ∈ fs.take k ++ [f], g.order.Fair := by
        intro g hg
        rcases List.mem_append.1 hg with hg | hg
        · exact hf g (List.mem_of_mem_take hg)
        · rw [List.mem_singleton.1 hg]; exact hf f hmem
      have same : ∀ {l l' : List Frame}, List.Forall₂ (fun f f' => ∃ recall, f' = f.recalling recall) l l' → (∀ g ∈ l, g.order.Fair) →
          l'.map (·.value) = l.map (·.value) ∧ l'.map Frame.anew = l.map Frame.anew ∧ ∀ g ∈ l', g.order.Fair := by
        intro l l' hl hfl
        induction hl with
        | nil => exact ⟨rfl, rfl, fun g hg => (by cases hg)⟩
        | cons h1 _ ih =>
          obtain ⟨r, rfl⟩ := h1
          obtain ⟨i1, i2, i3⟩ := ih fun g hg => hfl g (List.mem_cons_of_mem _ hg)
          refine ⟨by simp only [List.map_cons, i1, Frame.recalling], by simp only [List.map_cons, i2, Frame.recalling, Frame.anew], ?_⟩
          intro g hg
          rcases List.mem_cons.1 hg with rfl | hg
          · have := hfl _ (List.mem_cons_self)
            exact ⟨this.1, this.2⟩
          · exact i3 g hg
      obtain ⟨s1, s2, s3⟩ := same hall hsub
      have hpre : fs.take k ++ [f] = fs.take (k + 1) := by rw [List.take_succ_eq_append_getElem hk', hff]
      have e := C82_fixed_fonts_partial ho (by rw [s1, hpre, List.map_take]; exact h.take (k + 1)) s3 hc2
      rw [s2, List.map_append, hb] at e
      simp only [Except.ok.injEq, Prod.mk.injEq] at e
      rw [e.1, e.2]
      exact hc2
  exact (List.take_of_length_le (Nat.le_refl fs.length)) ▸ key fs.length (Nat.le_refl _) a' outs (by rwa [List.take_of_length_le (Nat.le_refl _)])

/-- **C84 (part).** Two runs of such a program with the same updates, each with its own orders of hash maps and its own use of the results
its layout engine has kept, send the same messages and come to the same state. -/
theorem C84_fixed_fonts_partial {fuel fuel' : Nat} {document : Html} {css : Css} {a a' a'' : App} {m' m'' : Memory} {outs outs' : List Output} (ho : openApp p fuel document css = .ok a)
    {fs fs' : List Frame} (h : FixedFonts p document css a (fs.map (·.value))) (hc : css.Unlisted) (hd : UnlistedStyles p document a (fs.map (·.value))) (hf : List.Forall₂ Frame.Repeats fs fs')
    (hr : Cached p fuel' a Memory.empty fs a' m' outs) (hr' : Cached p fuel' a Memory.empty fs' a'' m'' outs') : a'' = a' ∧ outs' = outs := by
  have hfair : (∀ f ∈ fs, f.order.Fair) ∧ ∀ f ∈ fs', f.order.Fair := by
    clear hr hr' h hd
    induction hf with
    | nil => exact ⟨fun f hf => (by cases hf), fun f hf => (by cases hf)⟩
    | cons h1 _ ih =>
      refine ⟨fun g hg => ?_, fun g hg => ?_⟩
      · rcases List.mem_cons.1 hg with rfl | hg
        · exact h1.fair
        · exact ih.1 g hg
      · rcases List.mem_cons.1 hg with rfl | hg
        · exact h1.fair'
        · exact ih.2 g hg
  have hv : fs'.map (·.value) = fs.map (·.value) := by
    clear hr hr' h hd hfair
    induction hf with
    | nil => rfl
    | cons h1 _ ih => simp only [List.map_cons, h1.value, ih]
  exact C84_engines_partial ho hc hd hf hr hr' (C82_steady_fonts ho h hfair.1) (C82_steady_fonts ho (by rw [hv]; exact h) hfair.2)

/-- **C85 (part).** Such a program, without animations and transitions, stays as it is when it is left alone, with the results its layout engine keeps. -/
theorem C85_fixed_fonts_partial {fuel fuel' : Nat} {document : Html} {css : Css} {a a0 a1 a2 : App} {m0 m1 m2 : Memory} {outs outs' : List Output} {out : Output}
    (ho : openApp p fuel document css = .ok a) (hc : css.NeverMoves) (hl : ∀ s ∈ css.styles, ∀ x ∈ s.declaration, x.Singular) (hp : p.Reads)
    {fs gs : List Frame} {f : Frame} (h : FixedFonts p document css a ((fs ++ ([f] ++ gs)).map (·.value))) (hd : PlainStyles p document a (fs.map (·.value) ++ [f.value])) (hf : ∀ f ∈ fs, f.order.Fair) (hff : f.order.Fair) (hv : WfJson f.value) (hg : ∀ g ∈ gs, f.Idle g)
    (hr : Cached p fuel' a Memory.empty fs a0 m0 outs) (hu : Cached p fuel' a0 m0 [f] a1 m1 [out]) (hi : Cached p fuel' a1 m1 gs a2 m2 outs')
    (hs : css.SeesSame a0.screen.view.stage.tree a1.screen.view.stage.tree) :
    SameApp a1 a2 ∧ ∃ out', out'.captured = out.captured ∧ out'.pointer = out.pointer ∧ outs' = List.replicate gs.length out' := by
  refine C85_engine_partial ho hc hl hp hd hf hff hv hg hr hu hi (C82_steady_fonts ho h fun g hg' => ?_) hs
  rcases List.mem_append.1 hg' with hg' | hg'
  · exact hf g hg'
  · rcases List.mem_append.1 hg' with hg' | hg'
    · rw [List.mem_singleton.1 hg']; exact hff
    · exact (hg g hg').fair

end Verif
