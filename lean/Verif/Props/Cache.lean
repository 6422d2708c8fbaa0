import Verif.View.CacheLemmas
/-!
# C82: layouts are up to date
-/
namespace Verif

variable {p : Platform}

theorem recall_same {s : Styled} {recall : NodeId → Option Measured} (h : ∀ n c, recall n = some c → c = s.content n) : s.recall recall = s := by
  obtain ⟨t, layouts⟩ := s
  unfold Styled.recall
  have h1 : (fun n => match recall n with | some c => c.kids | none => t.kids n) = t.kids := by
    funext n
    cases hr : recall n with
    | none => rfl
    | some c => rw [h n c hr]; rfl
  have h2 : (fun n => match recall n with | some c => (t.ctx n).map (·.recall c) | none => t.ctx n) = t.ctx := by
    funext n
    cases hr : recall n with
    | none => rfl
    | some c =>
      rw [h n c hr]
      simp only [Styled.content]
      cases hc : t.ctx n with
      | none => rfl
      | some e =>
        simp only [Option.map_some, Option.bind_some, Option.some.injEq]
        unfold Element.recall
        cases ht : e.text with
        | none => simp
        | some x => simp only [Option.map_some]; rw [← ht]
  have h3 : (fun n => match recall n with | some c => c.layout | none => layouts n) = layouts := by
    funext n
    cases hr : recall n with
    | none => rfl
    | some c => rw [h n c hr]; rfl
  obtain ⟨ctx, kids, par, next⟩ := t
  rw [Styled.mk.injEq, Tree.mk.injEq]
  exact ⟨⟨h2, h1, rfl, rfl⟩, h3⟩

/-! ## Styling does not read what the engine recalls -/

theorem playAnimators_order {env env' : FrameEnv} (ha : env'.animations = env.animations) (ht : env'.time = env.time) (hf : env'.fuel = env.fuel)
    (ho : env'.order.tracks = env.order.tracks) (n : NodeId) (vars : Variables) (l : List Animator) :
    ∀ (i : Nat) (style : ComputedStyle), playAnimators env' n vars i l style = playAnimators env n vars i l style := by
  induction l with
  | nil => intro i style; rfl
  | cons a l ih => intro i style; simp only [playAnimators, ha, ht, hf, ho, ih]

/-- The environment with what the engine recalls replaced. -/
def FrameEnv.recalling (env : FrameEnv) (r : NodeId → Option Measured) : FrameEnv := { env with order := { env.order with recall := r } }

theorem styleElement_recalling (env : FrameEnv) (r : NodeId → Option Measured) (t : Tree) (n : NodeId) (parent : Element) (sizes : Sizes) (vars : Variables) (layout : LayoutStyle) (e : Element) :
    styleElement (env.recalling r) t n parent sizes vars layout e = styleElement env t n parent sizes vars layout e := by
  simp only [styleElement, playAnimators_order (env := env) (env' := env.recalling r) rfl rfl rfl rfl]
  rfl

theorem styleTree_recalling (env : FrameEnv) (r : NodeId → Option Measured) (depth : Nat) : ∀ (n : NodeId) (sizes : Sizes) (vars : Variables) (s : Styled),
    styleTree (env.recalling r) depth n sizes vars s = styleTree env depth n sizes vars s := by
  induction depth with
  | zero => intro n sizes vars s; rfl
  | succ depth ih => intro n sizes vars s; simp only [styleTree, styleElement_recalling, ih]

theorem update_recalling {fuel : Nat} {a a' : App} {out : Output} {order : FrameOrder} {input : Input} {value : Json} {r : NodeId → Option Measured}
    (hu : a.update p fuel order input value = .ok (a', out))
    (h : ∀ v styled, a.screen.view.update p.inline value = .ok v → styleView (a.env p fuel order input.time) fuel v.body input.viewport
        ⟨v.stage.tree, upd a.layouts v.root (resizeRoot input.viewport (a.layouts v.root))⟩ = .ok styled → styled.recall order.recall = styled.recall r) :
    a.update p fuel { order with recall := r } input value = .ok (a', out) := by
  unfold App.update at hu ⊢
  cases hv : a.screen.view.update p.inline value with
  | error f => rw [hv] at hu; cases hu
  | ok v =>
    rw [hv] at hu
    simp only at hu ⊢
    have he : styleView (a.env p fuel { order with recall := r } input.time) fuel v.body input.viewport
        ⟨v.stage.tree, upd a.layouts v.root (resizeRoot input.viewport (a.layouts v.root))⟩ = styleView (a.env p fuel order input.time) fuel v.body input.viewport
        ⟨v.stage.tree, upd a.layouts v.root (resizeRoot input.viewport (a.layouts v.root))⟩ := styleTree_recalling (a.env p fuel order input.time) r _ _ _ _ _
    rw [he]
    cases hs : styleView (a.env p fuel order input.time) fuel v.body input.viewport
        ⟨v.stage.tree, upd a.layouts v.root (resizeRoot input.viewport (a.layouts v.root))⟩ with
    | error t => rw [hs] at hu; cases hu
    | ok styled =>
      rw [hs] at hu
      simp only at hu ⊢
      rw [← h v styled hv hs]
      exact hu

/-! ## Runs -/

theorem Cached.run {fuel : Nat} {a a' : App} {m m' : Memory} {fs : List Frame} {outs : List Output} (h : Cached p fuel a m fs a' m' outs) : a.run p fuel fs = .ok (a', outs) := by
  induction h with
  | nil => rfl
  | cons hu _ _ ih => simp only [App.run, hu, ih]

theorem Cached.snoc {fuel : Nat} {a a1 a' : App} {m m1 m' : Memory} {fs : List Frame} {outs : List Output} {f : Frame} {out : Output} (h : Cached p fuel a m fs a1 m1 outs)
    (hu : a1.update p fuel f.order f.input f.value = .ok (a', out)) (hr : Recalls p fuel a1 m1 f m') : Cached p fuel a m (fs ++ [f]) a' m' (outs ++ [out]) := by
  induction h with
  | nil => exact .cons hu hr .nil
  | cons k1 k2 _ ih => exact .cons k1 k2 (ih hu hr)

/-- One update with memory. -/
theorem Living.recalls {F : NodeId → Measured → Prop} {fuel fuel' : Nat} {document : Html} {a a' : App} (h : Living p fuel document a) {f : Frame} {out : Output} {m m' : Memory}
    (hu : a.update p fuel' f.order f.input f.value = .ok (a', out)) (hm : Current F a.screen.view.body ⟨a.screen.view.stage.tree, a.layouts⟩ m) (hr : Recalls p fuel' a m f m')
    (hF : ∀ n, Displayed a'.screen.view.stage.tree a'.screen.view.body n → F n (a'.content n)) :
    Current F a'.screen.view.body ⟨a'.screen.view.stage.tree, a'.layouts⟩ m' ∧
    (∀ n c, f.order.recall n = some c → Displayed a'.screen.view.stage.tree a'.screen.view.body n ∧ c.Like (a'.content n) ∧ F n c) ∧
    ∀ v styled, a.screen.view.update p.inline f.value = .ok v → styleView (a.env p fuel' f.order f.input.time) fuel' v.body f.input.viewport
        ⟨v.stage.tree, upd a.layouts v.root (resizeRoot f.input.viewport (a.layouts v.root))⟩ = .ok styled → styled.content = a'.content := by
  obtain ⟨v, styled, hv, hs, hl⟩ := hr
  obtain ⟨v1, styled1, tree, t', ui, g1, g2, g3, g4, g5⟩ := update_parts hu
  rw [hv] at g1; injection g1 with g1; subst g1
  rw [hs] at g2; injection g2 with g2; subst g2
  have wf := (h.bound hv).1
  have hst : Restyled v.stage.tree styled.tree := styleView_restyled (s := ⟨v.stage.tree, _⟩) wf hs
  have hpl : Restyled styled.tree tree := placeTree_restyled _ g3
  have hso := handleOutput_states (session_ok h.session) hv (hst.trans hpl) g4
  have hform : SameForm v.stage.tree styled.tree := Tree.Related.mono (fun _ _ hx => hx.1) hst
  have hlaid : LaidOutFrom styled a' := by
    refine ⟨by rw [g5], ?_⟩
    rw [g5]; exact SameStyled.related_trans (placeTree_styled _ g3) (stateOnly_styled hso)
  have hbody : a'.screen.view.body = v.body := by rw [g5]
  have hcont : a'.content = styled.content := content_laidOut hlaid
  have hdisp : ∀ x n, Displayed styled.tree x n ↔ Displayed a'.screen.view.stage.tree x n := fun x n =>
    ⟨fun hd => displayed_off (T := fun _ => False) (fun n _ => congrFun hlaid.tree.kids n) hd (fun _ h => h.elim),
      fun hd => displayed_on (T := fun _ => False) (fun n _ => congrFun hlaid.tree.kids n) hd (fun _ h => h.elim)⟩
  have c1 := h.memory_bound hv hm
  have c2 := c1.styled wf (hform.wf wf) hst
  refine ⟨?_, ?_, ?_⟩
  · rw [hbody]
    refine (c2.laid hl fun n hd => ?_).laidOut hlaid
    rw [← hcont]
    exact hF n (by rw [hbody]; exact (hdisp _ n).1 hd)
  · intro n c hc
    obtain ⟨d1, -⟩ := hl.recalls n c hc
    obtain ⟨t1, t2⟩ := c2.taken hl n
    rw [hcont, hbody]
    refine ⟨(hdisp _ n).1 d1, ?_, t2 c hc⟩
    unfold Styled.taken at t1
    rw [hc] at t1
    exact t1
  · intro v' styled' hv' hs'
    rw [hv] at hv'; injection hv' with hv'; subst hv'
    rw [hs] at hs'; injection hs' with hs'; subst hs'
    exact hcont.symm

theorem Cached.current {F : NodeId → Measured → Prop} {fuel fuel' : Nat} {document : Html} {a a' : App} {m m' : Memory} {fs : List Frame} {outs : List Output}
    (h : Cached p fuel' a m fs a' m' outs) (hl : Living p fuel document a) (hm : Current F a.screen.view.body ⟨a.screen.view.stage.tree, a.layouts⟩ m)
    (hF : ∀ before f after, fs = before ++ f :: after → ∀ b outs, a.run p fuel' (before ++ [f]) = .ok (b, outs) → ∀ n, Displayed b.screen.view.stage.tree b.screen.view.body n → F n (b.content n)) :
    Current F a'.screen.view.body ⟨a'.screen.view.stage.tree, a'.layouts⟩ m' := by
  induction h with
  | nil => exact hm
  | @cons a m f a1 m1 fs a' m' out outs hu hr _ ih =>
    refine ih (hl.updated hu) (hl.recalls hu hm hr (hF [] f fs rfl a1 [out] (by simp [App.run, hu]))).1 ?_
    intro before g after he b outs' hb
    refine hF (f :: before) g after (by rw [he]; rfl) b (out :: outs') ?_
    simp only [List.cons_append, App.run, hu, hb]

/-- **C82.** In every run, whatever results the layout engine has kept and uses, it never takes a node for one with another layout style,
other children or another text than it has at the time. -/
theorem C82_never_outdated {fuel fuel' : Nat} {document : Html} {css : Css} {a a1 a' : App} {m m' : Memory} {fs : List Frame} {outs : List Output} {last : Frame} {out : Output}
    (ho : openApp p fuel document css = .ok a) (hr : Cached p fuel' a Memory.empty fs a1 m outs) (hu : a1.update p fuel' last.order last.input last.value = .ok (a', out))
    (hm : Recalls p fuel' a1 m last m') {n : NodeId} {c : Measured} (hc : last.order.recall n = some c) : c.Like (a'.content n) := by
  have hl := Living.opened ho
  have := hr.current (F := fun _ _ => True) hl (Current.empty _ _ _) (fun _ _ _ _ _ _ _ _ _ => trivial)
  exact (((living_run fs hl hr.run).recalls hu this hm (fun _ _ => trivial)).2.1 n c hc).2.1

/-- **C82 (part).** If every text has the same font whenever it is displayed, the program does what it would do if the layout engine
computed everything again in every update. Missing, because false of the code: fonts that change,
see C82_font_counterexample. -/
theorem C82_as_if_computed_partial {fuel fuel' : Nat} {document : Html} {css : Css} {a a' : App} {m' : Memory} {fs : List Frame} {outs : List Output}
    (ho : openApp p fuel document css = .ok a) (hr : Cached p fuel' a Memory.empty fs a' m' outs) (hf : SteadyFonts p fuel' a fs) :
    a.run p fuel' (fs.map Frame.anew) = .ok (a', outs) := by
  obtain ⟨face, hf⟩ := hf
  let F : NodeId → Measured → Prop := fun n c => ∀ t f, c.text = some (t, f) → f = face n
  have hFaces : ∀ b : App, b.Faces face → ∀ n, Displayed b.screen.view.stage.tree b.screen.view.body n → F n (b.content n) := by
    intro b hb n hd t f ht
    unfold App.content Styled.content at ht
    simp only at ht
    cases hc : b.screen.view.stage.tree.ctx n with
    | none => rw [hc] at ht; cases ht
    | some e =>
      rw [hc] at ht
      simp only [Option.bind_some] at ht
      cases hx : e.text with
      | none => rw [hx] at ht; cases ht
      | some x =>
        rw [hx] at ht
        simp only [Option.map_some, Option.some.injEq, Prod.mk.injEq] at ht
        rw [← ht.2]
        exact hb n e hd hc (by rw [hx]; rfl)
  have key : ∀ {a m}, Cached p fuel' a m fs a' m' outs → Living p fuel document a → Current F a.screen.view.body ⟨a.screen.view.stage.tree, a.layouts⟩ m →
      (∀ before f after, fs = before ++ f :: after → ∀ b outs, a.run p fuel' (before ++ [f]) = .ok (b, outs) → b.Faces face) → a.run p fuel' (fs.map Frame.anew) = .ok (a', outs) := by
    clear hf hr ho
    intro a m hr hl hm hf
    induction hr with
    | nil => rfl
    | @cons a m f a1 m1 fs a' m' out outs hu hr _ ih =>
      have h1 := hFaces a1 (hf [] f fs rfl a1 [out] (by simp [App.run, hu]))
      obtain ⟨k1, k2, k3⟩ := hl.recalls hu hm hr h1
      have hup : a.update p fuel' f.anew.order f.anew.input f.anew.value = .ok (a1, out) := by
        refine update_recalling (r := fun _ => none) hu fun v styled hv hs => ?_
        have hcont := k3 v styled hv hs
        rw [recall_same (s := styled) (recall := fun _ => none) (fun _ _ h => by cases h)]
        refine recall_same fun n c hc => ?_
        obtain ⟨d1, d2, d3⟩ := k2 n c hc
        have d4 := h1 n d1
        rw [hcont]
        obtain ⟨cl, ck, ct⟩ := c
        generalize a1.content n = d at d2 d4
        obtain ⟨dl, dk, dt⟩ := d
        obtain ⟨e1, e2, e3⟩ := d2
        simp only at e1 e2 e3
        subst e1 e2
        congr 1
        cases ct with
        | none => cases dt with
          | none => rfl
          | some y => cases e3
        | some x =>
          cases dt with
          | none => cases e3
          | some y =>
            obtain ⟨x1, x2⟩ := x
            obtain ⟨y1, y2⟩ := y
            simp only [Option.map_some, Option.some.injEq] at e3
            rw [e3, d3 x1 x2 rfl, d4 y1 y2 rfl]
      have := ih (hl.updated hu) k1 (by
        intro before g after he b outs' hb
        refine hf (f :: before) g after (by rw [he]; rfl) b (out :: outs') ?_
        simp only [List.cons_append, App.run, hu, hb])
      simp only [List.map_cons, App.run, hup, this]
  exact key hr (Living.opened ho) (Current.empty _ _ _) hf

theorem forEach_both {σ : Type} {R : σ → σ → Prop} {f g : σ → NodeId → Except Trouble σ} (h : ∀ s s' c s1, R s s' → f s c = .ok s1 → ∃ s1', g s' c = .ok s1' ∧ R s1 s1')
    (cs : List NodeId) : ∀ {s s' s1 : σ}, R s s' → forEach f cs s = .ok s1 → ∃ s1', forEach g cs s' = .ok s1' ∧ R s1 s1' := by
  induction cs with
  | nil => intro s s' s1 hr hf; simp only [forEach, Except.ok.injEq] at hf; subst hf; exact ⟨s', rfl, hr⟩
  | cons c cs ih =>
    intro s s' s1 hr hf
    simp only [forEach] at hf
    split at hf
    · cases hf
    · rename_i s2 h2
      obtain ⟨s2', g1, g2⟩ := h s s' c s2 hr h2
      obtain ⟨s1', g3, g4⟩ := ih g2 hf
      exact ⟨s1', by simp only [forEach, g1, g3], g4⟩

/-- Whether placing succeeds does not depend on the boxes. -/
theorem placeTree_any {boxes boxes' : NodeId → Layout} (depth : Nat) :
    ∀ {n : NodeId} {location location' : Rat × Rat} {opacity opacity' : Rat} {clipping clipping' : Option Layout} {t t' t1 : Tree},
      (t'.kids = t.kids ∧ ∀ n, (t'.ctx n).isSome = (t.ctx n).isSome) → placeTree boxes depth n location opacity clipping t = .ok t1 →
      ∃ t1', placeTree boxes' depth n location' opacity' clipping' t' = .ok t1' ∧ t1'.kids = t1.kids ∧ ∀ n, (t1'.ctx n).isSome = (t1.ctx n).isSome := by
  induction depth with
  | zero => intro n l l' o o' c c' t t' t1 _ h; cases h
  | succ depth ih =>
    intro n l l' o o' c c' t t' t1 hr h
    rw [placeTree] at h ⊢
    cases he : t.ctx n with
    | none => rw [he] at h; cases h
    | some e =>
      have he' := hr.2 n
      rw [he] at he' h
      obtain ⟨e', he'⟩ := Option.isSome_iff_exists.1 he'
      rw [he']
      simp only at h ⊢
      rw [hr.1]
      have hR : ∀ E E', (t'.setCtx n E').kids = (t.setCtx n E).kids ∧ ∀ m, ((t'.setCtx n E').ctx m).isSome = ((t.setCtx n E).ctx m).isSome := by
        refine fun E E' => ⟨hr.1, fun m => ?_⟩
        by_cases hm : m = n
        · subst hm; simp [Tree.setCtx]
        · simp only [Tree.setCtx, upd_other _ _ hm]; exact hr.2 m
      refine forEach_both (R := fun t t' : Tree => t'.kids = t.kids ∧ ∀ n, (t'.ctx n).isSome = (t.ctx n).isSome) ?_ _ (hR _ _) h
      intro s s' x s1 hs hf
      exact ih hs hf

theorem Living.update_any {fuel fuel' : Nat} {document : Html} {a a' : App} (h : Living p fuel document a) {order : FrameOrder} {input : Input} {value : Json} {out : Output}
    (hu : a.update p fuel' order input value = .ok (a', out)) (r : NodeId → Option Measured) : ∃ a'' out', a.update p fuel' { order with recall := r } input value = .ok (a'', out') := by
  obtain ⟨v, styled, tree, t', ui, hv, hs, hp, -⟩ := update_parts hu
  have wf := (h.bound hv).1
  have hst : Restyled v.stage.tree styled.tree := styleView_restyled (s := ⟨v.stage.tree, _⟩) wf hs
  obtain ⟨tree2, hp2, -⟩ := placeTree_any (boxes := p.solve (styled.recall order.recall)) (boxes' := p.solve (styled.recall r)) fuel' (location' := (0, 0)) (opacity' := 1) (clipping' := none)
    (t := styled.tree) (t' := styled.tree) ⟨rfl, fun _ => rfl⟩ hp
  obtain ⟨t2, u2, out2, h2, -⟩ := session_update (session_ok h.session) hv (hst.trans (placeTree_restyled _ hp2)) input.events
  refine ⟨⟨⟨{ v with stage := { v.stage with tree := t2 } }, u2⟩, a.css, a.kept, styled.layouts⟩, out2, ?_⟩
  unfold App.update
  have hs' : styleView (a.env p fuel' { order with recall := r } input.time) fuel' v.body input.viewport
      ⟨v.stage.tree, upd a.layouts v.root (resizeRoot input.viewport (a.layouts v.root))⟩ = .ok styled := (styleTree_recalling (a.env p fuel' order input.time) r _ _ _ _ _).trans hs
  simp only [hv, hs', placeView, hp2, h2]

/-- **C82.** The engine can always go on: whenever an update is possible at all, there is one in which it recalls only what it has kept. -/
theorem C82_engine_goes_on {fuel fuel' : Nat} {document : Html} {css : Css} {a a1 a' : App} {m : Memory} {fs : List Frame} {outs : List Output} {last : Frame} {out : Output}
    (ho : openApp p fuel document css = .ok a) (hr : Cached p fuel' a Memory.empty fs a1 m outs) (hu : a1.update p fuel' last.order last.input last.value = .ok (a', out)) :
    ∃ recall a'' m' out', Cached p fuel' a Memory.empty (fs ++ [{ last with order := { last.order with recall := recall } }]) a'' m' (outs ++ [out']) := by
  classical
  have hl := Living.opened ho
  have hc := hr.current (F := fun _ _ => True) hl (Current.empty _ _ _) (fun _ _ _ _ _ _ _ _ _ => trivial)
  have h := living_run fs hl hr.run
  obtain ⟨v, styled, tree, t', ui, hv, hs, -⟩ := update_parts hu
  have wf := (h.bound hv).1
  have hst : Restyled v.stage.tree styled.tree := styleView_restyled (s := ⟨v.stage.tree, _⟩) wf hs
  have hform : SameForm v.stage.tree styled.tree := Tree.Related.mono (fun _ _ hx => hx.1) hst
  have c2 := (h.memory_bound hv hc).styled wf (hform.wf wf) hst
  generalize hk : (Memory.bound p.inline a1.screen.view last.value m).styled a1.layouts styled = k at c2
  let recall : NodeId → Option Measured := fun n => if hn : ∃ c, k v.body n c then some hn.choose else none
  have hrec : ∀ n c, recall n = some c → k v.body n c := by
    intro n c hx
    simp only [recall] at hx
    split at hx
    · rename_i hn; injection hx with hx; rw [← hx]; exact hn.choose_spec
    · cases hx
  obtain ⟨a'', out', hu'⟩ := h.update_any hu recall
  refine ⟨recall, a'', fun b n c => b = v.body ∧ Displayed styled.tree b n ∧ c = styled.taken recall n, out', hr.snoc hu' ⟨v, styled, hv, ?_, ?_⟩⟩
  · exact (styleTree_recalling (a1.env p fuel' last.order last.input.time) recall _ _ _ _ _).trans hs
  · simp only [hk]
    refine ⟨fun n c hx => ⟨c2.below _ _ _ (hrec n c hx), _, hrec n c hx⟩, fun hx n hd => ?_, fun b n c hx => .inr ?_, fun n hd => ⟨rfl, hd, rfl⟩⟩
    · have hn := c2.full hx n hd
      refine ⟨hn.choose, ?_, hn.choose_spec⟩
      simp only [recall, dif_pos hn]
    · obtain ⟨rfl, h2, h3⟩ := hx
      exact ⟨.root, h2, h3⟩

/-- **C82.** All that is asked about a node when it is measured is what `Measured` has of it: two nodes with the same text in the
same font, and two that are no texts, are measured alike. -/
theorem C82_measured_by_content (fonts : String → FontFace → Option Rat → Rat × Rat) (size : Option Rat × Option Rat) (space : Option Rat) {s s' : Styled} {n n' : NodeId}
    (h : (s.content n).text = (s'.content n').text) : measureText fonts size space (s.tree.ctx n) = measureText fonts size space (s'.tree.ctx n') := by
  unfold Styled.content at h
  simp only at h
  unfold measureText
  cases hn : s.tree.ctx n with
  | none =>
    cases hn' : s'.tree.ctx n' with
    | none => rfl
    | some e' =>
      rw [hn, hn'] at h
      cases ht : e'.text with
      | none => simp only [ht]
      | some t => simp [ht] at h
  | some e =>
    cases ht : e.text with
    | none =>
      cases hn' : s'.tree.ctx n' with
      | none => simp only [ht]
      | some e' =>
        rw [hn, hn'] at h
        cases ht' : e'.text with
        | none => simp only [ht, ht']
        | some t => simp [ht, ht'] at h
    | some t =>
      cases hn' : s'.tree.ctx n' with
      | none => rw [hn, hn'] at h; simp [ht] at h
      | some e' =>
        rw [hn, hn'] at h
        cases ht' : e'.text with
        | none => simp [ht, ht'] at h
        | some t' =>
          simp only [Option.bind_some, ht, ht', Option.map_some, Option.some.injEq, Prod.mk.injEq] at h
          obtain ⟨rfl, hf⟩ := h
          simp only [ht, ht', hf]

end Verif
