import Verif.Spec.Clock
import Verif.View.Pictures
import Verif.View.Unmoved
import Verif.Props.Animation
/-!
# The clocks of a program's animations (lemmas for C81)
-/
namespace Verif

variable {p : Platform}

theorem applyValue_time (sizes : Sizes) (d : Descriptor) (v : ComputedValue) (s : LayoutStyle × Element) (j : Nat) :
    ((applyValue sizes d v s).2.animators[j]?.getD {}).time = (s.2.animators[j]?.getD {}).time := by
  show (((assignment sizes d.key v).1.write d.index s.1 s.2).2.animators[j]?.getD {}).time = _
  rw [write_animators]
  generalize (assignment sizes d.key v).1 = w
  cases w with
  | animator x =>
    simp only [updateAt_getD]
    split
    · cases x <;> rfl
    · rfl
  | _ => rfl

theorem applyAll_time (sizes : Sizes) (l : ComputedStyle) (s : LayoutStyle × Element) (j : Nat) :
    ((applyAll sizes l s).2.animators[j]?.getD {}).time = (s.2.animators[j]?.getD {}).time := by
  induction l generalizing s with
  | nil => rfl
  | cons x l ih =>
    obtain ⟨d, v⟩ := x
    exact (ih (applyValue sizes d v s)).trans (applyValue_time sizes d v s j)

theorem animatorPlay_clock {fuel : Nat} {a a' : Animator} {time : Rat} {tracks : List Track} {s s' : ComputedStyle} (h : a.play fuel time tracks s = .ok (a', s')) :
    a' = { a with time := clockAfter a time } := by
  unfold Animator.play at h
  split at h
  · cases h
  · rename_i hu
    injection h with h; injection h with h2 _
    subst h2
    exact (update_cases hu).1
  · rename_i hu
    split at h
    · cases h
    · injection h with h; injection h with h2 _
      subst h2
      exact (update_cases hu).1

theorem playAnimators_clock {env : FrameEnv} {n : NodeId} {vars : Variables} (l : List Animator) (i : Nat) {a b : ComputedStyle} {l' : List Animator}
    (h : playAnimators env n vars i l a = .ok (l', b)) (j : Nat) :
    l'[j]? = l[j]?.map fun x => if (env.animations x.name).isSome then { x with time := clockAfter x env.time } else x := by
  induction l generalizing i a b l' j with
  | nil => injection h with h; injection h with h1 h; subst h1; simp
  | cons x l ih =>
    simp only [playAnimators] at h
    split at h
    · rename_i hn
      split at h
      · cases h
      · rename_i rest s hrest
        injection h with h; injection h with h1 h; subst h1
        cases j with
        | zero => simp [hn]
        | succ j => simpa using ih (i + 1) hrest j
    · rename_i an han
      split at h
      · cases h
      · split at h
        · cases h
        · rename_i x' s hpl
          split at h
          · cases h
          · rename_i rest s' hrest
            injection h with h; injection h with h1 h; subst h1
            cases j with
            | zero => simp [han, animatorPlay_clock hpl]
            | succ j => simpa using ih (i + 1) hrest j

theorem styleElement_clock {env : FrameEnv} {t : Tree} {n : NodeId} {parent e : Element} {sizes : Sizes} {vars vars' : Variables} {l l' : LayoutStyle}
    {e' : Element} (h : styleElement env t n parent sizes vars l e = .ok ((l', e'), vars')) (i : Nat) :
    (e'.animators[i]?.getD {}).time = (e.animators[i]?).elim 0 fun x =>
      if (env.animations x.name).isSome then clockAfter x env.time else x.time := by
  obtain ⟨rules, declared, animators, animated, transitions, final, st⟩ := styleElement_steps.1 h
  rw [st.hElement]
  simp only
  rw [applyAll_time]
  simp only
  rw [playAnimators_clock _ _ st.hAnimators i]
  cases e.animators[i]? with
  | none => rfl
  | some x =>
    simp only [Option.map_some, Option.getD_some, Option.elim]
    split <;> rfl

theorem Option.elim_time (x : Option Animator) : x.elim 0 (·.time) = (x.getD {}).time := by cases x <;> rfl

/-- The clock of an animation after an update. -/
theorem Living.clock {fuel fuel' : Nat} {document : Html} {a a' : App} (h : Living p fuel document a) {order : FrameOrder} {input : Input} {value : Json} {out : Output}
    (hu : a.update p fuel' order input value = .ok (a', out)) (n : NodeId) (i : Nat) :
    (a.Plays p value n i → a'.clock n i = a.clock n i + input.time) ∧ (¬ a.Plays p value n i → a'.clock n i = a.clock n i) := by
  obtain ⟨v, styled, tree, t', ui, g1, g2, g3, g4, g5⟩ := update_parts hu
  have wf := (h.bound g1).1
  have hst : Restyled v.stage.tree styled.tree := styleView_restyled (s := ⟨v.stage.tree, _⟩) wf g2
  have hpl : Restyled styled.tree tree := placeTree_restyled _ g3
  have hso := handleOutput_states (session_ok h.session) g1 (hst.trans hpl) g4
  have hsty := SameStyled.related_trans (placeTree_styled _ g3) (stateOnly_styled hso)
  have hreb := h.rebound g1
  have e1 : a'.clock n i = (styled.tree.ctx n).elim 0 fun e => (e.animators[i]?.getD {}).time := by
    rw [g5]
    unfold App.clock App.animator
    simp only
    cases hx : styled.tree.ctx n with
    | none => rw [hsty.gone n hx]; rfl
    | some e =>
      obtain ⟨e', h1, h2⟩ := hsty.there n e hx
      rw [h1, h2]
      simp only [Option.bind_some, Option.elim]
      exact Option.elim_time _
  have e2 : ∀ e, v.stage.tree.ctx n = some e → a.animator n i = e.animators[i]? := by
    intro e he
    obtain ⟨e0, h1, h2⟩ := hreb.back he
    unfold App.animator
    rw [h1, h2]
    rfl
  have e3 : v.stage.tree.ctx n = none → a.animator n i = none := by
    intro he
    unfold App.animator
    cases hx : a.screen.view.stage.tree.ctx n with
    | none => rfl
    | some e0 =>
      obtain ⟨e', h1, -⟩ := hreb.there n e0 hx
      rw [he] at h1; cases h1
  have e4 : a.clock n i = (v.stage.tree.ctx n).elim 0 fun e => (e.animators[i]?.getD {}).time := by
    unfold App.clock
    cases hx : v.stage.tree.ctx n with
    | none => rw [e3 hx]; rfl
    | some e => rw [e2 e hx]; exact Option.elim_time _
  by_cases hn : Styles v.stage.tree v.body n
  · cases styledAt_all (linked_of_wf wf) g2 hn with
    | @text q parent e a1 a2 a3 a4 a5 a6 =>
      have hs : styled.tree.ctx n = some (parent.inherit e) := a5
      have a3 : v.stage.tree.ctx n = some e := a3
      have same : a'.clock n i = a.clock n i := by
        rw [e1, e4, hs, a3]
        rfl
      refine ⟨fun hp => ?_, fun _ => same⟩
      obtain ⟨v', x, e', k1, k2, k3, k4, -⟩ := hp
      rw [g1] at k1; injection k1 with k1; subst k1
      rw [a3] at k3; injection k3 with k3; subst k3
      rw [k4] at a4; cases a4
    | @element q parent e vars l e' vars' a1 a2 a3 a4 a5 a6 a7 a8 a9 =>
      have a3 : v.stage.tree.ctx n = some e := a3
      have hcl := styleElement_clock a7 i
      rw [e1, a8, e4, a3]
      simp only [Option.elim] at hcl ⊢
      rw [hcl]
      have hx := e2 e a3
      constructor
      · rintro ⟨v', x, e'', k1, k2, k3, k4, k5, k6, k7, k8⟩
        rw [hx] at k5
        rw [k5]
        simp only [Option.getD_some]
        rw [if_pos (show ((a.env p fuel' order input.time).animations x.name).isSome = true from k8)]
        unfold clockAfter
        rw [if_pos ⟨k6, k7⟩]
        rfl
      · intro hno
        cases hy : e.animators[i]? with
        | none => rfl
        | some x =>
          simp only [Option.getD_some]
          split
          · rename_i hk
            unfold clockAfter
            rw [if_neg]
            rintro ⟨r1, r2⟩
            exact hno ⟨v, x, e, g1, hn, a3, a4, hx.trans hy, r1, r2, hk⟩
          · rfl
  · have hbes := styleTree_besides (t := v.stage.tree) (body := v.body) (s0 := ⟨v.stage.tree, upd a.layouts v.root (resizeRoot input.viewport (a.layouts v.root))⟩) _ .body g2
      ⟨Tree.Related.refl (fun e => ⟨⟨rfl, rfl, rfl, rfl, rfl, rfl, rfl, rfl, rfl⟩, rfl⟩) _, fun m _ => ⟨rfl, rfl⟩⟩
    refine ⟨fun hp => ?_, fun _ => ?_⟩
    · obtain ⟨v', x, e', k1, k2, -⟩ := hp
      rw [g1] at k1; injection k1 with k1; subst k1
      exact absurd k2 hn
    · rw [e1, e4, (hbes.2 n hn).1]

theorem opened_clock {fuel : Nat} {document : Html} {css : Css} {a : App} (h : openApp p fuel document css = .ok a) (n : NodeId) (i : Nat) : a.animator n i = none := by
  obtain ⟨σ, ho⟩ := openApp_opened h
  have hv := renderView_ok ho.rendered
  have hm := renderView_modest (P := fun _ e => e.animators = []) ⟨fun _ _ => rfl, fun _ _ => rfl, fun _ _ => rfl, fun _ _ _ h => h, fun _ _ _ h => h, fun _ _ _ h => h,
    fun _ _ _ h => h, fun _ _ _ h => h, fun _ _ _ h => h⟩ ho.rendered
  have hreb := updateTrees_rebound (inline := p.inline) _ (s := ⟨σ.tree, σ.staticId⟩) hv.wf (defaultReactions_ok ho.rendered) ho.stage
  unfold App.animator
  cases hx : a.screen.view.stage.tree.ctx n with
  | none => rfl
  | some e =>
    obtain ⟨e0, h1, h2⟩ := hreb.back hx
    have := hm n e0 h1
    rw [Option.bind_some, h2]
    simp only
    rw [this]
    rfl

theorem clock_run {fuel fuel' : Nat} {document : Html} (fs : List Frame) {a a' : App} {outs : List Output} (h : Living p fuel document a)
    (hr : a.run p fuel' fs = .ok (a', outs)) (n : NodeId) (i : Nat) : a'.clock n i = a.clock n i + a.playing p fuel' n i fs := by
  induction fs generalizing a outs with
  | nil =>
    simp only [App.run, Except.ok.injEq, Prod.mk.injEq] at hr
    obtain ⟨rfl, -⟩ := hr
    simp [App.playing]
  | cons f fs ih =>
    obtain ⟨a1, out, rest, h1, h2, -⟩ := run_cons hr
    rw [ih (h.updated h1) h2, App.playing, h1]
    obtain ⟨c1, c2⟩ := h.clock h1 n i
    simp only
    split
    · rename_i hp; rw [c1 hp]; ring
    · rename_i hp; rw [c2 hp]; ring

/-! ## The look -/

theorem keyframeStyles_some {vars : Variables} {fuel : Nat} (ks : List Keyframe) {styles : List (Nat × ComputedStyle)} {animated : List Descriptor}
    {r} (h : keyframeStyles vars fuel ks styles animated = some r) : ∀ k ∈ ks, ∃ st, keyframeStyle vars fuel k.declaration [] = some st := by
  induction ks generalizing styles animated with
  | nil => intro k hk; cases hk
  | cons k ks ih =>
    rw [keyframeStyles] at h
    split at h
    · cases h
    · rename_i st hst
      intro k' hk'
      rcases List.mem_cons.1 hk' with rfl | hk'
      · exact ⟨st, hst⟩
      · exact ih h k' hk'

/-- There is a last one. -/
theorem lastSets_exists {vars : Variables} {d : Descriptor} (block : List Declaration) (h : ∃ x ∈ block, ∃ w, x.Sets vars d w) : ∃ v, LastSets vars block d v := by
  induction block using List.reverseRecOn with
  | nil => obtain ⟨x, hx, -⟩ := h; cases hx
  | append_singleton l y ih =>
    by_cases hy : ∃ w, y.Sets vars d w
    · obtain ⟨w, hw⟩ := hy
      exact ⟨w, l, y, [], rfl, hw, fun z hz => by cases hz⟩
    · obtain ⟨x, hx, w, hw⟩ := h
      rcases List.mem_append.1 hx with hx | hx
      · obtain ⟨v, pre, z, post, rfl, h1, h2⟩ := ih ⟨x, hx, w, hw⟩
        refine ⟨v, pre, z, post ++ [y], by simp, h1, ?_⟩
        intro u hu w' hw'
        rcases List.mem_append.1 hu with hu | hu
        · exact h2 u hu w' hw'
        · rw [List.mem_singleton] at hu; subst hu; exact hy ⟨w', hw'⟩
      · rw [List.mem_singleton] at hx; subst hx; exact absurd ⟨w, hw⟩ hy

theorem keyframeStyle_none {vars : Variables} {fuel : Nat} {block : List Declaration} {st : ComputedStyle} (h : keyframeStyle vars fuel block [] = some st) (d : Descriptor) :
    st.get d = none ↔ ∀ x ∈ block, ∀ w, ¬ x.Sets vars d w := by
  constructor
  · intro hn x hx w hw
    obtain ⟨v, hv⟩ := lastSets_exists block ⟨x, hx, w, hw⟩
    rw [(C53_keyframe_style h d v).2 hv] at hn; cases hn
  · intro hn
    cases hg : st.get d with
    | none => rfl
    | some v =>
      obtain ⟨pre, x, post, rfl, h1, -⟩ := (C53_keyframe_style h d v).1 hg
      exact absurd h1 (hn x (by simp) v)

/-- The values at the percentages. -/
theorem frameSays_value {said : Said} {an : Animation} {vars : Variables} {fuel : Nat} {styleOf : Keyframe → ComputedStyle} {style : ComputedStyle}
    (hs : ∀ k ∈ an.keyframes, keyframeStyle vars fuel k.declaration [] = some (styleOf k)) (hd : ∀ d v, style.get d = some v ↔ said d v)
    (d : Descriptor) (s : Nat) (v : ComputedValue) :
    an.FrameSays said vars d s v ↔ keyframeValue styleOf an.keyframes style d s = some v := by
  unfold Animation.FrameSays keyframeValue
  have hinit : (said d v ∨ (∀ w, ¬ said d w) ∧ v = initialValue d.key) ↔ (style.get d).getD (initialValue d.key) = v := by
    cases hg : style.get d with
    | none =>
      have hno : ∀ w, ¬ said d w := fun w hw => by rw [(hd d w).2 hw] at hg; cases hg
      simp only [Option.getD_none]
      constructor
      · rintro (h | ⟨-, h⟩)
        · exact absurd h (hno v)
        · exact h.symm
      · intro h; exact .inr ⟨hno, h.symm⟩
    | some w =>
      simp only [Option.getD_some]
      constructor
      · rintro (h | ⟨h, -⟩)
        · rw [(hd d v).2 h] at hg; injection hg with hg; exact hg.symm
        · exact absurd ((hd d w).1 hg) (h w)
      · rintro rfl; exact .inl ((hd d w).1 hg)
  cases hk : (an.keyframes.filter (·.step == s)).getLast? with
  | none =>
    simp only [reduceCtorEq, false_and, exists_false, false_or, IsEmpty.forall_iff, implies_true, true_and, Option.bind_none, hinit]
    by_cases hss : s = 0 ∨ s = 100
    · simp [hss]
    · simp [hss]
  | some k =>
    have hmem : k ∈ an.keyframes := List.mem_of_mem_filter (List.mem_of_getLast? hk)
    simp only [Option.some.injEq, exists_eq_left', forall_eq', Option.bind_some, hinit]
    cases hg : (styleOf k).get d with
    | some w =>
      have h1 := (C53_keyframe_style (hs k hmem) d w).1 hg
      simp only [Option.some.injEq]
      constructor
      · rintro (h | ⟨h, -⟩)
        · have := (C53_keyframe_style (hs k hmem) d v).2 h
          rw [hg] at this; injection this
        · rw [(keyframeStyle_none (hs k hmem) d).2 h] at hg; cases hg
      · rintro rfl; exact .inl h1
    | none =>
      have h1 := (keyframeStyle_none (hs k hmem) d).1 hg
      have h2 : ¬ LastSets vars k.declaration d v := fun h => by
        rw [(C53_keyframe_style (hs k hmem) d v).2 h] at hg; cases hg
      simp only [h2, false_or]
      by_cases hss : s = 0 ∨ s = 100
      · rw [if_pos hss]
        simp only [hss, true_and, Option.some.injEq]
        exact ⟨fun h => h.2, fun h => ⟨h1, h⟩⟩
      · simp [hss]

theorem Animated.last {document : Html} {css : Css} {fuel : Nat} {a : App} {fs : List Frame} {last : Frame} {v : View} {a' : App} {n : NodeId} {e : Element}
    (h : Animated p document css fuel a fs last v a' n e) : LastUpdate p document css last v a' := by
  obtain ⟨fuel0, a1, outs, out, h1, h2, h3, h4⟩ := h.program
  exact ⟨⟨fuel0, fuel, a, fs, a1, outs, out, h1, h2, h3, h4⟩, h.fair, h.supported, h.undisturbed, h.spaces⟩

/-- The clock of the animation at the end of the last update. -/
theorem Animated.clock {document : Html} {css : Css} {fuel : Nat} {a : App} {fs : List Frame} {last : Frame} {v : View} {a' : App} {n : NodeId} {e : Element}
    (h : Animated p document css fuel a fs last v a' n e) {i : Nat} {x : Animator} (hx : e.animators[i]? = some x) {an : Animation} (hk : css.animations x.name = some an) :
    clockAfter x last.input.time = a.playing p fuel n i (fs ++ [last]) := by
  obtain ⟨fuel0, a1, outs, out, h1, h2, h3, h4⟩ := h.program
  have he := h.there
  have ht := h.element
  obtain ⟨hdur, -⟩ := h.animations x (List.mem_of_getElem? hx) an hk
  have hl := Living.opened h1
  have hl1 := living_run fs hl h2
  have := clock_run (fs ++ [last]) hl (run_snoc h2 h4) n i
  rw [show a.clock n i = 0 by unfold App.clock; rw [opened_clock h1]; rfl, zero_add] at this
  rw [← this]
  obtain ⟨e0, k1, k2⟩ := (hl1.rebound h3).back he
  have hax : a1.animator n i = some x := by
    unfold App.animator
    rw [k1, Option.bind_some, show e0.animators = e.animators by rw [k2], hx]
  have hcl : a1.clock n i = x.time := by unfold App.clock; rw [hax]; rfl
  have hcss : a1.css = css := by
    rw [(run_keeps fs h2).2]
    obtain ⟨σ, ho⟩ := openApp_opened h1
    exact ho.sheet
  obtain ⟨c1, c2⟩ := hl1.clock h4 n i
  unfold clockAfter
  by_cases hr : x.running = true
  · rw [if_pos ⟨hr, hdur⟩, c1 ⟨v, x, e, h3, h.reached, he, ht, hax, hr, hdur, by rw [hcss, hk]; rfl⟩, hcl]
  · rw [if_neg (fun hh => hr hh.1), c2 ?_, hcl]
    rintro ⟨v', y, e', j1, j2, j3, j4, j5, j6, -⟩
    rw [hax] at j5; injection j5 with j5; subst j5
    exact hr j6

/-- The steps of styling the element. -/
theorem Animated.steps {document : Html} {css : Css} {fuel : Nat} {a : App} {fs : List Frame} {last : Frame} {v : View} {a' : App} {n : NodeId} {e : Element}
    (h : Animated p document css fuel a fs last v a' n e) :
    ∃ env t q parent parent' vars layout l e1 vars' rules declared animators animated transitions final e2,
      Steps env t n parent (sizesAt v.body last.input.viewport n parent) vars layout e l e1 vars' rules declared animators animated transitions final ∧
      env.time = last.input.time ∧ env.order = last.order ∧ env.animations = css.animations ∧ env.fuel = fuel ∧
      (∀ y, y ∈ declarations env t n e ∨ y ∈ keyframeDeclarations env e → y.Singular) ∧
      (∀ d w, declared.get d = some w ↔ css.Says v.stage.tree v.body n d w) ∧ (∀ name l, vars' name = some l ↔ css.Gives v.stage.tree v.body name l n) ∧
      a'.layouts n = l ∧ a'.screen.view.stage.tree.par n = some q ∧ a'.screen.view.stage.tree.ctx q = some parent' ∧ SameStyled parent parent' ∧
      a'.screen.view.stage.tree.ctx n = some e2 ∧ SameStyled e1 e2 := by
  obtain ⟨fuel0, a1, outs, out, h1, h2, h3, h4⟩ := h.program
  have he := h.there
  have ht := h.element
  have hsi := h.inline
  have hl := living_run fs (Living.opened h1) h2
  obtain ⟨wf, hk, hpar, hbs⟩ := hl.bound h3
  obtain ⟨v', styled, tree, t', ui, g1, g2, g3, g4, g5⟩ := update_parts h4
  rw [h3] at g1; injection g1 with g1; subst g1
  have hst : Restyled v.stage.tree styled.tree := styleView_restyled (s := ⟨v.stage.tree, _⟩) wf g2
  have hpl : Restyled styled.tree tree := placeTree_restyled _ g3
  have hso := handleOutput_states (session_ok hl.session) h3 (hst.trans hpl) g4
  have hsame : Tree.Related SameStyled styled.tree t' := SameStyled.related_trans (placeTree_styled _ g3) (stateOnly_styled hso)
  have hctx : ∀ m, Styles v.stage.tree v.body m → (v.stage.tree.ctx m).isSome := by
    intro m hm
    cases hm with
    | body => exact hbs
    | child _ _ _ _ hc => exact (wf.slotsYounger _ _ (wf.sub _ _ hc)).2.2
  have hdecl : ∀ m e, Styles v.stage.tree v.body m → v.stage.tree.ctx m = some e →
      declarations (a1.env p fuel last.order last.input.time) v.stage.tree m e = css.declarationsFor v.stage.tree m :=
    fun m e hm he => declarations_for h1 h2 h3 h.supported h.undisturbed h.spaces hm he _ _ _
  have hcss : a1.css = css := by
    rw [(run_keeps fs h2).2]
    obtain ⟨σ, ho⟩ := openApp_opened h1
    exact ho.sheet
  have hgives : ∀ {m name l}, Styles v.stage.tree v.body m → (Given (a1.env p fuel last.order last.input.time) v.stage.tree v.body name l m ↔ css.Gives v.stage.tree v.body name l m) :=
    fun hm => given_gives wf hdecl hctx hm
  cases styledAt_all (linked_of_wf wf) g2 h.reached with
  | @text q parent e' b1 b2 b3 b4 b5 b6 =>
    have b3 : v.stage.tree.ctx n = some e' := b3
    rw [he] at b3; injection b3 with b3; subst b3; rw [ht] at b4; cases b4
  | @element q parent e' vars l e1 vars' b1 b2 b3 b4 b5 b6 b7 b8 b9 =>
    have b3 : v.stage.tree.ctx n = some e' := b3
    rw [he] at b3; injection b3 with b3; subst b3
    obtain ⟨rules, declared, animators, animated, transitions, final, st⟩ := styleElement_steps.1 b7
    obtain ⟨parent', c1, c2⟩ := hsame.there q parent b2
    obtain ⟨e2, c3, c4⟩ := hsame.there n e1 b8
    refine ⟨_, _, q, parent, parent', vars, _, l, e1, vars', rules, declared, animators, animated, transitions, final, e2, st, rfl, rfl, (by show a1.css.animations = _; rw [hcss]), rfl, ?_, ?_, ?_, ?_, ?_, ?_, c2, ?_, c4⟩
    · rintro y (hy | hy)
      · rw [show declarations _ _ n e = _ from hdecl n e h.reached he] at hy
        unfold Css.declarationsFor at hy
        rw [he] at hy
        rcases List.mem_append.1 hy with hy | hy
        · obtain ⟨b, hb, hyb⟩ := List.mem_flatten.1 hy
          obtain ⟨s, hs, rfl⟩ := List.mem_map.1 hb
          exact (h.supported s (List.mem_filter.1 hs).1).2 y hyb
        · exact hsi y hy
      · unfold keyframeDeclarations at hy
        obtain ⟨b, hb, hyb⟩ := List.mem_flatten.1 hy
        obtain ⟨x, hx, rfl⟩ := List.mem_map.1 hb
        have hkn : (a1.env p fuel last.order last.input.time).animations x.name = css.animations x.name := by show a1.css.animations x.name = _; rw [hcss]
        rw [hkn] at hyb
        cases hka : css.animations x.name with
        | none => rw [hka] at hyb; cases hyb
        | some an =>
          rw [hka] at hyb
          obtain ⟨b, hb, hyb⟩ := List.mem_flatten.1 hyb
          obtain ⟨k, hk', rfl⟩ := List.mem_map.1 hb
          exact (h.animations x hx an hka).2.2 k hk' y hyb
    · intro d w
      have hb := st.hBlocks
      rw [computeBlocks_flatten, st.declarations] at hb
      rw [computeBlock_get _ hb d w, show declarations _ _ n e = _ from hdecl n e h.reached he]
      have hvars : ∀ name l, vars name = some l ↔ n ≠ v.body ∧ ∃ q, v.stage.tree.par n = some q ∧ css.Gives v.stage.tree v.body name l q := by
        intro name l
        rw [b5 name l]
        have b1 : v.stage.tree.par n = some q := b1
        constructor
        · rintro ⟨k1, k2⟩
          exact ⟨k1, q, b1, (hgives (h.reached.parent wf k1 b1)).1 k2⟩
        · rintro ⟨k1, r, k2, k3⟩
          rw [b1] at k2; injection k2 with k2; subst k2
          exact ⟨k1, (hgives (h.reached.parent wf k1 b1)).2 k3⟩
      constructor
      · rintro ⟨i, k1, k2⟩
        exact ⟨vars, i, hvars, k1, k2⟩
      · rintro ⟨vars2, i, k0, k1, k2⟩
        have : vars2 = vars := by
          funext name
          apply Option.ext
          intro l
          rw [k0 name l, hvars name l]
        subst this
        exact ⟨i, k1, k2⟩
    · intro name l
      rw [b6 name l]
      exact hgives h.reached
    · rw [g5]; exact b9
    · rw [g5]; show t'.par n = _; rw [hsame.par, hst.par]; exact b1
    · rw [g5]; exact c1
    · rw [g5]; exact c3

end Verif
