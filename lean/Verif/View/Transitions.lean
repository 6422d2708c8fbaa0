import Verif.Spec.Transitions
import Verif.View.Smooth
import Verif.Props.Clock
/-!
# Transitions of a program (lemmas for C83)
-/
namespace Verif

variable {p : Platform}

/-! ## What applying the values leaves alone -/

theorem applyValue_moment (sizes : Sizes) (d : Descriptor) (v : ComputedValue) (s : LayoutStyle × Element) (j : Nat) :
    ((applyValue sizes d v s).2.transitions[j]?.getD {}).animator.time = (s.2.transitions[j]?.getD {}).animator.time ∧
      ((applyValue sizes d v s).2.transitions[j]?.getD {}).range = (s.2.transitions[j]?.getD {}).range ∧
      ((s.2.transitions[j]?).isSome → ((applyValue sizes d v s).2.transitions[j]?).isSome) := by
  have e : (applyValue sizes d v s).2.transitions = ((assignment sizes d.key v).1.write d.index s.1 s.2).2.transitions := rfl
  rw [e, write_transitions]
  generalize (assignment sizes d.key v).1 = w
  cases w with
  | transition x =>
    simp only [updateAt_getD]
    refine ⟨?_, ?_, ?_⟩
    · split
      · cases x <;> rfl
      · rfl
    · split
      · cases x <;> rfl
      · rfl
    · intro h
      rw [isSome_getElem?] at h ⊢
      unfold updateAt
      simp only [List.length_modify, List.length_append]
      omega
  | _ => exact ⟨rfl, rfl, id⟩

theorem applyAll_moment (sizes : Sizes) (l : ComputedStyle) (s : LayoutStyle × Element) (j : Nat) :
    ((applyAll sizes l s).2.transitions[j]?.getD {}).animator.time = (s.2.transitions[j]?.getD {}).animator.time ∧
      ((applyAll sizes l s).2.transitions[j]?.getD {}).range = (s.2.transitions[j]?.getD {}).range ∧
      ((s.2.transitions[j]?).isSome → ((applyAll sizes l s).2.transitions[j]?).isSome) := by
  induction l generalizing s with
  | nil => exact ⟨rfl, rfl, id⟩
  | cons x l ih =>
    obtain ⟨d, v⟩ := x
    obtain ⟨a1, a2, a3⟩ := ih (applyValue sizes d v s)
    obtain ⟨b1, b2, b3⟩ := applyValue_moment sizes d v s j
    exact ⟨a1.trans b1, a2.trans b2, a3 ∘ b3⟩

/-! ## Times never go below zero -/

theorem init_moment (t : Transition) (style : ComputedStyle) : (t.init style).animator = t.animator := by
  unfold Transition.init
  split
  · rfl
  · split <;> rfl

theorem loop_forward {key : PropertyKey} {p : Progress} (fuel index : Nat) {t t' : Transition} {a b : ComputedStyle}
    (h : Transition.loop key p fuel index t a = .ok (t', b)) (h0 : 0 ≤ t.animator.time) : 0 ≤ t'.animator.time := by
  induction fuel generalizing index t a with
  | zero => cases h
  | succ fuel ih =>
    simp only [Transition.loop] at h
    split at h
    · injection h with h; injection h with h _; subst h; exact h0
    · split at h
      · exact ih _ h h0
      · split at h
        · cases h
        · refine ih _ h ?_
          split
          · exact le_rfl
          · exact h0

theorem clockAfter_forward {x : Animator} {time : Rat} (h0 : 0 ≤ x.time) (ht : 0 ≤ time) : 0 ≤ clockAfter x time := by
  unfold clockAfter
  split
  · exact add_nonneg h0 ht
  · exact h0

theorem play_forward {fuel : Nat} {time : Rat} {t t' : Transition} {a b : ComputedStyle} (h : t.play fuel time a = .ok (t', b)) (h0 : 0 ≤ t.animator.time) (ht : 0 ≤ time) :
    0 ≤ t'.animator.time := by
  unfold Transition.play at h
  split at h
  · injection h with h; injection h with h _; subst h; exact h0
  · split at h
    · cases h
    · rename_i hu
      injection h with h; injection h with h _; subst h
      simp only
      rw [(update_cases hu).1]
      exact clockAfter_forward h0 ht
    · rename_i hu
      refine loop_forward _ _ h ?_
      simp only
      rw [(update_cases hu).1]
      exact clockAfter_forward h0 ht

theorem playTransitions_forward {fuel : Nat} {time : Rat} (l : List Transition) {l' : List Transition} {a b : ComputedStyle} (h : playTransitions fuel time l a = .ok (l', b))
    (h0 : ∀ t ∈ l, 0 ≤ t.animator.time) (ht : 0 ≤ time) : ∀ t ∈ l', 0 ≤ t.animator.time := by
  induction l generalizing a l' with
  | nil =>
    simp only [playTransitions, Except.ok.injEq, Prod.mk.injEq] at h
    rw [← h.1]; exact h0
  | cons t l ih =>
    simp only [playTransitions] at h
    split at h
    · cases h
    · rename_i t1 s1 h1
      split at h
      · cases h
      · rename_i l1 s2 h2
        simp only [Except.ok.injEq, Prod.mk.injEq] at h
        obtain ⟨rfl, rfl⟩ := h
        intro u hu
        rcases List.mem_cons.1 hu with rfl | hu
        · exact play_forward h1 (h0 t (by simp)) ht
        · exact ih h2 (fun x hx => h0 x (by simp [hx])) u hu

/-- No transition has a time below zero. -/
def Element.Forward (e : Element) : Prop := ∀ t ∈ e.transitions, 0 ≤ t.animator.time

theorem styleElement_forward {env : FrameEnv} {t : Tree} {n : NodeId} {parent e : Element} {sizes : Sizes} {vars vars' : Variables} {l l' : LayoutStyle}
    {e' : Element} (h : styleElement env t n parent sizes vars l e = .ok ((l', e'), vars')) (h0 : e.Forward) (ht : 0 ≤ env.time) : e'.Forward := by
  obtain ⟨rules, declared, animators, animated, transitions, final, st⟩ := styleElement_steps.1 h
  have hf := playTransitions_forward _ st.hTransitions h0 ht
  intro u hu
  rw [st.hElement] at hu
  simp only [List.mem_map] at hu
  obtain ⟨u0, hu0, rfl⟩ := hu
  rw [init_moment]
  obtain ⟨j, hj⟩ := List.mem_iff_getElem?.1 hu0
  have := (applyAll_moment sizes (env.order.style n final) (l, { parent.inherit e.reset with animators := animators, transitions := transitions }) j).1
  rw [hj] at this
  simp only [Option.getD_some] at this
  rw [this]
  cases hk : transitions[j]? with
  | none => exact le_rfl
  | some u1 => exact hf u1 (List.mem_of_getElem? hk)

/-- No transition of the program has a time below zero. -/
def App.Forward (a : App) : Prop := ∀ n e, a.screen.view.stage.tree.ctx n = some e → e.Forward

theorem Living.forward {fuel fuel' : Nat} {document : Html} {a a' : App} (h : Living p fuel document a) {order : FrameOrder} {input : Input} {value : Json} {out : Output}
    (hu : a.update p fuel' order input value = .ok (a', out)) (h0 : a.Forward) (ht : 0 ≤ input.time) : a'.Forward := by
  obtain ⟨v, styled, tree, t', ui, g1, g2, g3, g4, g5⟩ := update_parts hu
  have wf := (h.bound g1).1
  have hst : Restyled v.stage.tree styled.tree := styleView_restyled (s := ⟨v.stage.tree, _⟩) wf g2
  have hpl : Restyled styled.tree tree := placeTree_restyled _ g3
  have hso := handleOutput_states (session_ok h.session) g1 (hst.trans hpl) g4
  have hsty := SameStyled.related_trans (placeTree_styled _ g3) (stateOnly_styled hso)
  have hreb := h.rebound g1
  have hv : ∀ n e, v.stage.tree.ctx n = some e → e.Forward := by
    intro n e he
    obtain ⟨e0, h1, h2⟩ := hreb.back he
    have := h0 n e0 h1
    intro u hu
    rw [h2] at hu
    exact this u hu
  intro n e' he'
  rw [g5] at he'
  have he' : t'.ctx n = some e' := he'
  cases hx : styled.tree.ctx n with
  | none => rw [hsty.gone n hx] at he'; cases he'
  | some e =>
    obtain ⟨e1, h1, h2⟩ := hsty.there n e hx
    rw [h1] at he'; injection he' with he'; subst he'
    suffices e.Forward by
      intro u hu
      rw [h2] at hu
      exact this u hu
    by_cases hn : Styles v.stage.tree v.body n
    · cases styledAt_all (linked_of_wf wf) g2 hn with
      | @text q parent e0 a1 a2 a3 a4 a5 a6 =>
        have a5 : styled.tree.ctx n = some (parent.inherit e0) := a5
        rw [hx] at a5; injection a5 with a5; subst a5
        exact hv n e0 a3
      | @element q parent e0 vars l e' vars' a1 a2 a3 a4 a5 a6 a7 a8 a9 =>
        have a8 : styled.tree.ctx n = some e' := a8
        rw [hx] at a8; injection a8 with a8; subst a8
        exact styleElement_forward a7 (hv n e0 a3) ht
    · have hbes := styleTree_besides (t := v.stage.tree) (body := v.body) (s0 := ⟨v.stage.tree, upd a.layouts v.root (resizeRoot input.viewport (a.layouts v.root))⟩) _ .body g2
        ⟨Tree.Related.refl (fun e => ⟨⟨rfl, rfl, rfl, rfl, rfl, rfl, rfl, rfl, rfl⟩, rfl⟩) _, fun m _ => ⟨rfl, rfl⟩⟩
      have := (hbes.2 n hn).1
      exact hv n e (by rw [← hx]; exact this.symm)

theorem opened_forward {fuel : Nat} {document : Html} {css : Css} {a : App} (h : openApp p fuel document css = .ok a) : a.Forward := by
  obtain ⟨σ, ho⟩ := openApp_opened h
  have hv := renderView_ok ho.rendered
  have hm := renderView_modest (P := fun _ e => e.transitions = []) ⟨fun _ _ => rfl, fun _ _ => rfl, fun _ _ => rfl, fun _ _ _ h => h, fun _ _ _ h => h, fun _ _ _ h => h,
    fun _ _ _ h => h, fun _ _ _ h => h, fun _ _ _ h => h⟩ ho.rendered
  have hreb := updateTrees_rebound (inline := p.inline) _ (s := ⟨σ.tree, σ.staticId⟩) hv.wf (defaultReactions_ok ho.rendered) ho.stage
  intro n e he
  obtain ⟨e0, h1, h2⟩ := hreb.back he
  have := hm n e0 h1
  intro u hu
  rw [show e.transitions = e0.transitions by rw [h2], this] at hu
  cases hu

theorem forward_run {fuel fuel' : Nat} {document : Html} (fs : List Frame) {a a' : App} {outs : List Output} (h : Living p fuel document a)
    (hr : a.run p fuel' fs = .ok (a', outs)) (h0 : a.Forward) (ht : ∀ f ∈ fs, 0 ≤ f.input.time) : a'.Forward := by
  induction fs generalizing a outs with
  | nil =>
    simp only [App.run, Except.ok.injEq, Prod.mk.injEq] at hr
    obtain ⟨rfl, -⟩ := hr
    exact h0
  | cons f fs ih =>
    obtain ⟨a1, out, rest, h1, h2, -⟩ := run_cons hr
    exact ih (h.updated h1) h2 (h.forward h1 h0 (ht f (by simp))) fun x hx => ht x (by simp [hx])

/-! ## One update -/

/-- The transition for a property when no other one is for it. -/
theorem playTransitions_at {fuel : Nat} {time : Rat} {key : PropertyKey} (l : List Transition) {l' : List Transition} {a b : ComputedStyle}
    (h : playTransitions fuel time l a = .ok (l', b)) {i : Nat} {t : Transition} (hi : l[i]? = some t) (ho : ∀ (j : Nat) u, l[j]? = some u → j ≠ i → u.key ≠ some key) :
    ∃ s t' s', t.play fuel time s = .ok (t', s') ∧ (∀ d, d.key = key → s.get d = a.get d) ∧ (∀ d, d.key = key → b.get d = s'.get d) ∧ l'[i]? = some t' := by
  induction l generalizing a l' i with
  | nil => simp at hi
  | cons u l ih =>
    simp only [playTransitions] at h
    split at h
    · cases h
    · rename_i t1 s1 h1
      split at h
      · cases h
      · rename_i l1 s2 h2
        simp only [Except.ok.injEq, Prod.mk.injEq] at h
        obtain ⟨rfl, rfl⟩ := h
        cases i with
        | zero =>
          simp only [List.getElem?_cons_zero, Option.some.injEq] at hi
          subst hi
          refine ⟨a, t1, s1, h1, fun _ _ => rfl, fun d hd => ?_, rfl⟩
          refine playTransitions_other _ h2 fun x hx => ?_
          obtain ⟨j, hj⟩ := List.mem_iff_getElem?.1 hx
          rw [hd]
          exact ho (j + 1) x (by simpa using hj) (by omega)
        | succ i =>
          obtain ⟨s, t', s', k1, k2, k3, k4⟩ := ih h2 (by simpa using hi) fun j x hj hne => ho (j + 1) x (by simpa using hj) (by omega)
          refine ⟨s, t', s', k1, fun d hd => ?_, k3, by simpa using k4⟩
          rw [k2 d hd]
          exact play_other h1 (by rw [hd]; exact ho 0 u rfl (by omega))

theorem loop_lost {key : PropertyKey} {p : Progress} (fuel : Nat) {t : Transition} {s : ComputedStyle} {v : ComputedValue} (hr : t.range = none) (hv : s.get ⟨key, 0⟩ = some v) :
    Transition.loop key p fuel 0 t s = .error .endless := by
  induction fuel with
  | zero => rfl
  | succ fuel ih => simp only [Transition.loop, hv, hr, ih]

/-- A transition that comes through has a range, and the loop two rounds. -/
theorem play_through {t : Transition} {key : PropertyKey} (h : t.Plain key) {fuel : Nat} {time : Rat} (ht : 0 ≤ t.animator.time + time) {v : ComputedValue} {s s' : ComputedStyle}
    {t' : Transition} (hs : s.get ⟨key, 0⟩ = some v) (hp : t.play fuel time s = .ok (t', s')) : t.range.isSome ∧ 2 ≤ fuel := by
  unfold Transition.play at hp
  rw [h.1] at hp
  simp only at hp
  have hc : clockAfter t.animator time = t.animator.time + time := if_pos ⟨h.2.1, h.2.2.2.2⟩
  split at hp
  · cases hp
  · rename_i x hu
    obtain ⟨h1, h2 | ⟨-, r, -, h2⟩⟩ := update_cases hu
    · rw [h1, h.2.2.1] at h2
      simp only [sub_zero, hc] at h2
      exact absurd ht (not_le.2 h2.1)
    · cases h2
  · rename_i x pr hu
    cases hr : t.range with
    | none => rw [loop_lost (s := s) (v := v) fuel (by exact hr) hs] at hp; cases hp
    | some r =>
      refine ⟨rfl, ?_⟩
      match fuel with
      | 0 => cases hp
      | 1 =>
        simp only [Transition.loop, hs, hr] at hp
        split at hp <;> cases hp
      | fuel + 2 => omega

/-- Transition number `i` of the element `n`, as the program has it between updates. -/
def App.transition (a : App) (n : NodeId) (i : Nat) : Option Transition :=
  (a.screen.view.stage.tree.ctx n).bind fun e => e.transitions[i]?

/-- One update in which the transition is at work. -/
theorem Animated.turns {document : Html} {css : Css} {fuel : Nat} {a : App} {fs : List Frame} {last : Frame} {v : View} {a' : App} {n : NodeId} {e : Element}
    (h : Animated p document css fuel a fs last v a' n e) {i : Nat} {t : Transition} (hi : e.transitions[i]? = some t) {key : PropertyKey} (hp : t.Plain key)
    (ho : ∀ (j : Nat) u, e.transitions[j]? = some u → j ≠ i → u.key ≠ some key) {vars : Variables} (hvars : ∀ name l, vars name = some l ↔ css.Gives v.stage.tree v.body name l n)
    {told : ComputedValue}
    (hval : css.Animates vars (fun j => a.playing p fuel n j (fs ++ [last])) 0 e.animators (css.Says v.stage.tree v.body n) ⟨key, 0⟩ told)
    (hone : ∀ w, ¬ css.Animates vars (fun j => a.playing p fuel n j (fs ++ [last])) 0 e.animators (css.Says v.stage.tree v.body n) ⟨key, 1⟩ w)
    (ht : 0 ≤ t.animator.time + last.input.time) :
    ∃ x y t', t.range = some (x, y) ∧ a'.transition n i = some t' ∧
      ShowsAt v last a' n ⟨key, 0⟩ (animate x y (min (t.animator.time + last.input.time) t.animator.duration / t.animator.duration)) ∧
      (y ≠ told → t'.range = some (animate x y (min (t.animator.time + last.input.time) t.animator.duration / t.animator.duration), told) ∧ t'.animator.time = 0) ∧
      (y = told → t'.range = some (x, y) ∧ t'.animator.time = t.animator.time + last.input.time) := by
  obtain ⟨env, tr, q, parent, parent', vars0, layout, l, e1, vars', rules, declared, animators, animated, transitions, final, e2, st, htime, hor, han, hfu, hsing, hsays, hgives, hlay, hq, hpe,
    hpp, he2, hee⟩ := h.steps
  have hfair : env.order.Fair := by rw [hor]; exact h.fair
  have : vars = vars' := by
    funext name
    apply Option.ext
    intro l
    rw [hvars name l, hgives name l]
  subst this
  have hanim := playAnimators_animates (T := fun j => a.playing p fuel n j (fs ++ [last])) hfair han e.animators (fun j x an hj hk => by
    obtain ⟨h1, h2, -⟩ := h.animations x (List.mem_of_getElem? hj) an hk
    exact ⟨h1, h2, by rw [htime, Nat.zero_add]; exact h.clock hj hk⟩) st.hAnimators hsays
  obtain ⟨s, t1, s', k1, k2, k3, k4⟩ := playTransitions_at _ st.hTransitions hi ho
  rw [htime] at k1
  have hs : Single s key told := by
    refine ⟨by rw [k2 _ rfl]; exact (hanim _ _).2 hval, ?_⟩
    rw [k2 _ rfl]
    cases hg : animated.get ⟨key, 1⟩ with
    | none => rfl
    | some w => exact absurd ((hanim _ _).1 hg) (hone w)
  obtain ⟨hsome, hfuel⟩ := play_through hp ht hs.1 k1
  obtain ⟨⟨x, y⟩, hr⟩ := Option.isSome_iff_exists.1 hsome
  obtain ⟨shown, p1, p2, -⟩ := plain_play hp hfuel ht hr hs
  rw [p1] at k1
  simp only [Except.ok.injEq, Prod.mk.injEq] at k1
  obtain ⟨k1, rfl⟩ := k1
  have hf : final.get ⟨key, 0⟩ = some (animate x y (min (t.animator.time + last.input.time) t.animator.duration / t.animator.duration)) := by
    rw [k3 _ rfl, p2]
  have hmom := applyAll_moment (sizesAt v.body last.input.viewport n parent) (env.order.style n final) (layout, { parent.inherit e.reset with animators := animators, transitions := transitions }) i
  simp only [k4, Option.getD_some, Option.isSome_some, forall_const] at hmom
  obtain ⟨m1, m2, m3⟩ := hmom
  obtain ⟨t2, ht2⟩ := Option.isSome_iff_exists.1 m3
  rw [ht2] at m1 m2
  simp only [Option.getD_some] at m1 m2
  have ht1 : t1.range.isSome := by
    rw [← k1]
    split
    · rfl
    · exact hsome
  have hat : a'.transition n i = some t2 := by
    unfold App.transition
    rw [he2, Option.bind_some, show e2.transitions = e1.transitions by rw [hee], st.hElement]
    simp only [List.getElem?_map, ht2, Option.map_some]
    rw [init_ranged _ (by rw [m2]; exact ht1)]
  refine ⟨x, y, t2, hr, hat, ?_, ?_, ?_⟩
  · refine ⟨q, parent', e2, hq, hpe, he2, fun ha => ?_⟩
    rw [sizesAt_styled hpp] at ha ⊢
    rw [hee.read, hlay]
    exact st.shows hfair hsing hf ha
  · intro hne
    rw [if_pos hne] at k1
    rw [m1, m2, ← k1]
    exact ⟨rfl, rfl⟩
  · intro he
    rw [if_neg (not_not.2 he)] at k1
    rw [m1, m2, ← k1]
    exact ⟨hr, rfl⟩

end Verif
