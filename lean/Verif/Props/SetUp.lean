import Verif.View.SetUp
/-!
# C88: animations and transitions are set up as declared
-/
namespace Verif

variable {p : Platform}

/-- What an element is told is read back. -/
theorem Animated.told {document : Html} {css : Css} {fuel : Nat} {a : App} {fs : List Frame} {last : Frame} {v : View} {a' : App} {n : NodeId} {e : Element}
    (h : Animated p document css fuel a fs last v a' n e) {d : Descriptor} {val : ComputedValue} (ht : Tells p css fuel a fs last v n e d val) : ShowsAt v last a' n d val := by
  obtain ⟨hd, vars, hvars, hval⟩ := ht
  exact C81_look_partial h hvars hd hval

theorem Animated.animation {document : Html} {css : Css} {fuel : Nat} {a : App} {fs : List Frame} {last : Frame} {v : View} {a' : App} {n : NodeId} {e : Element}
    (h : Animated p document css fuel a fs last v a' n e) {key : PropertyKey} {i : Nat} {val : ComputedValue} (ht : Tells p css fuel a fs last v n e ⟨key, i⟩ val)
    {b : AnimatorAssign} (hb : ∀ sizes, (assignment sizes key val).1 = .animator b) (hs : b.slot = key) :
    ∃ x, a'.animator n i = some x ∧ b.read x = b := by
  obtain ⟨q, parent, e', h1, h2, h3, h4⟩ := h.told ht
  simp only [hb] at h4
  have := h4 (by simp only [Assign.slot, hs])
  simp only [Assign.read, Option.map_eq_some_iff] at this
  obtain ⟨x, hx, hr⟩ := this
  exact ⟨x, by simp [App.animator, h3, hx], Assign.animator.inj hr⟩

theorem Animated.transit {document : Html} {css : Css} {fuel : Nat} {a : App} {fs : List Frame} {last : Frame} {v : View} {a' : App} {n : NodeId} {e : Element}
    (h : Animated p document css fuel a fs last v a' n e) {key : PropertyKey} {i : Nat} {val : ComputedValue} (ht : Tells p css fuel a fs last v n e ⟨key, i⟩ val)
    {b : TransitionAssign} (hb : ∀ sizes, (assignment sizes key val).1 = .transition b) (hs : b.slot = key) :
    ∃ x, a'.transitionAt n i = some x ∧ b.read x = some b := by
  obtain ⟨q, parent, e', h1, h2, h3, h4⟩ := h.told ht
  simp only [hb] at h4
  have := h4 (by simp only [Assign.slot, hs])
  simp only [Assign.read, Option.bind_eq_some_iff, Option.map_eq_some_iff] at this
  obtain ⟨x, hx, b', hr, hb'⟩ := this
  exact ⟨x, by simp [App.transitionAt, h3, hx], by rw [hr, Assign.transition.inj hb']⟩

/-- **C88 (part).** Animation number `i` of a displayed element is after an update as the declarations for number `i` say: each word means
what CSS says, the name, the times and the number of iterations are those declared. Missing: a property that is itself in
transition, and what C77 leaves out. -/
theorem C88_animations_partial {document : Html} {css : Css} {fuel : Nat} {a : App} {fs : List Frame} {last : Frame} {v : View} {a' : App} {n : NodeId} {e : Element}
    (h : Animated p document css fuel a fs last v a' n e) (i : Nat) :
    (∀ key words, (key, words) ∈ animationWords → ∀ word holds, (word, holds) ∈ words → Tells p css fuel a fs last v n e ⟨key, i⟩ (.keyword word) →
      ∃ x, a'.animator n i = some x ∧ holds x) ∧
    (∀ name, Tells p css fuel a fs last v n e ⟨.AnimationName, i⟩ (.keyword name) → ∃ x, a'.animator n i = some x ∧ x.name = name) ∧
    (∀ time, Tells p css fuel a fs last v n e ⟨.AnimationDuration, i⟩ (.time time) → ∃ x, a'.animator n i = some x ∧ x.duration = time) ∧
    (∀ time, Tells p css fuel a fs last v n e ⟨.AnimationDelay, i⟩ (.time time) → ∃ x, a'.animator n i = some x ∧ x.delay = time) ∧
    (∀ k, Tells p css fuel a fs last v n e ⟨.AnimationIterationCount, i⟩ (.number k) → ∃ x, a'.animator n i = some x ∧ x.iterations = .number k) := by
  refine ⟨?_, fun name ht => ?_, fun time ht => ?_, fun time ht => ?_, fun k ht => ?_⟩
  · intro key words hk
    simp only [animationWords, List.mem_cons, Prod.mk.injEq, List.not_mem_nil, or_false] at hk
    rcases hk with ⟨rfl, rfl⟩ | ⟨rfl, rfl⟩ | ⟨rfl, rfl⟩ | ⟨rfl, rfl⟩ | ⟨rfl, rfl⟩
    all_goals
      intro word holds hm ht
      simp only [timingWords, List.map_cons, List.map_nil, List.mem_cons, Prod.mk.injEq, List.not_mem_nil] at hm
      repeat' (rcases hm with ⟨rfl, rfl⟩ | hm)
      all_goals try exact hm.elim
      all_goals
        obtain ⟨x, h1, h2⟩ := h.animation ht (fun sizes => rfl) rfl
        exact ⟨x, h1, by injection h2⟩
  all_goals
    obtain ⟨x, h1, h2⟩ := h.animation ht (fun sizes => rfl) rfl
    exact ⟨x, h1, by injection h2⟩

/-- **C88 (part).** So is its transition number `i`. -/
theorem C88_transitions_partial {document : Html} {css : Css} {fuel : Nat} {a : App} {fs : List Frame} {last : Frame} {v : View} {a' : App} {n : NodeId} {e : Element}
    (h : Animated p document css fuel a fs last v a' n e) (i : Nat) :
    (∀ word k, PropertyKey.parse word = some k → Tells p css fuel a fs last v n e ⟨.TransitionProperty, i⟩ (.keyword word) → ∃ x, a'.transitionAt n i = some x ∧ x.key = some k) ∧
    (∀ time, Tells p css fuel a fs last v n e ⟨.TransitionDuration, i⟩ (.time time) → ∃ x, a'.transitionAt n i = some x ∧ x.animator.duration = time) ∧
    (∀ time, Tells p css fuel a fs last v n e ⟨.TransitionDelay, i⟩ (.time time) → ∃ x, a'.transitionAt n i = some x ∧ x.animator.delay = time) ∧
    (∀ word f, (word, f) ∈ timingWords → Tells p css fuel a fs last v n e ⟨.TransitionTimingFunction, i⟩ (.keyword word) →
      ∃ x, a'.transitionAt n i = some x ∧ x.animator.timing = f) := by
  refine ⟨fun word k hk ht => ?_, fun time ht => ?_, fun time ht => ?_, fun word f hm ht => ?_⟩
  · have hb : ∀ sizes, (assignment sizes .TransitionProperty (.keyword word)).1 = .transition (.key k) := by
      intro sizes
      show (arm (fun v => (anyKeyword v).bind PropertyKey.parse) (fun v => .transition (.key v)) (.keyword word)).1 = _
      simp only [arm, anyKeyword, Option.bind_some, hk]
    obtain ⟨x, h1, h2⟩ := h.transit ht hb rfl
    simp only [TransitionAssign.read, Option.map_eq_some_iff] at h2
    obtain ⟨k', h2, h3⟩ := h2
    exact ⟨x, h1, by rw [h2]; exact congrArg some (TransitionAssign.key.inj h3)⟩
  · obtain ⟨x, h1, h2⟩ := h.transit ht (fun sizes => rfl) rfl
    exact ⟨x, h1, by injection (Option.some.inj h2)⟩
  · obtain ⟨x, h1, h2⟩ := h.transit ht (fun sizes => rfl) rfl
    exact ⟨x, h1, by injection (Option.some.inj h2)⟩
  · simp only [timingWords, List.mem_cons, Prod.mk.injEq, List.not_mem_nil] at hm
    repeat' (rcases hm with ⟨rfl, rfl⟩ | hm)
    all_goals try exact hm.elim
    all_goals
      obtain ⟨x, h1, h2⟩ := h.transit ht (fun sizes => rfl) rfl
      exact ⟨x, h1, by injection (Option.some.inj h2)⟩

/-- **C88 (part).** What the stylesheet and the inline style say is what the element is told, where neither a keyframe of its animations
nor a transition of it is about the property. -/
theorem C88_declared_partial {document : Html} {css : Css} {fuel : Nat} {a : App} {fs : List Frame} {last : Frame} {v : View} {a' : App} {n : NodeId} {e : Element}
    (h : Animated p document css fuel a fs last v a' n e) {d : Descriptor} {val : ComputedValue} (ht : ∀ t ∈ e.transitions, t.key ≠ some d.key) (hk : css.NoKeyframe e d.key) :
    Tells p css fuel a fs last v n e d val ↔ css.Says v.stage.tree v.body n d val := by
  have hx : ∀ vars, ∀ x ∈ e.animators, ∀ an, css.animations x.name = some an → 0 < x.duration ∧ x.Forward ∧ ¬ an.Moves vars d := by
    intro vars x hx an han
    refine ⟨(h.animations x hx an han).1, (h.animations x hx an han).2.1, ?_⟩
    rintro ⟨k, hk1, y, hy, w, hw⟩
    exact hk x hx an han k hk1 y hy ⟨vars, d.index, w, hw⟩
  constructor
  · rintro ⟨-, vars, -, hval⟩
    exact (animates_said _ (hx vars)).1 hval
  · intro hs
    obtain ⟨env, t, q, parent, parent', vars0, layout, l, e1, vars', -, -, -, -, -, -, -, -, -, -, -, -, -, -, hgives, -⟩ := h.steps
    exact ⟨ht, vars', hgives, (animates_said _ (hx vars')).2 hs⟩

/-- **C88 (part).** A parameter of an animation about which the element is told nothing in an update stays as it is; a new animation begins
with the initial one. -/
theorem C88_kept_partial {document : Html} {css : Css} {fuel : Nat} {a : App} {fs : List Frame} {last : Frame} {v : View} {a' : App} {n : NodeId} {e : Element}
    (h : Animated p document css fuel a fs last v a' n e) {key : PropertyKey} {same : Animator → Animator → Prop} (hk : (key, same) ∈ animationParameters) (i : Nat)
    (ht : ∀ t ∈ e.transitions, t.key ≠ some key) (hn : ∀ w, ¬ Tells p css fuel a fs last v n e ⟨key, i⟩ w) :
    same ((e.animators[i]?).getD Animator.initial) ((a'.animator n i).getD Animator.initial) := by
  obtain ⟨env, t, q, parent, parent', vars0, layout, l, e1, vars', rules, declared, animators, animated, transitions, final, e2, st, htime, hor, han, -, hsing, hsays, hgives, hlay, hq, hpe,
    hpp, he2, hee⟩ := h.steps
  have hfair : env.order.Fair := by rw [hor]; exact h.fair
  have hnone : final.get ⟨key, i⟩ = none := by
    cases hf : final.get ⟨key, i⟩ with
    | none => rfl
    | some w =>
      rw [playTransitions_other _ st.hTransitions ht] at hf
      refine absurd ⟨ht, vars', hgives, ?_⟩ (hn w)
      refine (playAnimators_animates hfair han e.animators (fun j x an hj hk => ?_) st.hAnimators hsays _ w).1 hf
      obtain ⟨h1, h2, -⟩ := h.animations x (List.mem_of_getElem? hj) an hk
      exact ⟨h1, h2, by rw [htime, Nat.zero_add]; exact h.clock hj hk⟩
  have hanim : e2.animators = e1.animators := by rw [hee]
  have hinit : (Animator.initial : Animator) = {} := rfl
  rw [hinit, App.animator, he2, Option.bind_some, hanim, st.hElement]
  refine parameter_trans hk (playAnimators_parameter hk st.hAnimators i) ?_
  refine applyAll_parameter hk _ _ i ?_ (layout, { parent.inherit e.reset with animators := animators, transitions := transitions })
  rintro ⟨d, w⟩ hx rfl
  have := ((st.final_once hfair).get_iff ⟨key, i⟩ w).2 ((hfair.style n final).mem_iff.1 hx)
  rw [hnone] at this
  cases this

end Verif
