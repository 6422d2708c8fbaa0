import Verif.View.Moving
/-!
# Styling with smooth animations and transitions (lemmas for C74, C75)
-/
namespace Verif
theorem updateAt_getD {α} (l : List α) (i : Nat) (d : α) (f : α → α) (j : Nat) :
    (updateAt l i d f)[j]?.getD d = if j = i then f (l[j]?.getD d) else l[j]?.getD d := by
  rw [updateAt_getElem?]
  by_cases h : j = i
  · subst h; simp
  · rw [if_neg h, if_neg h]
    split
    · rfl
    · rename_i hl
      rw [List.getElem?_eq_none (by omega : l.length ≤ j)]
      split <;> rfl

theorem assignment_name (sizes : Sizes) (v : ComputedValue) :
    (assignment sizes .AnimationName v) = arm anyKeyword (fun v => .animator (.name v)) v := rfl
theorem assignment_duration (sizes : Sizes) (v : ComputedValue) :
    (assignment sizes .AnimationDuration v) = arm timeOnly (fun v => .animator (.duration v)) v := rfl
set_option maxRecDepth 4096 in
theorem assignment_property (sizes : Sizes) (v : ComputedValue) :
    (assignment sizes .TransitionProperty v) = arm (fun v => (anyKeyword v).bind PropertyKey.parse) (fun v => .transition (.key v)) v := rfl
set_option maxRecDepth 4096 in
theorem assignment_tduration (sizes : Sizes) (v : ComputedValue) :
    (assignment sizes .TransitionDuration v) = arm timeOnly (fun v => .transition (.duration v)) v := rfl

theorem write_animators (a : Assign) (i : Nat) (l : LayoutStyle) (e : Element) :
    (a.write i l e).2.animators = match a with | .animator a => updateAt e.animators i {} fun t => a.write t | _ => e.animators := by
  cases a with
  | element a => cases a <;> rfl
  | _ => rfl

theorem write_transitions (a : Assign) (i : Nat) (l : LayoutStyle) (e : Element) :
    (a.write i l e).2.transitions = match a with | .transition a => updateAt e.transitions i {} fun t => a.write t | _ => e.transitions := by
  cases a with
  | element a => cases a <;> rfl
  | _ => rfl

theorem applyValue_animator (sizes : Sizes) (d : Descriptor) (v : ComputedValue) (s : LayoutStyle × Element) (j : Nat) :
    let a := s.2.animators[j]?.getD {}
    let a' := (applyValue sizes d v s).2.animators[j]?.getD {}
    (a'.name = a.name ∨ d = ⟨.AnimationName, j⟩ ∧ v = .keyword a'.name) ∧
      (a'.duration = a.duration ∧ (∀ x, ¬ (d = ⟨.AnimationDuration, j⟩ ∧ v = .time x)) ∨ d = ⟨.AnimationDuration, j⟩ ∧ v = .time a'.duration) := by
  intro a a'
  obtain ⟨key, i⟩ := d
  have ha : a' = ((assignment sizes key v).1.write i s.1 s.2).2.animators[j]?.getD {} := rfl
  rw [write_animators] at ha
  by_cases h1 : key = .AnimationName
  · subst h1
    refine ⟨?_, ?_⟩
    all_goals
      rw [assignment_name] at ha
      cases v with
      | keyword k =>
        simp only [arm, anyKeyword, updateAt_getD] at ha
        by_cases hj : j = i
        · subst hj; simp [ha, AnimatorAssign.write, a]
        · simp [ha, if_neg hj, a]
      | _ => simp [ha, arm, anyKeyword, a]
  by_cases h2 : key = .AnimationDuration
  · subst h2
    refine ⟨?_, ?_⟩
    all_goals
      rw [assignment_duration] at ha
      cases v with
      | time k =>
        simp only [arm, timeOnly, updateAt_getD] at ha
        by_cases hj : j = i
        · subst hj; simp [ha, AnimatorAssign.write, a]
        · have : i ≠ j := fun h => hj h.symm
          simp [ha, if_neg hj, a, this]
      | _ => simp [ha, arm, timeOnly, a]
  have hs := assignment_slot sizes key v
  have hkeep : a'.name = a.name ∧ a'.duration = a.duration := by
    rw [ha]
    generalize hw : (assignment sizes key v).1 = w at hs ⊢
    cases w with
    | animator x =>
      simp only [updateAt_getD]
      by_cases hj : j = i
      · subst hj
        cases x <;> simp only [Assign.slot, AnimatorAssign.slot, Option.some.injEq, reduceCtorEq, or_false] at hs <;>
          first | exact absurd hs.symm h1 | exact absurd hs.symm h2 | (simp [AnimatorAssign.write, a])
      · simp [if_neg hj, a]
    | _ => exact ⟨rfl, rfl⟩
  refine ⟨.inl hkeep.1, .inl ⟨hkeep.2, ?_⟩⟩
  rintro x ⟨hd, -⟩
  injection hd with hd
  exact h2 hd

theorem applyAll_animator (sizes : Sizes) (l : ComputedStyle) (s : LayoutStyle × Element) (j : Nat) :
    let a := s.2.animators[j]?.getD {}
    let a' := (applyAll sizes l s).2.animators[j]?.getD {}
    (a'.name = a.name ∨ (⟨.AnimationName, j⟩, .keyword a'.name) ∈ l) ∧
      (a'.duration = a.duration ∧ (∀ x, (⟨.AnimationDuration, j⟩, .time x) ∉ l) ∨ (⟨.AnimationDuration, j⟩, .time a'.duration) ∈ l) := by
  induction l generalizing s with
  | nil => exact ⟨.inl rfl, .inl ⟨rfl, by simp⟩⟩
  | cons x l ih =>
    obtain ⟨d, v⟩ := x
    obtain ⟨h1, h2⟩ := applyValue_animator sizes d v s j
    obtain ⟨h3, h4⟩ := ih (applyValue sizes d v s)
    refine ⟨?_, ?_⟩
    · rcases h3 with h3 | h3
      · rcases h1 with h1 | ⟨h1, h1'⟩
        · exact .inl (h3.trans h1)
        · refine .inr (List.mem_cons.2 (.inl ?_))
          rw [Prod.mk.injEq]; exact ⟨h1.symm, (congrArg ComputedValue.keyword h3).trans h1'.symm⟩
      · exact .inr (List.mem_cons_of_mem _ h3)
    · rcases h4 with ⟨h4, h4'⟩ | h4
      · rcases h2 with ⟨h2, h2'⟩ | ⟨h2, h2'⟩
        · refine .inl ⟨h4.trans h2, fun x hx => ?_⟩
          rcases List.mem_cons.1 hx with hx | hx
          · injection hx with e1 e2
            exact h2' x ⟨e1.symm, e2.symm⟩
          · exact h4' x hx
        · refine .inr (List.mem_cons.2 (.inl ?_))
          rw [Prod.mk.injEq]; exact ⟨h2.symm, (congrArg ComputedValue.time h4).trans h2'.symm⟩
      · exact .inr (List.mem_cons_of_mem _ h4)

theorem applyValue_transition (sizes : Sizes) (d : Descriptor) (v : ComputedValue) (s : LayoutStyle × Element) (j : Nat) :
    let t := s.2.transitions[j]?.getD {}
    let t' := (applyValue sizes d v s).2.transitions[j]?.getD {}
    (t'.key = t.key ∨ d = ⟨.TransitionProperty, j⟩ ∧ ∃ name key, v = .keyword name ∧ PropertyKey.parse name = some key ∧ t'.key = some key) ∧
      (t'.animator.duration = t.animator.duration ∧ (∀ x, ¬ (d = ⟨.TransitionDuration, j⟩ ∧ v = .time x)) ∨
        d = ⟨.TransitionDuration, j⟩ ∧ v = .time t'.animator.duration) ∧ t'.range = t.range := by
  intro a a'
  obtain ⟨key, i⟩ := d
  have ha : a' = ((assignment sizes key v).1.write i s.1 s.2).2.transitions[j]?.getD {} := rfl
  rw [write_transitions] at ha
  by_cases h1 : key = .TransitionProperty
  · subst h1
    rw [assignment_property] at ha
    have hno : ∀ x, ¬ ((⟨.TransitionProperty, i⟩ : Descriptor) = ⟨.TransitionDuration, j⟩ ∧ v = .time x) := by simp
    unfold arm at ha
    cases hk : (anyKeyword v).bind PropertyKey.parse with
    | some k =>
      simp only [hk, updateAt_getD] at ha
      by_cases hj : j = i
      · subst hj
        rw [if_pos rfl] at ha
        refine ⟨.inr ⟨rfl, ?_⟩, .inl ⟨by rw [ha]; rfl, hno⟩, by rw [ha]; rfl⟩
        cases v with
        | keyword name => exact ⟨name, k, rfl, hk, by rw [ha]; rfl⟩
        | _ => simp [anyKeyword] at hk
      · rw [if_neg hj] at ha
        exact ⟨.inl (by rw [ha]), .inl ⟨by rw [ha], hno⟩, by rw [ha]⟩
    | none =>
      simp only [hk] at ha
      exact ⟨.inl (by rw [ha]), .inl ⟨by rw [ha], hno⟩, by rw [ha]⟩
  by_cases h2 : key = .TransitionDuration
  · subst h2
    rw [assignment_tduration] at ha
    refine ⟨?_, ?_, ?_⟩
    all_goals
      cases v with
      | time k =>
        simp only [arm, timeOnly, updateAt_getD] at ha
        by_cases hj : j = i
        · subst hj; simp [ha, TransitionAssign.write, a]
        · have : i ≠ j := fun h => hj h.symm
          simp [ha, if_neg hj, a, this]
      | _ => simp [ha, arm, timeOnly, a]
  have hs := assignment_slot sizes key v
  have hkeep : a'.key = a.key ∧ a'.animator.duration = a.animator.duration ∧ a'.range = a.range := by
    rw [ha]
    generalize hw : (assignment sizes key v).1 = w at hs ⊢
    cases w with
    | transition x =>
      simp only [updateAt_getD]
      by_cases hj : j = i
      · subst hj
        cases x <;> simp only [Assign.slot, TransitionAssign.slot, Option.some.injEq, reduceCtorEq, or_false] at hs <;>
          first | exact absurd hs.symm h1 | exact absurd hs.symm h2 | (simp [TransitionAssign.write, a])
      · simp [if_neg hj, a]
    | _ => exact ⟨rfl, rfl, rfl⟩
  refine ⟨.inl hkeep.1, .inl ⟨hkeep.2.1, ?_⟩, hkeep.2.2⟩
  rintro x ⟨hd, -⟩
  injection hd with hd
  exact h2 hd

theorem applyAll_transition (sizes : Sizes) (l : ComputedStyle) (s : LayoutStyle × Element) (j : Nat) :
    let t := s.2.transitions[j]?.getD {}
    let t' := (applyAll sizes l s).2.transitions[j]?.getD {}
    (t'.key = t.key ∨ ∃ name key, (⟨.TransitionProperty, j⟩, .keyword name) ∈ l ∧ PropertyKey.parse name = some key ∧ t'.key = some key) ∧
      (t'.animator.duration = t.animator.duration ∧ (∀ x, (⟨.TransitionDuration, j⟩, .time x) ∉ l) ∨
        (⟨.TransitionDuration, j⟩, .time t'.animator.duration) ∈ l) ∧ t'.range = t.range := by
  induction l generalizing s with
  | nil => exact ⟨.inl rfl, .inl ⟨rfl, by simp⟩, rfl⟩
  | cons x l ih =>
    obtain ⟨d, v⟩ := x
    obtain ⟨h1, h2, h5⟩ := applyValue_transition sizes d v s j
    obtain ⟨h3, h4, h6⟩ := ih (applyValue sizes d v s)
    refine ⟨?_, ?_, h6.trans h5⟩
    · rcases h3 with h3 | ⟨name, key, h3, h3', h3''⟩
      · rcases h1 with h1 | ⟨h1, name, key, h1', h1'', h1'''⟩
        · exact .inl (h3.trans h1)
        · exact .inr ⟨name, key, List.mem_cons.2 (.inl (by rw [h1, h1'])), h1'', h3.trans h1'''⟩
      · exact .inr ⟨name, key, List.mem_cons_of_mem _ h3, h3', h3''⟩
    · rcases h4 with ⟨h4, h4'⟩ | h4
      · rcases h2 with ⟨h2, h2'⟩ | ⟨h2, h2'⟩
        · refine .inl ⟨h4.trans h2, fun x hx => ?_⟩
          rcases List.mem_cons.1 hx with hx | hx
          · injection hx with e1 e2
            exact h2' x ⟨e1.symm, e2.symm⟩
          · exact h4' x hx
        · refine .inr (List.mem_cons.2 (.inl ?_))
          rw [Prod.mk.injEq]; exact ⟨h2.symm, (congrArg ComputedValue.time h4).trans h2'.symm⟩
      · exact .inr (List.mem_cons_of_mem _ h4)

/-! ### Playing keeps what the motion properties are set to -/

/-- What playing an animation or a transition does not change: nothing goes, and the values of some properties stay. -/
structure SameOn (M : PropertyKey → Prop) (a b : ComputedStyle) : Prop where
  motion : ∀ d : Descriptor, M d.key → b.get d = a.get d
  present : ∀ d v, a.get d = some v → ∃ w, b.get d = some w
  once : a.Once → b.Once

theorem SameOn.refl {M : PropertyKey → Prop} (a : ComputedStyle) : SameOn M a a := ⟨fun _ _ => rfl, fun _ v h => ⟨v, h⟩, id⟩

theorem SameOn.trans {M : PropertyKey → Prop} {a b c : ComputedStyle} (h : SameOn M a b) (g : SameOn M b c) : SameOn M a c := by
  refine ⟨fun d hd => (g.motion d hd).trans (h.motion d hd), fun d v hv => ?_, fun ha => g.once (h.once ha)⟩
  obtain ⟨w, hw⟩ := h.present d v hv
  exact g.present d w hw

theorem SameOn.insert {M : PropertyKey → Prop} (a : ComputedStyle) {d : Descriptor} (hd : ¬ M d.key) (v : ComputedValue) : SameOn M a (a.insert d v) := by
  refine ⟨fun x hx => ?_, fun x w hw => ?_, fun h => h.insert d v⟩
  · rw [ComputedStyle.get_insert, if_neg (by rintro rfl; exact hd hx)]
  · rw [ComputedStyle.get_insert]
    by_cases he : x = d
    · exact ⟨v, if_pos he⟩
    · rw [if_neg he]; exact ⟨w, hw⟩

theorem ReadyStyle.keep {used : PropertyKey → Prop} {a b : ComputedStyle} (h : ReadyStyle used a) (k : SameOn (· ∈ motionProperties) a b) : ReadyStyle used b := by
  have m1 : PropertyKey.AnimationDuration ∈ motionProperties := by decide
  have m2 : PropertyKey.AnimationName ∈ motionProperties := by decide
  have m3 : PropertyKey.TransitionDuration ∈ motionProperties := by decide
  have m4 : PropertyKey.TransitionProperty ∈ motionProperties := by decide
  refine ⟨fun i v hv => ?_, fun i v hv => ?_, fun i v hv => ?_, fun i v hv => ?_, fun i name key hv hp => ?_⟩
  · rw [k.motion _ m1] at hv; exact h.animationTimes i v hv
  · rw [k.motion _ m2] at hv; rw [k.motion _ m1]; exact h.animations i v hv
  · rw [k.motion _ m3] at hv; exact h.transitionTimes i v hv
  · rw [k.motion _ m4] at hv; rw [k.motion _ m3]; exact h.transitions i v hv
  · rw [k.motion _ m4] at hv
    obtain ⟨h1, h2⟩ := h.begins i name key hv hp
    exact ⟨h1, h2.imp id fun ⟨w, hw⟩ => k.present _ w hw⟩

theorem playTracks_same {M : PropertyKey → Prop} (t : Nat) (l : List Track) {a b : ComputedStyle} (hl : ∀ x ∈ l, ¬ M x.descriptor.key)
    (h : playTracks t l a = .ok b) : SameOn M a b := by
  induction l generalizing a with
  | nil => injection h with h; subst h; exact .refl a
  | cons x l ih =>
    simp only [playTracks] at h
    split at h
    · cases h
    · exact (SameOn.insert a (hl x (by simp)) _).trans (ih (fun y hy => hl y (by simp [hy])) h)

theorem animatorUpdate_same {fuel : Nat} {a a' : Animator} {time : Rat} {p : Option Progress} (h : a.update fuel time = .ok (a', p)) :
    a'.name = a.name ∧ a'.duration = a.duration := by
  unfold Animator.update at h
  have key : ∀ x : Animator, x = (if a.running = true ∧ a.duration > 0 then { a with time := a.time + time } else a) → x.name = a.name ∧ x.duration = a.duration := by
    rintro x rfl
    split <;> exact ⟨rfl, rfl⟩
  generalize hx : (if a.running = true ∧ a.duration > 0 then { a with time := a.time + time } else a) = x at h
  replace key := key x hx.symm
  simp only at h
  split at h
  · injection h with h; injection h with h _; subst h; exact key
  · split at h
    · cases h
    · injection h with h; injection h with h _; subst h; exact key

theorem playAnimators_same {M : PropertyKey → Prop} {env : FrameEnv} (hf : env.order.Fair) {n : NodeId} {vars : Variables}
    (hk : ∀ name an, env.animations name = some an → ∀ k ∈ an.keyframes, ∀ x ∈ k.declaration, ∀ vars d v, x.Sets vars d v → ¬ M d.key) {P : Animator → Prop}
    (hP : ∀ a a', a'.name = a.name → a'.duration = a.duration → P a → P a') (l : List Animator) (i : Nat) {a b : ComputedStyle} {l' : List Animator}
    (h : playAnimators env n vars i l a = .ok (l', b)) : SameOn M a b ∧ ((∀ x ∈ l, P x) → ∀ x ∈ l', P x) := by
  induction l generalizing i a l' with
  | nil => injection h with h; injection h with h1 h; subst h; subst h1; exact ⟨.refl a, id⟩
  | cons x l ih =>
    simp only [playAnimators] at h
    split at h
    · split at h
      · cases h
      · rename_i rest s hrest
        injection h with h; injection h with h1 h; subst h; subst h1
        obtain ⟨g1, g2⟩ := ih (i + 1) hrest
        refine ⟨g1, fun hx y hy => ?_⟩
        rcases List.mem_cons.1 hy with rfl | hy
        · exact hx _ (by simp)
        · exact g2 (fun z hz => hx z (by simp [hz])) y hy
    · rename_i an han
      split at h
      · cases h
      · rename_i tracks htr
        split at h
        · cases h
        · rename_i x' s hpl
          split at h
          · cases h
          · rename_i rest s' hrest
            injection h with h; injection h with h1 h; subst h; subst h1
            obtain ⟨g1, g2⟩ := ih (i + 1) hrest
            have hx : SameOn M a s ∧ x'.name = x.name ∧ x'.duration = x.duration := by
              unfold Animator.play at hpl
              split at hpl
              · cases hpl
              · rename_i hu
                injection hpl with hpl; injection hpl with h2 hpl; subst hpl; subst h2
                exact ⟨.refl a, animatorUpdate_same hu⟩
              · rename_i hu
                split at hpl
                · cases hpl
                · rename_i hplay
                  injection hpl with hpl; injection hpl with h2 hpl; subst hpl; subst h2
                  refine ⟨playTracks_same _ _ (fun t ht => ?_) hplay, animatorUpdate_same hu⟩
                  exact computeTracks_domain (P := fun d => ¬ M d.key) htr (fun k hk' y hy vars d v hs => hk _ an han k hk' y hy vars d v hs) t
                    ((hf.tracks n i tracks).mem_iff.1 ht)
            refine ⟨hx.1.trans g1, fun hl y hy => ?_⟩
            rcases List.mem_cons.1 hy with rfl | hy
            · exact hP x _ hx.2.1 hx.2.2 (hl x (by simp))
            · exact g2 (fun z hz => hl z (by simp [hz])) y hy

theorem loop_same {M : PropertyKey → Prop} {key : PropertyKey} (hkey : ¬ M key) {p : Progress} (fuel index : Nat) {t t' : Transition} {a b : ComputedStyle}
    (h : Transition.loop key p fuel index t a = .ok (t', b)) :
    SameOn M a b ∧ t'.key = t.key ∧ t'.animator.duration = t.animator.duration ∧ (t.range.isSome → t'.range.isSome) := by
  induction fuel generalizing index t a with
  | zero => cases h
  | succ fuel ih =>
    simp only [Transition.loop] at h
    split at h
    · injection h with h; injection h with h1 h; subst h; subst h1; exact ⟨.refl a, rfl, rfl, id⟩
    · rename_i value hval
      split at h
      · exact ih index h
      · rename_i r hr
        split at h
        · cases h
        · rename_i current _
          obtain ⟨g1, g2, g3, g4⟩ := ih _ h
          refine ⟨SameOn.trans ?_ g1, g2.trans ?_, g3.trans ?_, fun hs => g4 ?_⟩
          · split
            · exact SameOn.insert a (d := ⟨key, index⟩) hkey _
            · exact .refl a
          · split <;> rfl
          · split <;> rfl
          · split
            · rfl
            · exact hs

theorem playTransitions_same {M : PropertyKey → Prop} {fuel : Nat} {time : Rat} {P : Transition → Prop}
    (hP : ∀ t t', t'.key = t.key → t'.animator.duration = t.animator.duration → (t.range.isSome → t'.range.isSome) → P t → P t')
    (hm : ∀ t key, P t → t.key = some key → ¬ M key) (l : List Transition) {l' : List Transition} {a b : ComputedStyle}
    (hl : ∀ t ∈ l, P t) (h : playTransitions fuel time l a = .ok (l', b)) : SameOn M a b ∧ ∀ t ∈ l', P t := by
  induction l generalizing a l' with
  | nil => injection h with h; injection h with h1 h; subst h; subst h1; exact ⟨.refl a, hl⟩
  | cons t l ih =>
    simp only [playTransitions] at h
    split at h
    · cases h
    · rename_i t' s hpl
      split at h
      · cases h
      · rename_i rest s' hrest
        injection h with h; injection h with h1 h; subst h; subst h1
        obtain ⟨g1, g2⟩ := ih (fun x hx => hl x (by simp [hx])) hrest
        have ht := hl t (by simp)
        have hx : SameOn M a s ∧ P t' := by
          unfold Transition.play at hpl
          split at hpl
          · injection hpl with hpl; injection hpl with h2 hpl; subst hpl; subst h2
            exact ⟨.refl a, ht⟩
          · rename_i key hkey
            split at hpl
            · cases hpl
            · rename_i hu
              injection hpl with hpl; injection hpl with h2 hpl; subst hpl; subst h2
              exact ⟨.refl a, hP t _ rfl (animatorUpdate_same hu).2 id ht⟩
            · rename_i hu
              obtain ⟨k1, k2, k3, k4⟩ := loop_same (hm t key ht hkey) _ _ hpl
              exact ⟨k1, hP t t' k2 (k3.trans (animatorUpdate_same hu).2) k4 ht⟩
        refine ⟨hx.1.trans g1, fun y hy => ?_⟩
        rcases List.mem_cons.1 hy with rfl | hy
        · exact hx.2
        · exact g2 y hy

theorem initLoop_isSome {key : PropertyKey} {style : ComputedStyle} (n index : Nat) {range : Option (ComputedValue × ComputedValue)} (h : range.isSome) :
    (initLoop key style n index range).isSome := by
  induction n generalizing index range with
  | zero => exact h
  | succ n ih =>
    simp only [initLoop]
    split
    · exact h
    · exact ih _ rfl

theorem init_keeps (t : Transition) (style : ComputedStyle) :
    (t.init style).key = t.key ∧ (t.init style).animator = t.animator ∧ (t.range.isSome → (t.init style).range.isSome) ∧
      ∀ key w, t.key = some key → style.get ⟨key, 0⟩ = some w → (t.init style).range.isSome := by
  unfold Transition.init
  split
  · rename_i h
    exact ⟨rfl, rfl, id, fun _ _ _ _ => h⟩
  · rename_i h
    cases hk : t.key with
    | none => exact ⟨hk, rfl, id, fun key w h _ => by cases h⟩
    | some key =>
      refine ⟨rfl, rfl, fun hs => absurd hs h, fun key' w hk' hw => ?_⟩
      injection hk' with hk'; subst hk'
      show (initLoop key style style.length 0 none).isSome
      have : 0 < style.length := by
        rcases style with _ | ⟨x, l⟩
        · simp [ComputedStyle.get] at hw
        · simp
      obtain ⟨m, hm⟩ : ∃ m, style.length = m + 1 := ⟨style.length - 1, by omega⟩
      rw [hm, initLoop, hw]
      exact initLoop_isSome _ _ rfl

/-! ### Styling keeps calm -/

/-- Smooth inline styles; running animations and transitions with durations; transitions with something to begin
with. -/
def smoothManner (used : PropertyKey → Prop) (rank : String → Nat) : Manner where
  free := True
  block := SmoothBlock used rank
  animator a := a.name ≠ "" → 0 < a.duration
  transition t := ∀ key, t.key = some key → key ∉ motionProperties ∧ 0 < t.animator.duration ∧ (t.range.isSome ∨ ¬ used key)
  none := by
    refine ⟨?_, ?_, ?_, ?_, ?_, ?_⟩ 
    all_goals intro x hx
    case refine_6 => obtain ⟨k, values, v, name, rest, hm, -⟩ := hx; cases hm
    all_goals cases hx

/-- The rules kept are of a manner. -/
def GoodRules (G : Manner) (rules : NodeId → List ElementStyle) : Prop := ∀ n, ∀ r ∈ rules n, G.block r.rule.declaration

theorem styleElement_calm {used : PropertyKey → Prop} {rank : String → Nat} {env : FrameEnv} (hf : env.order.Fair) (hr : GoodRules (smoothManner used rank) env.rules)
    (hk : ∀ name an, env.animations name = some an → ∀ k ∈ an.keyframes, ∀ x ∈ k.declaration, x.Still) {t : Tree} {n : NodeId} {parent e : Element}
    {sizes : Sizes} {vars vars' : Variables} {l : LayoutStyle} {r : LayoutStyle × Element} (he : e.Calm (smoothManner used rank))
    (h : styleElement env t n parent sizes vars l e = .ok (r, vars')) : r.2.Calm (smoothManner used rank) := by
  obtain ⟨hf1, -, hf3⟩ := styleElement_form h
  suffices hm : (∀ a ∈ r.2.animators, (smoothManner used rank).animator a) ∧ ∀ t ∈ r.2.transitions, (smoothManner used rank).transition t from
    ⟨by rw [hf1.attrsBindings]; exact he.bound, by rw [hf3]; exact he.style, hm.1, hm.2⟩
  unfold styleElement at h
  simp only at h
  split at h
  · cases h
  · rename_i rules hrules
    split at h
    · cases h
    · rename_i vars1 style hstyle
      split at h
      · cases h
      · rename_i animators style1 hp1
        split at h
        · cases h
        · rename_i transitions style2 hp2
          injection h with h
          injection h with h _
          subst h
          have hready : ReadyStyle used style := by
            refine ready_computed (rank := rank) hstyle fun b hb => ?_
            rcases List.mem_append.1 hb with hb | hb
            · obtain ⟨s, hs, rfl⟩ := List.mem_map.1 hb
              obtain ⟨r, h1, rfl⟩ := applied_mem hrules s hs
              exact hr n r h1
            · split at hb
              · cases hb
              · rw [List.mem_singleton] at hb
                subst hb
                exact he.style
          obtain ⟨s1, ha⟩ := playAnimators_same (M := (· ∈ motionProperties)) hf (fun name an h k hk' x hx vars d v hs => (hk name an h k hk' x hx).sets hs) (P := (smoothManner used rank).animator) (fun a a' h1 h2 h hn => by rw [h2]; exact h (by rw [← h1]; exact hn)) _ _ hp1
          replace ha := ha he.animators
          obtain ⟨s2, ht⟩ := playTransitions_same (M := (· ∈ motionProperties)) (P := (smoothManner used rank).transition)
            (fun t t' h1 h2 h3 h key hk => by
              rw [h1] at hk
              obtain ⟨k1, k2, k3⟩ := h key hk
              exact ⟨k1, by rw [h2]; exact k2, k3.imp h3 id⟩)
            (fun t key h hk => (h key hk).1) _ he.transitions hp2
          have hs12 := s1.trans s2
          have hready2 := hready.keep hs12
          have honce : style2.Once := hs12.once (by rw [computeBlocks_flatten] at hstyle; exact computeBlock_once _ hstyle (by simp [ComputedStyle.Once]))
          have hmem : ∀ d v, (d, v) ∈ env.order.style n style2 ↔ style2.get d = some v := fun d v => by
            rw [(hf.style n style2).mem_iff, honce.get_iff]
          refine ⟨fun a' ha' hn => ?_, fun t' ht' key hkey => ?_⟩
          · simp only at ha'
            obtain ⟨j, hj⟩ := List.getElem?_of_mem ha'
            obtain ⟨c1, c2⟩ := applyAll_animator sizes (env.order.style n style2)
              (l, { parent.inherit e.reset with animators := animators, transitions := transitions }) j
            simp only [hj, Option.getD_some] at c1 c2
            have hold : (animators[j]?.getD {}).name ≠ "" → 0 < (animators[j]?.getD {}).duration := by
              cases hx : animators[j]? with
              | none => intro hne; exact absurd rfl hne
              | some x => exact ha x (List.mem_of_getElem? hx)
            rcases c2 with ⟨c2, c2'⟩ | c2
            · rcases c1 with c1 | c1
              · rw [c2]; exact hold (by rw [← c1]; exact hn)
              · obtain ⟨w, hw⟩ := hready2.animations j _ ((hmem _ _).1 c1)
                obtain ⟨d, hd, rfl⟩ := hready2.animationTimes j w hw
                exact absurd ((hmem _ _).2 hw) (c2' d)
            · obtain ⟨d, hd, hd'⟩ := hready2.animationTimes j _ ((hmem _ _).1 c2)
              injection hd' with hd'
              rw [hd']; exact hd
          · simp only at ht'
            obtain ⟨t0, ht0, rfl⟩ := List.mem_map.1 ht'
            obtain ⟨j, hj⟩ := List.getElem?_of_mem ht0
            obtain ⟨c1, c2, c3⟩ := applyAll_transition sizes (env.order.style n style2)
              (l, { parent.inherit e.reset with animators := animators, transitions := transitions }) j
            simp only [hj, Option.getD_some] at c1 c2 c3
            obtain ⟨i1, i2, i3, i4⟩ := init_keeps t0 style2
            rw [i1] at hkey
            have hold : (smoothManner used rank).transition (transitions[j]?.getD {}) := by
              cases hx : transitions[j]? with
              | none => intro key hkey; cases hkey
              | some x => exact ht x (List.mem_of_getElem? hx)
            rw [i2]
            rcases c1 with c1 | ⟨name, key', c1, hpar, c1'⟩
            · rw [c1] at hkey
              obtain ⟨k1, k2, k3⟩ := hold key hkey
              refine ⟨k1, ?_, k3.imp (fun hs => i3 (by rw [c3]; exact hs)) id⟩
              rcases c2 with ⟨c2, -⟩ | c2
              · rw [c2]; exact k2
              · obtain ⟨d, hd, hd'⟩ := hready2.transitionTimes j _ ((hmem _ _).1 c2)
                injection hd' with hd'
                rw [hd']; exact hd
            · rw [c1'] at hkey
              injection hkey with hkey; subst hkey
              have c1 := (hmem _ _).1 c1
              obtain ⟨b1, b2⟩ := hready2.begins j name key' c1 hpar
              refine ⟨b1, ?_, ?_⟩
              · rcases c2 with ⟨-, c2⟩ | c2
                · obtain ⟨w, hw⟩ := hready2.transitions j _ c1
                  obtain ⟨d, hd, rfl⟩ := hready2.transitionTimes j w hw
                  exact absurd ((hmem _ _).2 hw) (c2 d)
                · obtain ⟨d, hd, hd'⟩ := hready2.transitionTimes j _ ((hmem _ _).1 c2)
                  injection hd' with hd'
                  rw [hd']; exact hd
              · rcases b2 with b2 | ⟨w, hw⟩
                · exact .inr b2
                · exact .inl (i4 key' w c1' hw)

theorem styleTree_calm {used : PropertyKey → Prop} {rank : String → Nat} {env : FrameEnv} (hf : env.order.Fair) (hr : GoodRules (smoothManner used rank) env.rules)
    (hk : ∀ name an, env.animations name = some an → ∀ k ∈ an.keyframes, ∀ x ∈ k.declaration, x.Still) (depth : Nat) :
    ∀ {n : NodeId} {sizes : Sizes} {vars : Variables} {s s' : Styled}, styleTree env depth n sizes vars s = .ok s' → s.tree.Calm (smoothManner used rank) → s'.tree.Calm (smoothManner used rank) := by
  induction depth with
  | zero => intro n sizes vars s s' h; cases h
  | succ depth ih =>
    intro n sizes vars s s' h hc
    rw [styleTree] at h
    split at h
    · rename_i parent e hp he
      have := hc n e he
      split at h
      · injection h with h; subst h
        exact hc.setCtx ⟨this.bound, this.style, this.animators, this.transitions⟩
      · split at h
        · cases h
        · rename_i l e' vars' hs
          have hc' := styleElement_calm hf hr hk this hs
          split at h
          · injection h with h; subst h
            exact hc.setCtx hc'
          · exact forEach_keeps (P := fun s : Styled => s.tree.Calm (smoothManner used rank)) (fun s c s' hs => ih hs) _ h (hc.setCtx hc')
    · cases h

end Verif
