import Verif.View.StylingTree
import Verif.Css.ReadBack
import Verif.Css.BlockLemmas
import Verif.Props.Animation
/-!
# The order of hash maps does not matter (lemmas for C47), and which properties can be set (C47, C50)
-/
namespace Verif

/-! ## Equal maps -/

/-- The same map, listed in whatever order. -/
structure SameMap (a b : ComputedStyle) : Prop where
  left : a.Once
  right : b.Once
  get : ∀ d, a.get d = b.get d

theorem SameMap.refl {a : ComputedStyle} (h : a.Once) : SameMap a a := ⟨h, h, fun _ => rfl⟩
theorem SameMap.trans {a b c : ComputedStyle} (h : SameMap a b) (g : SameMap b c) : SameMap a c :=
  ⟨h.left, g.right, fun d => (h.get d).trans (g.get d)⟩

theorem SameMap.perm {a b : ComputedStyle} (h : SameMap a b) : a.Perm b := by
  refine (List.perm_ext_iff_of_nodup (List.Nodup.of_map _ h.left) (List.Nodup.of_map _ h.right)).2 ?_
  rintro ⟨d, v⟩
  rw [← h.left.get_iff, ← h.right.get_iff, h.get]

theorem SameMap.insert {a b : ComputedStyle} (h : SameMap a b) (d : Descriptor) (v : ComputedValue) : SameMap (a.insert d v) (b.insert d v) :=
  ⟨h.left.insert d v, h.right.insert d v, fun d' => by rw [ComputedStyle.get_insert, ComputedStyle.get_insert, h.get]⟩

theorem SameMap.swap {a b : ComputedStyle} (h : SameMap a b) {d d' : Descriptor} (hd : d ≠ d') (v v' : ComputedValue) :
    SameMap ((a.insert d v).insert d' v') ((b.insert d' v').insert d v) := by
  refine ⟨(h.left.insert _ _).insert _ _, (h.right.insert _ _).insert _ _, fun x => ?_⟩
  simp only [ComputedStyle.get_insert, h.get]
  by_cases h1 : x = d
  · subst h1; simp [hd]
  · simp [h1]

/-- The same error, or related results. -/
inductive StyleAlike {α : Type} (R : α → α → Prop) : Except Trouble α → Except Trouble α → Prop
  | error (e) : StyleAlike R (.error e) (.error e)
  | ok {a b} : R a b → StyleAlike R (.ok a) (.ok b)

theorem StyleAlike.trans {α} {R : α → α → Prop} (hR : ∀ a b c, R a b → R b c → R a c) {x y z : Except Trouble α} (h : StyleAlike R x y) (g : StyleAlike R y z) :
    StyleAlike R x z := by
  cases h with
  | error e => cases g; exact .error e
  | ok h => cases g with | ok g => exact .ok (hR _ _ _ h g)

theorem trackValue_error {f : List (Nat × ComputedValue)} {t : Nat} {e : Trouble} (h : trackValue f t = .error e) : e = .panic := by
  unfold trackValue at h
  simp only at h
  split at h
  · split at h <;> cases h; rfl
  · split at h <;> cases h; rfl

theorem playTracks_alike {t : Nat} {l l' : List Track} (hp : l.Perm l') (hn : (l.map (·.descriptor)).Nodup) {a b : ComputedStyle} (h : SameMap a b) :
    StyleAlike SameMap (playTracks t l a) (playTracks t l' b) := by
  induction hp generalizing a b with
  | nil => exact .ok h
  | cons x _ ih =>
    simp only [playTracks]
    cases trackValue x.frames t with
    | error e => exact .error e
    | ok v => exact ih (List.nodup_cons.1 hn).2 (h.insert _ _)
  | swap x y l =>
    have hd : x.descriptor ≠ y.descriptor := by
      simp only [List.map_cons, List.nodup_cons, List.mem_cons, not_or] at hn
      exact fun e => hn.1.1 e.symm
    have same : ∀ (l : List Track) {a b : ComputedStyle}, SameMap a b → StyleAlike SameMap (playTracks t l a) (playTracks t l b) := by
      intro l
      induction l with
      | nil => exact fun h => .ok h
      | cons x l ih =>
        intro a b h
        simp only [playTracks]
        cases trackValue x.frames t with
        | error e => exact .error e
        | ok v => exact ih (h.insert _ _)
    simp only [playTracks]
    cases hx : trackValue x.frames t with
    | error e =>
      cases hy : trackValue y.frames t with
      | error e' => rw [trackValue_error hx, trackValue_error hy]; exact .error _
      | ok w => exact .error _
    | ok v =>
      cases hy : trackValue y.frames t with
      | error e' => exact .error _
      | ok w => exact same l (h.swap (Ne.symm hd) _ _)
  | trans h1 _ ih1 ih2 =>
    exact StyleAlike.trans (R := SameMap) (fun _ _ _ h g => SameMap.trans h g) (ih1 hn h) (ih2 ((h1.map _).nodup_iff.1 hn) (SameMap.refl h.right))

theorem computeTracks_nodup {vars : Variables} {fuel : Nat} {animation : Animation} {style : ComputedStyle} {tracks : List Track}
    (h : computeTracks vars fuel animation style = some tracks) : (tracks.map (·.descriptor)).Nodup := by
  unfold computeTracks at h
  split at h
  · cases h
  · rename_i styles animated _
    injection h with h
    subst h
    rw [List.map_map]
    have : (List.map ((fun x : Track => x.descriptor) ∘ fun d => ⟨d, List.filterMap (fun x : Nat × ComputedStyle => (x.2.get d).map fun v => (x.1, v))
        (insertStep 100 (completeFrame style animated.dedup ((stepAt (insertStep 0 (completeFrame style animated.dedup ((stepAt styles 0).getD [])) styles) 100).getD []))
          (insertStep 0 (completeFrame style animated.dedup ((stepAt styles 0).getD [])) styles))⟩) animated.dedup) = animated.dedup := by
      conv_rhs => rw [← List.map_id animated.dedup]
      rfl
    rw [this]
    exact List.nodup_dedup _

theorem computeTracks_same {vars : Variables} {fuel : Nat} {animation : Animation} {a b : ComputedStyle} (h : SameMap a b) :
    computeTracks vars fuel animation a = computeTracks vars fuel animation b := by
  have : completeFrame a = completeFrame b := by
    funext animated frame
    simp only [completeFrame, h.get]
  unfold computeTracks
  rw [this]

theorem play_alike {fuel : Nat} {x : Animator} {time : Rat} {l l' : List Track} (hp : l.Perm l') (hn : (l.map (·.descriptor)).Nodup)
    {a b : ComputedStyle} (h : SameMap a b) :
    StyleAlike (fun p q => p.1 = q.1 ∧ SameMap p.2 q.2) (x.play fuel time l a) (x.play fuel time l' b) := by
  unfold Animator.play
  cases x.update fuel time with
  | error e => exact .error e
  | ok r =>
    obtain ⟨x', p⟩ := r
    cases p with
    | none => exact .ok ⟨rfl, h⟩
    | some p =>
      simp only
      have := playTracks_alike (t := stepOf p) hp hn h
      cases h1 : playTracks (stepOf p) l a with
      | error e => rw [h1] at this; cases h2 : playTracks (stepOf p) l' b <;> rw [h2] at this <;> cases this; exact .error e
      | ok s =>
        rw [h1] at this
        cases h2 : playTracks (stepOf p) l' b with
        | error e => rw [h2] at this; cases this
        | ok s' => rw [h2] at this; cases this with | ok h => exact .ok ⟨rfl, h⟩

theorem playAnimators_alike {env env' : FrameEnv} (he : env.SameBut env') (n : NodeId) (vars : Variables) (l : List Animator) (i : Nat)
    {a b : ComputedStyle} (h : SameMap a b) :
    StyleAlike (fun p q => p.1 = q.1 ∧ SameMap p.2 q.2) (playAnimators env n vars i l a) (playAnimators env' n vars i l b) := by
  induction l generalizing i a b with
  | nil => exact .ok ⟨rfl, h⟩
  | cons x l ih =>
    simp only [playAnimators, he.animations, he.fuel, he.time]
    cases env.animations x.name with
    | none =>
      have := ih (i + 1) h
      simp only
      cases h1 : playAnimators env n vars (i + 1) l a with
      | error e => rw [h1] at this; cases h2 : playAnimators env' n vars (i + 1) l b <;> rw [h2] at this <;> cases this; exact .error e
      | ok s =>
        rw [h1] at this
        cases h2 : playAnimators env' n vars (i + 1) l b with
        | error e => rw [h2] at this; cases this
        | ok s' => rw [h2] at this; cases this with | ok h => exact .ok ⟨by rw [h.1], h.2⟩
    | some an =>
      simp only [← computeTracks_same h]
      cases ht : computeTracks vars env.fuel an a with
      | none => exact .error _
      | some tracks =>
        simp only
        have hpl := play_alike (fuel := env.fuel) (x := x) (time := env.time)
          ((he.fair.tracks n i tracks).trans (he.fair'.tracks n i tracks).symm)
          (((he.fair.tracks n i tracks).map _).nodup_iff.2 (computeTracks_nodup ht)) h
        cases h1 : x.play env.fuel env.time (env.order.tracks n i tracks) a with
        | error e =>
          rw [h1] at hpl
          cases h2 : x.play env.fuel env.time (env'.order.tracks n i tracks) b <;> rw [h2] at hpl <;> cases hpl; exact .error e
        | ok s =>
          rw [h1] at hpl
          cases h2 : x.play env.fuel env.time (env'.order.tracks n i tracks) b with
          | error e => rw [h2] at hpl; cases hpl
          | ok s' =>
            rw [h2] at hpl
            cases hpl with
            | ok h =>
              obtain ⟨x1, s⟩ := s
              obtain ⟨x2, s'⟩ := s'
              obtain ⟨hx, hs⟩ := h
              simp only at hx hs
              subst hx
              have := ih (i + 1) hs
              simp only
              cases h1 : playAnimators env n vars (i + 1) l s with
              | error e => rw [h1] at this; cases h2 : playAnimators env' n vars (i + 1) l s' <;> rw [h2] at this <;> cases this; exact .error e
              | ok s =>
                rw [h1] at this
                cases h2 : playAnimators env' n vars (i + 1) l s' with
                | error e => rw [h2] at this; cases this
                | ok s' => rw [h2] at this; cases this with | ok h => exact .ok ⟨by rw [h.1], h.2⟩

theorem loop_alike {key : PropertyKey} {p : Progress} (fuel index : Nat) (t : Transition) {a b : ComputedStyle} (h : SameMap a b) :
    StyleAlike (fun p q => p.1 = q.1 ∧ SameMap p.2 q.2) (Transition.loop key p fuel index t a) (Transition.loop key p fuel index t b) := by
  induction fuel generalizing index t a b with
  | zero => exact .error _
  | succ fuel ih =>
    simp only [Transition.loop, ← h.get]
    cases a.get ⟨key, index⟩ with
    | none => exact .ok ⟨rfl, h⟩
    | some value =>
      simp only
      cases t.range with
      | none => exact ih index t h
      | some r =>
        obtain ⟨x, y⟩ := r
        simp only
        cases animateAt x y p with
        | error e => exact .error e
        | ok current =>
          simp only
          refine ih _ _ ?_
          split
          · exact h.insert _ _
          · exact h

theorem playTransitions_alike {fuel : Nat} {time : Rat} (l : List Transition) {a b : ComputedStyle} (h : SameMap a b) :
    StyleAlike (fun p q => p.1 = q.1 ∧ SameMap p.2 q.2) (playTransitions fuel time l a) (playTransitions fuel time l b) := by
  have play : ∀ (t : Transition), StyleAlike (fun p q => p.1 = q.1 ∧ SameMap p.2 q.2) (t.play fuel time a) (t.play fuel time b) := by
    intro t
    unfold Transition.play
    cases t.key with
    | none => exact .ok ⟨rfl, h⟩
    | some key =>
      simp only
      cases t.animator.update fuel time with
      | error e => exact .error e
      | ok r =>
        obtain ⟨x, p⟩ := r
        cases p with
        | none => exact .ok ⟨rfl, h⟩
        | some p => exact loop_alike fuel 0 _ h
  induction l generalizing a b with
  | nil => exact .ok ⟨rfl, h⟩
  | cons t l ih =>
    simp only [playTransitions]
    have hp := play t
    cases h1 : t.play fuel time a with
    | error e => rw [h1] at hp; cases h2 : t.play fuel time b <;> rw [h2] at hp <;> cases hp; exact .error e
    | ok s =>
      rw [h1] at hp
      cases h2 : t.play fuel time b with
      | error e => rw [h2] at hp; cases hp
      | ok s' =>
        rw [h2] at hp
        cases hp with
        | ok hh =>
          obtain ⟨t1, s⟩ := s
          obtain ⟨t2, s'⟩ := s'
          obtain ⟨hx, hs⟩ := hh
          simp only at hx hs
          subst hx
          have play' : ∀ (t : Transition), StyleAlike (fun p q => p.1 = q.1 ∧ SameMap p.2 q.2) (t.play fuel time s) (t.play fuel time s') := by
            intro t
            unfold Transition.play
            cases t.key with
            | none => exact .ok ⟨rfl, hs⟩
            | some key =>
              simp only
              cases t.animator.update fuel time with
              | error e => exact .error e
              | ok r =>
                obtain ⟨x, p⟩ := r
                cases p with
                | none => exact .ok ⟨rfl, hs⟩
                | some p => exact loop_alike fuel 0 _ hs
          have := ih hs play'
          simp only
          cases h1 : playTransitions fuel time l s with
          | error e => rw [h1] at this; cases h2 : playTransitions fuel time l s' <;> rw [h2] at this <;> cases this; exact .error e
          | ok s =>
            rw [h1] at this
            cases h2 : playTransitions fuel time l s' with
            | error e => rw [h2] at this; cases this
            | ok s' => rw [h2] at this; cases this with | ok h => exact .ok ⟨by rw [h.1], h.2⟩

theorem init_same {t : Transition} {a b : ComputedStyle} (h : SameMap a b) : t.init a = t.init b := by
  have : ∀ key n i r, initLoop key a n i r = initLoop key b n i r := by
    intro key n
    induction n with
    | zero => intro i r; rfl
    | succ n ih => intro i r; simp only [initLoop, h.get, ih]
  unfold Transition.init
  simp only [this, h.perm.length_eq]

/-! ## Which properties can be set -/

theorem computeBlocks_domain {fuel : Nat} {blocks : List (List Declaration)} {vars vars' : Variables} {style : ComputedStyle} {P : Descriptor → Prop}
    (h : computeBlocks fuel blocks vars [] = some (vars', style))
    (hP : ∀ b ∈ blocks, ∀ x ∈ b, ∀ vars d v, x.Sets vars d v → P d) : ∀ d v, style.get d = some v → P d := by
  rw [computeBlocks_flatten] at h
  intro d v hv
  obtain ⟨i, ⟨x, hx, hs⟩, _⟩ := (computeBlock_get _ h d v).1 hv
  obtain ⟨b, hb, hxb⟩ := List.mem_flatten.1 (List.mem_of_getElem? hx)
  exact hP b hb x hxb _ _ _ hs

theorem playTracks_domain {t : Nat} (l : List Track) {a b : ComputedStyle} (h : playTracks t l a = .ok b) :
    ∀ d v, b.get d = some v → d ∈ l.map (·.descriptor) ∨ ∃ w, a.get d = some w := by
  induction l generalizing a with
  | nil => injection h with h; subst h; exact fun d v hv => .inr ⟨v, hv⟩
  | cons x l ih =>
    simp only [playTracks] at h
    split at h
    · cases h
    · intro d v hv
      rcases ih h d v hv with hd | ⟨w, hw⟩
      · exact .inl (List.mem_cons_of_mem _ hd)
      · rw [ComputedStyle.get_insert] at hw
        by_cases he : d = x.descriptor
        · exact .inl (by simp [he])
        · rw [if_neg he] at hw; exact .inr ⟨w, hw⟩

theorem computeTracks_domain {vars : Variables} {fuel : Nat} {animation : Animation} {style : ComputedStyle} {tracks : List Track} {P : Descriptor → Prop}
    (h : computeTracks vars fuel animation style = some tracks)
    (hP : ∀ k ∈ animation.keyframes, ∀ x ∈ k.declaration, ∀ vars d v, x.Sets vars d v → P d) : ∀ t ∈ tracks, P t.descriptor := by
  unfold computeTracks at h
  cases hk : keyframeStyles vars fuel animation.keyframes [] [] with
  | none => rw [hk] at h; cases h
  | some r =>
    obtain ⟨styles, animated⟩ := r
    rw [hk] at h
    simp only [Option.some.injEq] at h
    obtain ⟨_, _, k3⟩ := keyframeStyles_spec animation.keyframes List.Pairwise.nil hk
    intro t ht
    rw [← h, List.mem_map] at ht
    obtain ⟨d, hd, rfl⟩ := ht
    rcases (k3 d).1 (List.mem_dedup.1 hd) with hf | ⟨k, hk, st, hst, hm⟩
    · cases hf
    · obtain ⟨v, hv⟩ := (ComputedStyle.get_mem _ _).2 hm
      obtain ⟨pre, x, post, hb, hs, _⟩ := (C53_keyframe_style hst d v).1 hv
      exact hP k hk x (by rw [hb]; simp) _ _ _ hs

theorem playAnimators_domain {env : FrameEnv} (hf : env.order.Fair) {n : NodeId} {vars : Variables} {P : Descriptor → Prop} (l : List Animator) (i : Nat)
    (hP : ∀ x ∈ l, ∀ an, env.animations x.name = some an → ∀ k ∈ an.keyframes, ∀ y ∈ k.declaration, ∀ vars d v, y.Sets vars d v → P d)
    {a b : ComputedStyle} {l' : List Animator} (h : playAnimators env n vars i l a = .ok (l', b)) (ha : ∀ d v, a.get d = some v → P d) :
    ∀ d v, b.get d = some v → P d := by
  induction l generalizing i a l' with
  | nil => injection h with h; injection h with _ h; subst h; exact ha
  | cons x l ih =>
    simp only [playAnimators] at h
    split at h
    · split at h
      · cases h
      · rename_i hrest
        injection h with h; injection h with _ h; subst h
        exact ih (i + 1) (fun y hy => hP y (List.mem_cons_of_mem _ hy)) hrest ha
    · rename_i an han
      split at h
      · cases h
      · rename_i tracks htr
        split at h
        · cases h
        · rename_i x' s hpl
          split at h
          · cases h
          · rename_i hrest
            injection h with h; injection h with _ h; subst h
            refine ih (i + 1) (fun y hy => hP y (List.mem_cons_of_mem _ hy)) hrest ?_
            unfold Animator.play at hpl
            split at hpl
            · cases hpl
            · injection hpl with hpl; injection hpl with _ hpl; subst hpl; exact ha
            · split at hpl
              · cases hpl
              · rename_i hplay
                injection hpl with hpl; injection hpl with _ hpl; subst hpl
                intro d v hv
                rcases playTracks_domain _ hplay d v hv with hd | ⟨w, hw⟩
                · obtain ⟨t, ht, rfl⟩ := List.mem_map.1 hd
                  exact computeTracks_domain htr (hP x (by simp) an han) t ((hf.tracks n i tracks).mem_iff.1 ht)
                · exact ha d w hw

theorem loop_domain {key : PropertyKey} {p : Progress} (fuel index : Nat) {t t' : Transition} {a b : ComputedStyle}
    (h : Transition.loop key p fuel index t a = .ok (t', b)) : ∀ d v, b.get d = some v → ∃ w, a.get d = some w := by
  induction fuel generalizing index t a with
  | zero => cases h
  | succ fuel ih =>
    simp only [Transition.loop] at h
    split at h
    · injection h with h; injection h with _ h; subst h; exact fun d v hv => ⟨v, hv⟩
    · rename_i value hval
      split at h
      · exact ih index h
      · split at h
        · cases h
        · rename_i current _
          intro d v hv
          obtain ⟨w, hw⟩ := ih _ h d v hv
          split at hw
          · rw [ComputedStyle.get_insert] at hw
            by_cases he : d = ⟨key, index⟩
            · subst he; exact ⟨value, hval⟩
            · rw [if_neg he] at hw; exact ⟨w, hw⟩
          · exact ⟨w, hw⟩

theorem playTransitions_domain {fuel : Nat} {time : Rat} (l : List Transition) {l' : List Transition} {a b : ComputedStyle}
    (h : playTransitions fuel time l a = .ok (l', b)) : ∀ d v, b.get d = some v → ∃ w, a.get d = some w := by
  induction l generalizing a l' with
  | nil => injection h with h; injection h with _ h; subst h; exact fun d v hv => ⟨v, hv⟩
  | cons t l ih =>
    simp only [playTransitions] at h
    split at h
    · cases h
    · rename_i t' s hpl
      split at h
      · cases h
      · rename_i hrest
        injection h with h; injection h with _ h; subst h
        intro d v hv
        obtain ⟨w, hw⟩ := ih hrest d v hv
        unfold Transition.play at hpl
        split at hpl
        · injection hpl with hpl; injection hpl with _ hpl; subst hpl; exact ⟨w, hw⟩
        · split at hpl
          · cases hpl
          · injection hpl with hpl; injection hpl with _ hpl; subst hpl; exact ⟨w, hw⟩
          · exact loop_domain _ _ hpl d w hw

end Verif
