import Verif.View.Clock
/-!
# C81: animations of a program follow its clock

The clock of an animation is what the code keeps of the time it has played; what a user sees of it is the look.
-/
namespace Verif

variable {p : Platform}

/-- **C81.** After any run of a program, every animation of every element has been playing for exactly the sum of the times of
those updates in which it was running and the element was displayed: no time is lost or counted twice, and it begins
at 0. -/
theorem C81_clock {fuel fuel' : Nat} {document : Html} {css : Css} {a a' : App} {fs : List Frame} {outs : List Output} (ho : openApp p fuel document css = .ok a)
    (hr : a.run p fuel' fs = .ok (a', outs)) (n : NodeId) (i : Nat) : a'.clock n i = a.playing p fuel' n i fs := by
  rw [clock_run fs (Living.opened ho) hr n i]
  unfold App.clock
  rw [opened_clock ho]
  simp

/-- **C81.** One update: the clock of an animation that plays goes on by the time of the update, all others stand still. -/
theorem C81_update {fuel fuel' : Nat} {document : Html} {css : Css} {a a1 a' : App} {fs : List Frame} {outs : List Output} {out : Output} (ho : openApp p fuel document css = .ok a)
    (hr : a.run p fuel' fs = .ok (a1, outs)) {f : Frame} (hu : a1.update p fuel' f.order f.input f.value = .ok (a', out)) (n : NodeId) (i : Nat) :
    (a1.Plays p f.value n i → a'.clock n i = a1.clock n i + f.input.time) ∧ (¬ a1.Plays p f.value n i → a'.clock n i = a1.clock n i) :=
  (living_run fs (Living.opened ho) hr).clock hu n i

theorem Animator.ProgressAt.unique {x : Animator} (hd : 0 < x.duration) {T y z : Rat} (h : x.ProgressAt T y) (g : x.ProgressAt T z) : y = z := by
  obtain ⟨h0, h1, k, hk, hp⟩ := h
  obtain ⟨g0, g1, j, hj, gp⟩ := g
  have he : (k : Rat) + y = j + z := mul_right_cancel₀ hd.ne' (hk.symm.trans hj)
  rcases Nat.lt_trichotomy k j with hlt | heq | hgt
  · have := gp (by omega)
    have h2 : (k : Rat) + 1 ≤ j := by exact_mod_cast hlt
    linarith
  · subst heq; linarith
  · have := hp (by omega)
    have h2 : (j : Rat) + 1 ≤ k := by exact_mod_cast hgt
    linarith

/-- One animation that shows something. -/
theorem displays_play {vars : Variables} {fuel : Nat} {an : Animation} {style final : ComputedStyle} {tracks order : List Track} {x x1 x' : Animator} {time y : Rat} {said : Said}
    (hstyle : ∀ d v, style.get d = some v ↔ said d v) (htr : computeTracks vars fuel an style = some tracks) (hperm : order.Perm tracks)
    (hu : x.update fuel time = .ok (x1, some (.value y))) (h0 : 0 ≤ y) (hy : y ≤ 1) (hpl : x.play fuel time order style = .ok (x', final)) (d : Descriptor) (val : ComputedValue) :
    final.get d = some val ↔ an.Displays said vars y d val := by
  have hks : ∀ k ∈ an.keyframes, ∃ st, keyframeStyle vars fuel k.declaration [] = some st := by
    unfold computeTracks at htr
    split at htr
    · cases htr
    · rename_i hkk
      exact keyframeStyles_some _ hkk
  have hs : ∀ k ∈ an.keyframes, keyframeStyle vars fuel k.declaration [] = some ((keyframeStyle vars fuel k.declaration []).getD []) := by
    intro k hk
    obtain ⟨st, hst⟩ := hks k hk
    rw [hst]; rfl
  have hmoves : (∃ k ∈ an.keyframes, ∃ v, ((keyframeStyle vars fuel k.declaration []).getD []).get d = some v) ↔ an.Moves vars d := by
    unfold Animation.Moves
    constructor
    · rintro ⟨k, hk, w, hw⟩
      obtain ⟨pre, y, post, hb, h1, -⟩ := (C53_keyframe_style (hs k hk) d w).1 hw
      exact ⟨k, hk, y, by rw [hb]; simp, w, h1⟩
    · rintro ⟨k, hk, y, hy, w, hw⟩
      obtain ⟨u, hu⟩ := lastSets_exists k.declaration ⟨y, hy, w, hw⟩
      exact ⟨k, hk, u, (C53_keyframe_style (hs k hk) d u).2 hu⟩
  have hkv : ∀ s v, an.FrameSays said vars d s v ↔ keyframeValue (fun k => (keyframeStyle vars fuel k.declaration []).getD []) an.keyframes style d s = some v :=
    fun s v => frameSays_value hs hstyle d s v
  have hkn : ∀ s, keyframeValue (fun k => (keyframeStyle vars fuel k.declaration []).getD []) an.keyframes style d s = none ↔ ∀ w, ¬ an.FrameSays said vars d s w := by
    intro s
    constructor
    · intro hn w hw; rw [(hkv s w).1 hw] at hn; cases hn
    · intro hn
      cases hg : keyframeValue (fun k => (keyframeStyle vars fuel k.declaration []).getD []) an.keyframes style d s with
      | none => rfl
      | some w => exact absurd ((hkv s w).2 hg) (hn w)
  have look : ∀ step : Nat, (step : Rat) ≤ 100 * y → 100 * y < step + 1 →
      (¬ an.Moves vars d → final.get d = style.get d) ∧ (an.Moves vars d → (∀ v, an.FrameSays said vars d step v → final.get d = some v) ∧
        ((∀ w, ¬ an.FrameSays said vars d step w) → ∃ before after from_ to_, before < step ∧ step < after ∧ an.FrameSays said vars d before from_ ∧ an.FrameSays said vars d after to_ ∧
          (∀ s, before < s → s < after → ∀ w, ¬ an.FrameSays said vars d s w) ∧ final.get d = some (animate from_ to_ (((step : Rat) - before) / ((after : Rat) - before))))) := by
    intro step s1 s2
    obtain ⟨shown, p1, p2⟩ := C53_play (shown := style) hs htr hperm hu hy s1 s2
    rw [p1] at hpl
    simp only [Except.ok.injEq, Prod.mk.injEq] at hpl
    obtain ⟨-, rfl⟩ := hpl
    obtain ⟨q1, q2⟩ := p2 d
    refine ⟨fun hm => q1 fun k hk => ?_, fun hm => ⟨fun v hv => (q2 (hmoves.2 hm)).1 v ((hkv step v).1 hv), fun hn => ?_⟩⟩
    · cases hg : ((keyframeStyle vars fuel k.declaration []).getD []).get d with
      | none => rfl
      | some w => exact absurd (hmoves.1 ⟨k, hk, w, hg⟩) hm
    · obtain ⟨b, a, f, t, c1, c2, c3, c4, c5, c6⟩ := (q2 (hmoves.2 hm)).2 ((hkn step).2 hn)
      exact ⟨b, a, f, t, c1, c2, (hkv b f).2 c3, (hkv a t).2 c4, fun s h1 h2 => (hkn s).1 (c5 s h1 h2), c6⟩
  constructor
  · intro hf
    have hfl0 : 0 ≤ (100 * y).floor := by rw [Rat.le_floor_iff]; push_cast; linarith
    obtain ⟨step, hstep⟩ := Int.eq_ofNat_of_zero_le hfl0
    have s1 : (step : Rat) ≤ 100 * y := by
      have := Rat.floor_le (100 * y)
      rw [hstep] at this; exact_mod_cast this
    have s2 : 100 * y < step + 1 := by
      have := Rat.lt_floor_add_one (100 * y)
      rw [hstep] at this; exact_mod_cast this
    obtain ⟨l1, l2⟩ := look step s1 s2
    refine ⟨step, s1, s2, ?_⟩
    by_cases hm : an.Moves vars d
    · by_cases hn : ∃ w, an.FrameSays said vars d step w
      · obtain ⟨w, hw⟩ := hn
        have := (l2 hm).1 w hw
        rw [hf] at this; injection this with this; subst this
        exact .inr (.inl ⟨hm, hw⟩)
      · obtain ⟨b, a, f, t, c1, c2, c3, c4, c5, c6⟩ := (l2 hm).2 (not_exists.1 hn)
        rw [hf] at c6; injection c6 with c6
        exact .inr (.inr ⟨hm, b, a, f, t, c1, c2, c3, c4, c5, c6⟩)
    · exact .inl ⟨hm, (hstyle d val).1 (by rw [← l1 hm]; exact hf)⟩
  · rintro ⟨step, s1, s2, hcases⟩
    obtain ⟨l1, l2⟩ := look step s1 s2
    rcases hcases with ⟨hm, hsv⟩ | ⟨hm, hfs⟩ | ⟨hm, before, after, from_, to_, b1, b2, b3, b4, b5, rfl⟩
    · rw [l1 hm]; exact (hstyle d val).2 hsv
    · exact (l2 hm).1 val hfs
    · obtain ⟨before', after', from', to', c1, c2, c3, c4, c5, c6⟩ := (l2 hm).2 (b5 step b1 b2)
      have e1 : before' = before := by
        rcases Nat.lt_trichotomy before' before with hlt | heq | hgt
        · exact absurd b3 (c5 before hlt (by omega) from_)
        · exact heq
        · exact absurd c3 (b5 before' hgt (by omega) from')
      have e2 : after' = after := by
        rcases Nat.lt_trichotomy after' after with hlt | heq | hgt
        · exact absurd c4 (b5 after' (by omega) hlt to')
        · exact heq
        · exact absurd b4 (c5 after (by omega) hgt to_)
      subst e1 e2
      have e3 := (hkv before' from_).1 b3
      rw [(hkv before' from').1 c3] at e3; injection e3 with e3
      have e4 := (hkv after' to_).1 b4
      rw [(hkv after' to').1 c4] at e4; injection e4 with e4
      rw [c6, e3, e4]

/-- The animations of an element. -/
theorem playAnimators_animates {env : FrameEnv} (hfair : env.order.Fair) {n : NodeId} {vars : Variables} {css : Css} (hcss : env.animations = css.animations) {T : Nat → Rat} (xs : List Animator) :
    ∀ {i : Nat} {style final : ComputedStyle} {xs' : List Animator} {said : Said},
      (∀ j x an, xs[j]? = some x → css.animations x.name = some an → 0 < x.duration ∧ x.Forward ∧ clockAfter x env.time = T (i + j)) →
      playAnimators env n vars i xs style = .ok (xs', final) → (∀ d v, style.get d = some v ↔ said d v) →
      ∀ d v, final.get d = some v ↔ css.Animates vars T i xs said d v := by
  induction xs with
  | nil =>
    intro i style final xs' said _ hpl hs
    simp only [playAnimators, Except.ok.injEq, Prod.mk.injEq] at hpl
    rw [← hpl.2]
    exact hs
  | cons x xs ih =>
    intro i style final xs' said hx hpl hs
    simp only [Css.Animates]
    have hnext : ∀ j y an, xs[j]? = some y → css.animations y.name = some an → 0 < y.duration ∧ y.Forward ∧ clockAfter y env.time = T (i + 1 + j) := by
      intro j y an h1 h2
      have := hx (j + 1) y an (by simpa using h1) h2
      rwa [show i + (j + 1) = i + 1 + j by omega] at this
    simp only [playAnimators, hcss] at hpl
    cases hk : css.animations x.name with
    | none =>
      rw [hk] at hpl
      simp only at hpl
      split at hpl
      · cases hpl
      · rename_i rest st hrest
        simp only [Except.ok.injEq, Prod.mk.injEq] at hpl
        obtain ⟨-, rfl⟩ := hpl
        simp only [hk]
        exact ih hnext hrest hs
    | some an =>
      rw [hk] at hpl
      simp only at hpl
      split at hpl
      · cases hpl
      rename_i tracks htr
      split at hpl
      · cases hpl
      rename_i x' st hplay
      split at hpl
      · cases hpl
      rename_i rest st' hrest
      simp only [Except.ok.injEq, Prod.mk.injEq] at hpl
      obtain ⟨-, rfl⟩ := hpl
      simp only [hk]
      refine ih hnext hrest ?_
      obtain ⟨hd, hfw, hT⟩ := hx 0 x an rfl hk
      rw [Nat.add_zero] at hT
      intro d v
      cases hu : x.update env.fuel env.time with
      | error f => unfold Animator.play at hplay; rw [hu] at hplay; cases hplay
      | ok r =>
        obtain ⟨x1, pr⟩ := r
        obtain ⟨hx1, hcase⟩ := update_cases hu
        have hclk : x1.time = T i := by rw [hx1]; exact hT
        rw [hclk] at hcase
        rcases hcase with ⟨hlt, rfl⟩ | ⟨hge, r, hw, rfl⟩
        · unfold Animator.play at hplay
          rw [hu] at hplay
          simp only [Except.ok.injEq, Prod.mk.injEq] at hplay
          obtain ⟨-, rfl⟩ := hplay
          rw [hs d v]
          exact ⟨fun h => .inl ⟨by linarith, h⟩, fun h => h.elim (·.2) fun h => absurd h.1 (by linarith)⟩
        · obtain ⟨k, k1, k2, k3, k4⟩ := wrapTime_spec hd (played_nonneg hd hfw hge) hw
          have hy0 : 0 ≤ r / x.duration := div_nonneg k2 hd.le
          have hy1 : r / x.duration ≤ 1 := (div_le_one hd).2 k3
          have hprog : x.ProgressAt (T i) (r / x.duration) :=
            ⟨hy0, hy1, k, by rw [k1, add_mul, div_mul_cancel₀ _ hd.ne']; ring, fun hk => div_pos (k4 hk) hd⟩
          rw [if_neg hd.ne'] at hu
          rw [displays_play hs htr (hfair.tracks n i tracks) hu hy0 hy1 hplay d v]
          constructor
          · intro h; exact .inr ⟨by linarith, _, hprog, h⟩
          · rintro (⟨h1, -⟩ | ⟨-, y, h1, h2⟩)
            · exact absurd h1 (by linarith)
            · rw [hprog.unique hd h1]; exact h2

theorem loop_other {key : PropertyKey} {p : Progress} (fuel index : Nat) {t t' : Transition} {a b : ComputedStyle}
    (h : Transition.loop key p fuel index t a = .ok (t', b)) {d : Descriptor} (hd : key ≠ d.key) : b.get d = a.get d := by
  induction fuel generalizing index t a with
  | zero => cases h
  | succ fuel ih =>
    simp only [Transition.loop] at h
    split at h
    · injection h with h; injection h with _ h; subst h; rfl
    · split at h
      · exact ih _ h
      · split at h
        · cases h
        · rw [ih _ h]
          split
          · exact ComputedStyle.get_insert_other _ _ fun hx => hd (by rw [hx])
          · rfl

theorem play_other {fuel : Nat} {time : Rat} {t t' : Transition} {a b : ComputedStyle} (h : t.play fuel time a = .ok (t', b)) {d : Descriptor} (hd : t.key ≠ some d.key) :
    b.get d = a.get d := by
  unfold Transition.play at h
  split at h
  · injection h with h; injection h with _ h; subst h; rfl
  · rename_i key hk
    split at h
    · cases h
    · injection h with h; injection h with _ h; subst h; rfl
    · exact loop_other _ _ h fun he => hd (by rw [hk, he])

theorem playTransitions_other {fuel : Nat} {time : Rat} (l : List Transition) {l' : List Transition} {a b : ComputedStyle}
    (h : playTransitions fuel time l a = .ok (l', b)) {d : Descriptor} (hd : ∀ t ∈ l, t.key ≠ some d.key) : b.get d = a.get d := by
  induction l generalizing a l' with
  | nil => simp only [playTransitions, Except.ok.injEq, Prod.mk.injEq] at h; rw [h.2]
  | cons t l ih =>
    simp only [playTransitions] at h
    split at h
    · cases h
    · rename_i t1 s1 h1
      split at h
      · cases h
      · rename_i l1 s2 h2
        simp only [Except.ok.injEq, Prod.mk.injEq] at h
        obtain ⟨-, rfl⟩ := h
        rw [ih h2 fun x hx => hd x (by simp [hx]), play_other h1 (hd t (by simp))]

/-- **C81 (part).** After any run of a program, the properties of a displayed element are as its animations say: each of them as
its keyframes say at the progress that belongs to the time it has been playing, nothing before its delay has passed,
one after the other, beginning with what the stylesheet says. Missing: properties with a transition (for these see C83),
and what C77 leaves out. -/
theorem C81_look_partial {document : Html} {css : Css} {fuel : Nat} {a : App} {fs : List Frame} {last : Frame} {v : View} {a' : App} {n : NodeId} {e : Element}
    (h : Animated p document css fuel a fs last v a' n e) {vars : Variables} (hvars : ∀ name l, vars name = some l ↔ css.Gives v.stage.tree v.body name l n)
    {d : Descriptor} (hd : ∀ t ∈ e.transitions, t.key ≠ some d.key) {val : ComputedValue}
    (hval : css.Animates vars (fun i => a.playing p fuel n i (fs ++ [last])) 0 e.animators (css.Says v.stage.tree v.body n) d val) : ShowsAt v last a' n d val := by
  obtain ⟨env, t, q, parent, parent', vars0, layout, l, e1, vars', rules, declared, animators, animated, transitions, final, e2, st, ht, hor, han, -, hsing, hsays, hgives, hlay, hq, hpe,
    hpp, he2, hee⟩ := h.steps
  have hfair : env.order.Fair := by rw [hor]; exact h.fair
  have : vars = vars' := by
    funext name
    apply Option.ext
    intro l
    rw [hvars name l, hgives name l]
  subst this
  have hf : final.get d = some val := by
    rw [playTransitions_other _ st.hTransitions hd]
    refine (playAnimators_animates hfair han e.animators (fun j x an hj hk => ?_) st.hAnimators hsays d val).2 hval
    obtain ⟨h1, h2, -⟩ := h.animations x (List.mem_of_getElem? hj) an hk
    exact ⟨h1, h2, by rw [ht, Nat.zero_add]; exact h.clock hj hk⟩
  refine ⟨q, parent', e2, hq, hpe, he2, fun ha => ?_⟩
  rw [sizesAt_styled hpp] at ha ⊢
  rw [hee.read, hlay]
  exact st.shows hfair hsing hf ha

end Verif
