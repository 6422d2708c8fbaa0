import Verif.Spec.Frame
import Verif.View.StyledAt
import Verif.View.StyleFinal
import Verif.View.Classify
import Verif.Props.Animation
/-!
# Every step of a tame frame comes to an end
-/
namespace Verif

/-- Variables ordered by a rank. -/
def RankedVars (rank : String → Nat) (vars : Variables) : Prop :=
  ∀ name l, vars name = some l → ∀ m, Mentions m l → rank m < rank name

theorem computeValues_settles {rank : String → Nat} {vars : Variables} (hv : RankedVars rank vars) (key : PropertyKey) (values : List Shorthand) :
    ∀ (index : Nat) (style : ComputedStyle), ∃ r F, ∀ fuel ≥ F, computeValues vars fuel key index values style = some r := by
  induction values with
  | nil => intro _ style; exact ⟨style, 0, fun _ _ => rfl⟩
  | cons a values ih =>
    intro index style
    obtain ⟨vs, hvs⟩ := acyclic_computes hv a
    obtain ⟨f2, h2⟩ := computeShorthand_complete hvs
    obtain ⟨r, f1, h1⟩ := ih (index + 1) (overwrites index (expand key vs) style)
    refine ⟨r, max f1 f2, fun fuel hf => ?_⟩
    simp only [computeValues, computeStyle]
    rw [computeShorthand_mono (le_trans (le_max_right _ _) hf) h2]
    exact h1 fuel (le_trans (le_max_left _ _) hf)

theorem computeBlock_settles {rank : String → Nat} (block : List Declaration) (hb : ∀ x ∈ block, x.Ranked rank) :
    ∀ {vars : Variables} (_ : RankedVars rank vars) (style : ComputedStyle),
      ∃ vars' r F, RankedVars rank vars' ∧ ∀ fuel ≥ F, computeBlock fuel block vars style = some (vars', r) := by
  induction block with
  | nil => intro vars hv style; exact ⟨vars, style, 0, hv, fun _ _ => rfl⟩
  | cons x block ih =>
    intro vars hv style
    have ih := fun {vars : Variables} => ih (fun y hy => hb y (List.mem_cons_of_mem _ hy)) (vars := vars)
    cases x with
    | «variable» name l =>
      have hl : ∀ m, Mentions m l → rank m < rank name := hb _ List.mem_cons_self
      exact ih (vars := vars.set name l) (by
        intro k l' hk m hm
        unfold SMap.set at hk
        split at hk
        · rename_i hkn
          injection hk with hk; subst hk; subst hkn
          exact hl m hm
        · exact hv k l' hk m hm) style
    | property key values =>
      obtain ⟨r1, f1, h1⟩ := computeValues_settles hv key values 0 style
      obtain ⟨vars', r, f2, h2, h3⟩ := ih hv r1
      refine ⟨vars', r, max f1 f2, h2, fun fuel hf => ?_⟩
      simp only [computeBlock]
      rw [h1 fuel (le_trans (le_max_left _ _) hf)]
      exact h3 fuel (le_trans (le_max_right _ _) hf)

theorem keyframeStyle_settles {rank : String → Nat} {vars : Variables} (hv : RankedVars rank vars) (block : List Declaration) :
    ∀ style, ∃ r F, ∀ fuel ≥ F, keyframeStyle vars fuel block style = some r := by
  induction block with
  | nil => intro style; exact ⟨style, 0, fun _ _ => rfl⟩
  | cons x block ih =>
    intro style
    cases x with
    | «variable» name l => exact ih style
    | property key values =>
      obtain ⟨r1, f1, h1⟩ := computeValues_settles hv key values 0 style
      obtain ⟨r, f2, h3⟩ := ih r1
      refine ⟨r, max f1 f2, fun fuel hf => ?_⟩
      simp only [keyframeStyle]
      rw [h1 fuel (le_trans (le_max_left _ _) hf)]
      exact h3 fuel (le_trans (le_max_right _ _) hf)

theorem keyframeStyles_settles {rank : String → Nat} {vars : Variables} (hv : RankedVars rank vars) (ks : List Keyframe) :
    ∀ styles animated, ∃ r F, ∀ fuel ≥ F, keyframeStyles vars fuel ks styles animated = some r := by
  induction ks with
  | nil => intro styles animated; exact ⟨_, 0, fun _ _ => rfl⟩
  | cons k ks ih =>
    intro styles animated
    obtain ⟨r1, f1, h1⟩ := keyframeStyle_settles hv k.declaration []
    obtain ⟨r, f2, h3⟩ := ih (insertStep k.step r1 styles) (animated ++ r1.map (·.1))
    refine ⟨r, max f1 f2, fun fuel hf => ?_⟩
    simp only [keyframeStyles]
    rw [h1 fuel (le_trans (le_max_left _ _) hf)]
    exact h3 fuel (le_trans (le_max_right _ _) hf)

/-- A track that has a value at both ends. -/
def Track.Whole (t : Track) : Prop :=
  t.frames.Pairwise (fun a b => a.1 < b.1) ∧ (∃ v, stepAt t.frames 0 = some v) ∧ ∃ v, stepAt t.frames 100 = some v

theorem computeTracks_settles {rank : String → Nat} {vars : Variables} (hv : RankedVars rank vars) (animation : Animation) (style : ComputedStyle) :
    ∃ tracks F, (∀ t ∈ tracks, t.Whole) ∧ ∀ fuel ≥ F, computeTracks vars fuel animation style = some tracks := by
  obtain ⟨r, F, h⟩ := keyframeStyles_settles hv animation.keyframes [] []
  have each : ∀ ks : List Keyframe, ∃ G, ∀ k ∈ ks, ∃ st, ∀ fuel ≥ G, keyframeStyle vars fuel k.declaration [] = some st := by
    intro ks
    induction ks with
    | nil => exact ⟨0, by simp⟩
    | cons k ks ih =>
      obtain ⟨G, hG⟩ := ih
      obtain ⟨st, F1, h1⟩ := keyframeStyle_settles hv k.declaration []
      refine ⟨max F1 G, fun x hx => ?_⟩
      rcases List.mem_cons.1 hx with rfl | hx
      · exact ⟨st, fun fuel hf => h1 fuel (le_trans (le_max_left _ _) hf)⟩
      · obtain ⟨st, h2⟩ := hG x hx
        exact ⟨st, fun fuel hf => h2 fuel (le_trans (le_max_right _ _) hf)⟩
  obtain ⟨G, hG⟩ := each animation.keyframes
  have htr : ∃ tracks, ∀ fuel ≥ F, computeTracks vars fuel animation style = some tracks := by
    have e : ∀ fuel ≥ F, computeTracks vars fuel animation style = computeTracks vars F animation style := by
      intro fuel hf
      unfold computeTracks
      rw [h fuel hf, h F le_rfl]
    cases hF : computeTracks vars F animation style with
    | none => unfold computeTracks at hF; rw [h F le_rfl] at hF; cases hF
    | some tracks => exact ⟨tracks, fun fuel hf => (e fuel hf).trans hF⟩
  obtain ⟨tracks, ht⟩ := htr
  refine ⟨tracks, F, ?_, ht⟩
  have hst : ∀ k ∈ animation.keyframes, keyframeStyle vars (max F G) k.declaration [] = some ((keyframeStyle vars (max F G) k.declaration []).getD []) := by
    intro k hk
    obtain ⟨st, h2⟩ := hG k hk
    rw [h2 _ (le_max_right _ _)]; rfl
  obtain ⟨-, c2, c3⟩ := computeTracks_spec (styleOf := fun k => (keyframeStyle vars (max F G) k.declaration []).getD []) hst (ht (max F G) (le_max_left _ _))
  intro t htm
  obtain ⟨d1, d2⟩ := c3 t htm
  refine ⟨d1, ?_, ?_⟩
  · rw [d2 0]; unfold keyframeValue; split
    · exact ⟨_, rfl⟩
    · exact ⟨_, if_pos (.inl rfl)⟩
  · rw [d2 100]; unfold keyframeValue; split
    · exact ⟨_, rfl⟩
    · exact ⟨_, if_pos (.inr rfl)⟩

theorem wrapTime_le {d : Rat} (fuel : Nat) {t r : Rat} (h : wrapTime d fuel t = .ok r) : r ≤ d := by
  induction fuel generalizing t with
  | zero => cases h
  | succ fuel ih =>
    rw [wrapTime] at h
    split at h
    · exact ih h
    · rename_i hle
      injection h with h; subst h; exact not_lt.1 hle

/-- The progress of an animation of positive duration is a number up to 1. -/
theorem update_settles {a : Animator} (hd : 0 < a.duration) (time : Rat) :
    ∃ b p F, (∀ q, p = some q → ∃ x, q = .value x ∧ x ≤ 1) ∧ ∀ fuel ≥ F, a.update fuel time = .ok (b, p) := by
  obtain ⟨n, r, hr⟩ := wrapTime_total hd (playedTime a (clockAfter a time - a.delay))
  have hfix : ∀ fuel ≥ n, a.update fuel time = a.update n time := fun fuel hf => by
    rw [update_eq, update_eq, wrapTime_mono hf hr, hr]
  cases hu : a.update n time with
  | error e =>
    rw [update_eq, hr] at hu
    split at hu <;> cases hu
  | ok x =>
    obtain ⟨b, p⟩ := x
    refine ⟨b, p, n, ?_, fun fuel hf => (hfix fuel hf).trans hu⟩
    intro q hq
    obtain ⟨-, hc⟩ := update_cases hu
    rcases hc with ⟨-, h2⟩ | ⟨-, r', hw, h2⟩
    · rw [h2] at hq; cases hq
    · rw [h2, if_neg hd.ne'] at hq
      injection hq with hq
      exact ⟨_, hq.symm, (div_le_one hd).2 (wrapTime_le _ hw)⟩

theorem playTracks_total {step : Nat} (hs : step ≤ 100) (tracks : List Track) (h : ∀ t ∈ tracks, t.Whole) (style : ComputedStyle) :
    ∃ r, playTracks step tracks style = .ok r := by
  induction tracks generalizing style with
  | nil => exact ⟨style, rfl⟩
  | cons t tracks ih =>
    obtain ⟨w1, w2, w3⟩ := h t List.mem_cons_self
    obtain ⟨s1, s2⟩ := trackValue_spec w1 w2 w3 hs
    have : ∃ v, trackValue t.frames step = .ok v := by
      cases hv : stepAt t.frames step with
      | some v => exact ⟨v, s1 v hv⟩
      | none => obtain ⟨_, _, _, _, _, _, _, _, _, hh⟩ := s2 hv; exact ⟨_, hh⟩
    obtain ⟨v, hv⟩ := this
    simp only [playTracks, hv]
    exact ih (fun t' ht' => h t' (List.mem_cons_of_mem _ ht')) _

theorem play_settles {a : Animator} (hd : 0 < a.duration) (time : Rat) {tracks : List Track} (ht : ∀ t ∈ tracks, t.Whole) (style : ComputedStyle) :
    ∃ r F, ∀ fuel ≥ F, a.play fuel time tracks style = .ok r := by
  obtain ⟨b, p, F, hp, hu⟩ := update_settles hd time
  cases p with
  | none => exact ⟨(b, style), F, fun fuel hf => by simp only [Animator.play, hu fuel hf]⟩
  | some q =>
    obtain ⟨x, rfl, hx⟩ := hp q rfl
    have hstep : stepOf (.value x) ≤ 100 := by
      have : (x * 100).floor ≤ 100 := by
        have h1 : x * 100 ≤ 100 := by linarith
        have h2 : ((x * 100).floor : Rat) ≤ 100 := le_trans (Rat.floor_le _) h1
        exact_mod_cast h2
      simp only [stepOf]
      omega
    obtain ⟨r, hr⟩ := playTracks_total hstep tracks ht style
    exact ⟨(b, r), F, fun fuel hf => by simp only [Animator.play, hu fuel hf, hr]⟩

theorem playAnimators_settles {env : FrameEnv} (hf : env.order.Fair) (n : NodeId) {rank : String → Nat} {vars : Variables} (hv : RankedVars rank vars) (l : List Animator)
    (hd : ∀ a ∈ l, (env.animations a.name).isSome → 0 < a.duration) :
    ∀ (i : Nat) (style : ComputedStyle), ∃ r F, ∀ fuel ≥ F, playAnimators (env.bounded fuel) n vars i l style = .ok r := by
  induction l with
  | nil => intro i style; exact ⟨_, 0, fun _ _ => rfl⟩
  | cons a l ih =>
    intro i style
    have ih := ih (fun b hb => hd b (List.mem_cons_of_mem _ hb))
    cases han : env.animations a.name with
    | none =>
      obtain ⟨r, F, h⟩ := ih (i + 1) style
      refine ⟨(a :: r.1, r.2), F, fun fuel hfu => ?_⟩
      simp only [playAnimators]
      rw [show (env.bounded fuel).animations a.name = none from han]
      simp only [h fuel hfu]
    | some animation =>
      have hda := hd a List.mem_cons_self (by rw [han]; rfl)
      obtain ⟨tracks, F1, hw, h1⟩ := computeTracks_settles hv animation style
      obtain ⟨r2, F2, h2⟩ := play_settles hda env.time (tracks := env.order.tracks n i tracks) (fun t ht => hw t ((hf.tracks n i tracks).mem_iff.1 ht)) style
      obtain ⟨r, F3, h3⟩ := ih (i + 1) r2.2
      refine ⟨(r2.1 :: r.1, r.2), max F1 (max F2 F3), fun fuel hfu => ?_⟩
      have q1 : F1 ≤ fuel := by omega
      have q2 : F2 ≤ fuel := by omega
      have q3 : F3 ≤ fuel := by omega
      simp only [playAnimators]
      rw [show (env.bounded fuel).animations a.name = some animation from han]
      simp only [show (env.bounded fuel).fuel = fuel from rfl, h1 fuel q1, show (env.bounded fuel).order = env.order from rfl, show (env.bounded fuel).time = env.time from rfl,
        h2 fuel q2, h3 fuel q3]

theorem loop_settles {key : PropertyKey} {x : Rat} (m : Nat) {n index : Nat} (hm : n = index + m) {t : Transition}
    (hr : t.range.isSome) {style : ComputedStyle} (hn : style.get ⟨key, n⟩ = none) :
    ∃ r, ∀ fuel > m, Transition.loop key (.value x) fuel index t style = .ok r := by
  induction m generalizing index t style with
  | zero =>
    refine ⟨(t, style), fun fuel hf => ?_⟩
    obtain ⟨f, rfl⟩ : ∃ f, fuel = f + 1 := ⟨fuel - 1, by omega⟩
    rw [Transition.loop, ← show n = index by omega, hn]
  | succ m ih =>
    cases hg : style.get ⟨key, index⟩ with
    | none =>
      refine ⟨(t, style), fun fuel hf => ?_⟩
      obtain ⟨f, rfl⟩ : ∃ f, fuel = f + 1 := ⟨fuel - 1, by omega⟩
      rw [Transition.loop, hg]
    | some value =>
      obtain ⟨⟨a, b⟩, hab⟩ := Option.isSome_iff_exists.1 hr
      obtain ⟨r, h⟩ := ih (index := index + 1) (by omega)
        (t := if b ≠ value then { t with range := some (animate a b x, value), animator := { t.animator with time := 0 } } else t)
        (by split
            · rfl
            · exact hr)
        (style := if animate a b x ≠ value then style.insert ⟨key, index⟩ (animate a b x) else style)
        (by split
            · rw [ComputedStyle.get_insert_other _ _ (by intro h; injection h; omega)]; exact hn
            · exact hn)
      refine ⟨r, fun fuel hf => ?_⟩
      obtain ⟨f, rfl⟩ : ∃ f, fuel = f + 1 := ⟨fuel - 1, by omega⟩
      rw [Transition.loop, hg]
      simp only [hab, animateAt]
      exact h f (by omega)

theorem transition_settles {t : Transition} (time : Rat) {style : ComputedStyle}
    (h : ∀ key, t.key = some key → 0 < t.animator.duration ∧ (t.range.isSome ∨ style.get ⟨key, 0⟩ = none)) :
    ∃ r F, ∀ fuel ≥ F, t.play fuel time style = .ok r := by
  cases hk : t.key with
  | none => exact ⟨(t, style), 0, fun fuel _ => by simp only [Transition.play, hk]⟩
  | some key =>
    obtain ⟨hd, hr⟩ := h key hk
    obtain ⟨b, p, F, hp, hu⟩ := update_settles hd time
    cases p with
    | none => exact ⟨_, F, fun fuel hf => by simp only [Transition.play, hk, hu fuel hf]; rfl⟩
    | some q =>
      obtain ⟨x, rfl, -⟩ := hp q rfl
      have : ∃ r m, ∀ fuel > m, Transition.loop key (.value x) fuel 0 { t with animator := b } style = .ok r := by
        rcases hr with hr | hr
        · obtain ⟨m, hm⟩ := get_none_exists style key
          obtain ⟨r, h⟩ := loop_settles (x := x) (index := 0) (t := { t with animator := b }) m (by omega) hr hm
          exact ⟨r, m, h⟩
        · refine ⟨({ t with animator := b }, style), 0, fun fuel hf => ?_⟩
          obtain ⟨f, rfl⟩ : ∃ f, fuel = f + 1 := ⟨fuel - 1, by omega⟩
          rw [Transition.loop, hr]
      obtain ⟨r, m, hm⟩ := this
      refine ⟨r, max F (m + 1), fun fuel hf => ?_⟩
      have := hm fuel (by omega)
      simp only [Transition.play, hk, hu fuel (by omega)]
      rw [hk] at this
      exact this

theorem playTransitions_settles (time : Rat) (l : List Transition) :
    ∀ {style : ComputedStyle} (_ : ∀ t ∈ l, ∀ key, t.key = some key → 0 < t.animator.duration ∧ (t.range.isSome ∨ style.get ⟨key, 0⟩ = none)),
      ∃ r F, ∀ fuel ≥ F, playTransitions fuel time l style = .ok r := by
  induction l with
  | nil => intro style _; exact ⟨_, 0, fun _ _ => rfl⟩
  | cons t l ih =>
    intro style h
    obtain ⟨r1, F1, h1⟩ := transition_settles time (h t List.mem_cons_self)
    have hdom : ∀ d v, r1.2.get d = some v → ∃ w, style.get d = some w := by
      have := playTransitions_domain [t] (fuel := F1) (time := time) (a := style) (l' := [r1.1]) (b := r1.2)
        (by simp only [playTransitions, h1 F1 le_rfl])
      exact this
    obtain ⟨r2, F2, h2⟩ := ih (style := r1.2) (fun t' ht' key hk => by
      obtain ⟨a, b⟩ := h t' (List.mem_cons_of_mem _ ht') key hk
      refine ⟨a, b.imp id fun hb => ?_⟩
      cases hc : r1.2.get ⟨key, 0⟩ with
      | none => rfl
      | some v => obtain ⟨w, hw⟩ := hdom _ _ hc; rw [hb] at hw; cases hw)
    refine ⟨(r1.1 :: r2.1, r2.2), max F1 F2, fun fuel hf => ?_⟩
    simp only [playTransitions, h1 fuel (le_trans (le_max_left _ _) hf), h2 fuel (le_trans (le_max_right _ _) hf)]

end Verif
