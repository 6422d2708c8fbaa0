import Verif.View.Calm
/-!
# Animations and transitions that are ready (lemmas for C74)
-/
namespace Verif

/-! ### Which declarations are motionless -/

/-- Keys that are not those of motion (so that `split` sees the list). -/
def StillKeys (l : List (PropertyKey × ComputedValue)) : Prop := ∀ x ∈ l, x.1 ∉ motionProperties

theorem boxValues_still {a b c d : PropertyKey} (ha : a ∉ motionProperties) (hb : b ∉ motionProperties) (hc : c ∉ motionProperties) (hd : d ∉ motionProperties)
    (vs : List ComputedValue) : StillKeys (boxValues a b c d vs) := by
  unfold boxValues
  split <;> intro x hx <;> simp only [List.mem_cons, List.not_mem_nil, or_false] at hx
  all_goals rcases hx with rfl | rfl | rfl | rfl <;> assumption

theorem plainValue_still {key : PropertyKey} (h : key ∉ motionProperties) (vs : List ComputedValue) : StillKeys (plainValue key vs) := by
  unfold plainValue
  split <;> intro x hx <;> simp only [List.mem_cons, List.not_mem_nil, or_false] at hx
  subst hx; exact h

theorem sideValues_still {key a b : PropertyKey} (h : key ∉ motionProperties) (ha : a ∉ motionProperties) (hb : b ∉ motionProperties)
    (vs : List ComputedValue) : StillKeys (sideValues key a b vs) := by
  unfold sideValues
  split
  · intro x hx
    simp only [List.mem_cons, List.not_mem_nil, or_false] at hx
    rcases hx with rfl | rfl <;> assumption
  · exact plainValue_still h _

theorem borderValues_still (w c : ComputedValue) : StillKeys (borderValues w c) := by
  intro x hx
  simp only [borderValues, List.mem_cons, List.not_mem_nil, or_false] at hx
  rcases hx with rfl | rfl | rfl | rfl | rfl | rfl | rfl | rfl <;> (dsimp only; decide)

theorem twoKeys_still {a b : PropertyKey} (ha : a ∉ motionProperties) (hb : b ∉ motionProperties) (v w : ComputedValue) : StillKeys [(a, v), (b, w)] := by
  intro x hx
  simp only [List.mem_cons, List.not_mem_nil, or_false] at hx
  rcases hx with rfl | rfl <;> assumption

theorem noKeys_still : StillKeys [] := by intro x hx; cases hx

theorem expand_still {key : PropertyKey} (h : key ∉ motionProperties) (vs : List ComputedValue) : StillKeys (expand key vs) := by
  unfold expand
  refine iteInduction (motive := StillKeys) (fun _ => ?_) (fun _ => ?_)
  · split <;> [exact twoKeys_still (by decide) (by decide) _ _; exact noKeys_still]
  refine iteInduction (motive := StillKeys) (fun _ => ?_) (fun _ => ?_)
  · split <;> first | exact twoKeys_still (by decide) (by decide) _ _ | exact noKeys_still
  refine iteInduction (motive := StillKeys) (fun _ => ?_) (fun _ => ?_)
  · split
    · split <;> [exact borderValues_still _ _; exact noKeys_still]
    · exact borderValues_still _ _
    · exact plainValue_still h _
  refine iteInduction (motive := StillKeys) (fun _ => ?_) (fun _ => ?_)
  · exact sideValues_still h (by decide) (by decide) _
  refine iteInduction (motive := StillKeys) (fun _ => ?_) (fun _ => ?_)
  · exact sideValues_still h (by decide) (by decide) _
  refine iteInduction (motive := StillKeys) (fun _ => ?_) (fun _ => ?_)
  · exact sideValues_still h (by decide) (by decide) _
  refine iteInduction (motive := StillKeys) (fun _ => ?_) (fun _ => ?_)
  · exact sideValues_still h (by decide) (by decide) _
  refine iteInduction (motive := StillKeys) (fun _ => ?_) (fun _ => ?_)
  · exact boxValues_still (by decide) (by decide) (by decide) (by decide) _
  refine iteInduction (motive := StillKeys) (fun _ => ?_) (fun _ => ?_)
  · exact boxValues_still (by decide) (by decide) (by decide) (by decide) _
  refine iteInduction (motive := StillKeys) (fun _ => ?_) (fun _ => ?_)
  · exact boxValues_still (by decide) (by decide) (by decide) (by decide) _
  refine iteInduction (motive := StillKeys) (fun _ => ?_) (fun _ => ?_)
  · split <;> first | exact twoKeys_still (by decide) (by decide) _ _ | exact noKeys_still
  refine iteInduction (motive := StillKeys) (fun _ => ?_) (fun _ => ?_)
  · split <;> first | exact noKeys_still | skip
    all_goals
      intro x hx
      simp only [List.mem_cons, List.not_mem_nil, or_false] at hx
      rcases hx with rfl | rfl | rfl | rfl <;> (dsimp only; decide)
  refine iteInduction (motive := StillKeys) (fun _ => ?_) (fun _ => ?_)
  · split <;> first | exact twoKeys_still (by decide) (by decide) _ _ | exact noKeys_still
  refine iteInduction (motive := StillKeys) (fun _ => ?_) (fun _ => ?_)
  · exact boxValues_still (by decide) (by decide) (by decide) (by decide) _
  refine iteInduction (motive := StillKeys) (fun _ => ?_) (fun _ => ?_)
  · exact boxValues_still (by decide) (by decide) (by decide) (by decide) _
  refine iteInduction (motive := StillKeys) (fun hk => ?_) (fun _ => ?_)
  · exact absurd (by rw [hk]; decide) h
  refine iteInduction (motive := StillKeys) (fun hk => ?_) (fun _ => ?_)
  · exact absurd (by rw [hk]; decide) h
  · exact plainValue_still h _


theorem Declaration.Still.sets {x : Declaration} (h : x.Still) {vars : Variables} {d : Descriptor} {v : ComputedValue} (hs : x.Sets vars d v) : d.key ∉ motionProperties := by
  obtain ⟨k, values, shorthand, vs, rfl, -, -, hm⟩ := hs
  exact expand_still h vs _ hm

/-! ### What the motion properties are set to -/

theorem computes_explicit {vars : Variables} (us : List ComputedValue) : Computes vars (us.map .explicit) us := by
  induction us with
  | nil => exact .nil
  | cons u us ih => exact .explicit ih

theorem computes_explicit_eq {vars : Variables} {us vs : List ComputedValue} (h : Computes vars (us.map .explicit) vs) : vs = us := by
  induction us generalizing vs with
  | nil => cases h; rfl
  | cons u us ih =>
    cases h with
    | explicit h => rw [ih h]

theorem expand_plain {key : PropertyKey} (h : key ∉ compositeProperties) (vs : List ComputedValue) : expand key vs = plainValue key vs := by
  simp only [compositeProperties, List.mem_cons, List.not_mem_nil, or_false, not_or] at h
  obtain ⟨h1, h2, h3, h4, h5, h6, h7, h8, h9, h10, h11, h12, h13, h14, h15, h16, h17⟩ := h
  unfold expand
  rw [if_neg h1, if_neg h2, if_neg h3, if_neg h4, if_neg h5, if_neg h6, if_neg h7, if_neg h8, if_neg h9, if_neg h10, if_neg h11, if_neg h12,
    if_neg h13, if_neg h14, if_neg h15, if_neg h16, if_neg h17]

theorem expand_animation (vs : List ComputedValue) {k : PropertyKey} {v : ComputedValue} (h : (k, v) ∈ expand .Animation vs) :
    k = .Animation ∨ k ∉ [.TransitionProperty, .TransitionDuration, .Transition] ∧
      (∃ w, vs.head? = some w ∧ (.AnimationDuration, w) ∈ expand .Animation vs) ∧ (k = .AnimationDuration → vs.head? = some v) := by
  have e : expand .Animation vs = match (generalizing := false) vs with
    | [duration, timing, .time delay, name] =>
      [(.AnimationDelay, .time delay), (.AnimationDuration, duration), (.AnimationName, name), (.AnimationTimingFunction, timing)]
    | [duration, timing, iterations, name] =>
      [(.AnimationDuration, duration), (.AnimationIterationCount, iterations), (.AnimationName, name), (.AnimationTimingFunction, timing)]
    | [duration, timing, name] => [(.AnimationDuration, duration), (.AnimationName, name), (.AnimationTimingFunction, timing)]
    | [duration, name] => [(.AnimationDuration, duration), (.AnimationName, name)]
    | vs => plainValue .Animation vs := rfl
  rw [e] at h ⊢
  split at h
  all_goals (try simp only [List.mem_cons, List.not_mem_nil, or_false, Prod.mk.injEq] at h)
  · rcases h with ⟨rfl, rfl⟩ | ⟨rfl, rfl⟩ | ⟨rfl, rfl⟩ | ⟨rfl, rfl⟩ <;> exact .inr ⟨by decide, ⟨_, rfl, by simp⟩, by simp⟩
  · rename_i d t it n hne
    rcases h with ⟨rfl, rfl⟩ | ⟨rfl, rfl⟩ | ⟨rfl, rfl⟩ | ⟨rfl, rfl⟩ <;> exact .inr ⟨by decide, ⟨_, rfl, by simp⟩, by simp⟩
  · rcases h with ⟨rfl, rfl⟩ | ⟨rfl, rfl⟩ | ⟨rfl, rfl⟩ <;> exact .inr ⟨by decide, ⟨_, rfl, by simp⟩, by simp⟩
  · rcases h with ⟨rfl, rfl⟩ | ⟨rfl, rfl⟩ <;> exact .inr ⟨by decide, ⟨_, rfl, by simp⟩, by simp⟩
  · left
    unfold plainValue at h
    split at h
    · simp only [List.mem_cons, List.not_mem_nil, or_false, Prod.mk.injEq] at h; exact h.1
    · cases h

theorem expand_transition (vs : List ComputedValue) {k : PropertyKey} {v : ComputedValue} (h : (k, v) ∈ expand .Transition vs) :
    k = .Transition ∨ k ∉ [.AnimationName, .AnimationDuration, .Animation] ∧
      (∃ p w, vs.head? = some p ∧ vs[1]? = some w ∧ (.TransitionDuration, w) ∈ expand .Transition vs) ∧ (k = .TransitionDuration → vs[1]? = some v) ∧
      (k = .TransitionProperty → vs.head? = some v) := by
  have e : expand .Transition vs = match (generalizing := false) vs with
    | [property, duration] => [(.TransitionProperty, property), (.TransitionDuration, duration)]
    | [property, duration, timing] =>
      [(.TransitionProperty, property), (.TransitionDuration, duration), (.TransitionTimingFunction, timing)]
    | [property, duration, timing, delay] =>
      [(.TransitionProperty, property), (.TransitionDuration, duration), (.TransitionTimingFunction, timing),
       (.TransitionDelay, delay)]
    | vs => plainValue .Transition vs := rfl
  rw [e] at h ⊢
  split at h
  all_goals (try simp only [List.mem_cons, List.not_mem_nil, or_false, Prod.mk.injEq] at h)
  · rcases h with ⟨rfl, rfl⟩ | ⟨rfl, rfl⟩ <;> exact .inr ⟨by decide, ⟨_, _, rfl, rfl, by simp⟩, by simp, by simp⟩
  · rcases h with ⟨rfl, rfl⟩ | ⟨rfl, rfl⟩ | ⟨rfl, rfl⟩ <;> exact .inr ⟨by decide, ⟨_, _, rfl, rfl, by simp⟩, by simp, by simp⟩
  · rcases h with ⟨rfl, rfl⟩ | ⟨rfl, rfl⟩ | ⟨rfl, rfl⟩ | ⟨rfl, rfl⟩ <;> exact .inr ⟨by decide, ⟨_, _, rfl, rfl, by simp⟩, by simp, by simp⟩
  · left
    unfold plainValue at h
    split at h
    · simp only [List.mem_cons, List.not_mem_nil, or_false, Prod.mk.injEq] at h; exact h.1
    · cases h

/-- Where a value of a motion property other than the two shorthands comes from. -/
theorem expand_motion {key k : PropertyKey} {vs : List ComputedValue} {v : ComputedValue} (h : (k, v) ∈ expand key vs) (hk : k ∈ motionProperties) :
    key = .Animation ∨ key = .Transition ∨ key = k ∧ vs = [v] := by
  by_cases h1 : key = .Animation
  · exact .inl h1
  by_cases h2 : key = .Transition
  · exact .inr (.inl h2)
  right; right
  have hm : key ∈ motionProperties := by
    by_contra hm
    exact expand_still hm vs _ h hk
  have hc : key ∉ compositeProperties := by
    simp only [motionProperties, List.mem_cons, List.not_mem_nil, or_false] at hm
    rcases hm with rfl | rfl | rfl | rfl | rfl | rfl | rfl | rfl | rfl | rfl | rfl | rfl | rfl | rfl <;>
      first | exact absurd rfl h1 | exact absurd rfl h2 | decide
  rw [expand_plain hc] at h
  unfold plainValue at h
  split at h
  · simp only [List.mem_cons, List.not_mem_nil, or_false, Prod.mk.injEq] at h
    obtain ⟨rfl, rfl⟩ := h
    exact ⟨rfl, rfl⟩
  · cases h

theorem applied_mem {checks : Bool} {pc : PseudoMatcher} {t : Tree} {n : NodeId} {l : List ElementStyle} {rules : List Style}
    (h : applied checks pc t n l = .ok rules) : ∀ s ∈ rules, ∃ r ∈ l, s = r.rule := by
  induction l generalizing rules with
  | nil => simp only [applied, Except.ok.injEq] at h; subst h; simp
  | cons x l ih =>
    cases x with
    | static s =>
      simp only [applied] at h
      split at h
      · cases h
      · rename_i r hr
        injection h with h; subst h
        intro s' hs'
        rcases List.mem_cons.1 hs' with rfl | hs'
        · exact ⟨_, List.mem_cons_self, rfl⟩
        · obtain ⟨r', h1, h2⟩ := ih hr s' hs'
          exact ⟨r', List.mem_cons_of_mem _ h1, h2⟩
    | dynamic s =>
      simp only [applied] at h
      split at h
      · cases h
      · split at h
        · cases h
        · rename_i r hr
          injection h with h; subst h
          intro s' hs'
          split at hs'
          · rcases List.mem_cons.1 hs' with rfl | hs'
            · exact ⟨_, List.mem_cons_self, rfl⟩
            · obtain ⟨r', h1, h2⟩ := ih hr s' hs'
              exact ⟨r', List.mem_cons_of_mem _ h1, h2⟩
          · obtain ⟨r', h1, h2⟩ := ih hr s' hs'
            exact ⟨r', List.mem_cons_of_mem _ h1, h2⟩

/-! ### Computed styles -/

/-- A computed style in which animations and transitions have durations and transitions something to begin with. -/
structure ReadyStyle (used : PropertyKey → Prop) (style : ComputedStyle) : Prop where
  animationTimes : ∀ i v, style.get ⟨.AnimationDuration, i⟩ = some v → ∃ d > 0, v = .time d
  animations : ∀ i v, style.get ⟨.AnimationName, i⟩ = some v → ∃ w, style.get ⟨.AnimationDuration, i⟩ = some w
  transitionTimes : ∀ i v, style.get ⟨.TransitionDuration, i⟩ = some v → ∃ d > 0, v = .time d
  transitions : ∀ i v, style.get ⟨.TransitionProperty, i⟩ = some v → ∃ w, style.get ⟨.TransitionDuration, i⟩ = some w
  begins : ∀ i name key, style.get ⟨.TransitionProperty, i⟩ = some (.keyword name) → PropertyKey.parse name = some key →
    key ∉ motionProperties ∧ (¬ used key ∨ ∃ w, style.get ⟨key, 0⟩ = some w)

theorem setsAt_present {fuel : Nat} {block : List Declaration} {vars vars' : Variables} {style : ComputedStyle}
    (h : computeBlock fuel block vars [] = some (vars', style)) {i : Nat} {d : Descriptor} {v : ComputedValue} (hs : SetsAt vars block i d v) :
    ∃ w, style.get d = some w := by
  have key : ∀ n i v, block.length ≤ i + n → SetsAt vars block i d v → ∃ w, style.get d = some w := by
    intro n
    induction n with
    | zero =>
      rintro i v hl ⟨x, hx, -⟩
      have := (List.getElem?_eq_some_iff.1 hx).1
      omega
    | succ n ih =>
      intro i v hl hs
      by_cases hlater : ∃ j w, i < j ∧ SetsAt vars block j d w
      · obtain ⟨j, w, hj, hw⟩ := hlater
        exact ih j w (by omega) hw
      · exact ⟨v, (computeBlock_get _ h d v).2 ⟨i, hs, fun j w hj hw => hlater ⟨j, w, hj, hw⟩⟩⟩
  exact key block.length i v (by omega) hs

/-- A declaration of a block that sets a property whatever the variables: the property has a value afterwards. -/
theorem always_present {fuel : Nat} {blocks : List (List Declaration)} {vars vars' : Variables} {style : ComputedStyle}
    (h : computeBlocks fuel blocks vars [] = some (vars', style)) {b : List Declaration} (hb : b ∈ blocks) {x : Declaration} (hx : x ∈ b) {d : Descriptor} {v : ComputedValue}
    (hs : ∀ vars, x.Sets vars d v) : ∃ w, style.get d = some w := by
  rw [computeBlocks_flatten] at h
  obtain ⟨i, hi⟩ := List.getElem?_of_mem (List.mem_flatten.2 ⟨b, hb, hx⟩)
  exact setsAt_present h (i := i) (v := v) ⟨x, hi, hs _⟩

theorem comes_from {fuel : Nat} {blocks : List (List Declaration)} {vars vars' : Variables} {style : ComputedStyle}
    (h : computeBlocks fuel blocks vars [] = some (vars', style)) {d : Descriptor} {v : ComputedValue} (hv : style.get d = some v) :
    ∃ b ∈ blocks, ∃ x ∈ b, ∃ vars, x.Sets vars d v := by
  rw [computeBlocks_flatten] at h
  obtain ⟨i, ⟨x, hx, hs⟩, -⟩ := (computeBlock_get _ h d v).1 hv
  obtain ⟨b, hb, hxb⟩ := List.mem_flatten.1 (List.mem_of_getElem? hx)
  exact ⟨b, hb, x, hxb, _, hs⟩

theorem sets_explicit {key k : PropertyKey} {values : List Shorthand} {i : Nat} {us : List ComputedValue} {v : ComputedValue}
    (hi : values[i]? = some (us.map .explicit)) (hm : (k, v) ∈ expand key us) (vars : Variables) : (Declaration.property key values).Sets vars ⟨k, i⟩ v :=
  ⟨key, values, _, us, rfl, hi, computes_explicit us, hm⟩

theorem time_present {key : PropertyKey} (hk : key ∉ compositeProperties) {times : List Shorthand} (ht : ∀ v ∈ times, ∃ d > 0, v = [.explicit (.time d)]) {i : Nat} (hi : i < times.length) :
    ∃ v, ∀ vars, (Declaration.property key times).Sets vars ⟨key, i⟩ v := by
  obtain ⟨d, hd, he⟩ := ht _ (List.getElem_mem hi)
  refine ⟨.time d, fun vars => sets_explicit (us := [.time d]) (by rw [List.getElem?_eq_getElem hi, he]; rfl) ?_ vars⟩
  rw [expand_plain hk]; simp [plainValue]

theorem ready_computed {used : PropertyKey → Prop} {rank : String → Nat} {fuel : Nat} {blocks : List (List Declaration)} {vars vars' : Variables} {style : ComputedStyle}
    (h : computeBlocks fuel blocks vars [] = some (vars', style)) (hb : ∀ b ∈ blocks, SmoothBlock used rank b) : ReadyStyle used style := by
  refine ⟨?_, ?_, ?_, ?_, ?_⟩
  · intro i v hv
    obtain ⟨b, hbm, x, hx, vars, key, values, sh, vs, rfl, hi, hc, hm⟩ := comes_from h hv
    obtain ⟨t1, t2, t3, t4⟩ := (hb b hbm).timed _ hx
    rcases expand_motion hm (by simp [motionProperties]) with rfl | rfl | ⟨rfl, rfl⟩
    · obtain ⟨d, hd, rest, rfl⟩ := t2 rfl sh (List.mem_of_getElem? hi)
      obtain rfl := computes_explicit_eq (us := .time d :: rest) hc
      rcases expand_animation _ hm with hk | ⟨-, -, hk⟩
      · cases hk
      · have := hk rfl
        simp only [List.head?_cons, Option.some.injEq] at this
        exact ⟨d, hd, this.symm⟩
    · rcases expand_transition _ hm with hk | ⟨hk, -⟩
      · cases hk
      · exact absurd (by simp) hk
    · obtain ⟨d, hd, rfl⟩ := t1 (.inl rfl) sh (List.mem_of_getElem? hi)
      have := computes_explicit_eq (us := [.time d]) hc
      simp only [List.cons.injEq, and_true] at this
      exact ⟨d, hd, this⟩
  · intro i v hv
    obtain ⟨b, hbm, x, hx, vars, key, values, sh, vs, rfl, hi, hc, hm⟩ := comes_from h hv
    obtain ⟨t1, t2, t3, t4⟩ := (hb b hbm).timed _ hx
    rcases expand_motion hm (by simp [motionProperties]) with rfl | rfl | ⟨rfl, rfl⟩
    · obtain ⟨d, hd, rest, rfl⟩ := t2 rfl sh (List.mem_of_getElem? hi)
      obtain rfl := computes_explicit_eq (us := .time d :: rest) hc
      rcases expand_animation _ hm with hk | ⟨-, ⟨w, -, hw⟩, -⟩
      · cases hk
      · exact always_present h hbm hx (sets_explicit (us := .time d :: rest) hi hw)
    · rcases expand_transition _ hm with hk | ⟨hk, -⟩
      · cases hk
      · exact absurd (by simp) hk
    · obtain ⟨times, ht, hl⟩ := (hb b hbm).animations _ hx
      have hlt : i < values.length := (List.getElem?_eq_some_iff.1 hi).1
      obtain ⟨w, hw⟩ := time_present (key := .AnimationDuration) (by decide) (((hb b hbm).timed _ ht).1 (.inl rfl)) (i := i) (by omega)
      exact always_present h hbm ht hw
  · intro i v hv
    obtain ⟨b, hbm, x, hx, vars, key, values, sh, vs, rfl, hi, hc, hm⟩ := comes_from h hv
    obtain ⟨t1, t2, t3, t4⟩ := (hb b hbm).timed _ hx
    rcases expand_motion hm (by simp [motionProperties]) with rfl | rfl | ⟨rfl, rfl⟩
    · rcases expand_animation _ hm with hk | ⟨hk, -⟩
      · cases hk
      · exact absurd (by simp) hk
    · obtain ⟨name, d, hd, rest, rfl⟩ := t4 rfl sh (List.mem_of_getElem? hi)
      obtain rfl := computes_explicit_eq (us := .keyword name :: .time d :: rest) hc
      rcases expand_transition _ hm with hk | ⟨-, -, hk, -⟩
      · cases hk
      · have := hk rfl
        simp only [List.getElem?_cons_succ, List.getElem?_cons_zero, Option.some.injEq] at this
        exact ⟨d, hd, this.symm⟩
    · obtain ⟨d, hd, rfl⟩ := t1 (.inr rfl) sh (List.mem_of_getElem? hi)
      have := computes_explicit_eq (us := [.time d]) hc
      simp only [List.cons.injEq, and_true] at this
      exact ⟨d, hd, this⟩
  · intro i v hv
    obtain ⟨b, hbm, x, hx, vars, key, values, sh, vs, rfl, hi, hc, hm⟩ := comes_from h hv
    obtain ⟨t1, t2, t3, t4⟩ := (hb b hbm).timed _ hx
    rcases expand_motion hm (by simp [motionProperties]) with rfl | rfl | ⟨rfl, rfl⟩
    · rcases expand_animation _ hm with hk | ⟨hk, -⟩
      · cases hk
      · exact absurd (by simp) hk
    · obtain ⟨name, d, hd, rest, rfl⟩ := t4 rfl sh (List.mem_of_getElem? hi)
      obtain rfl := computes_explicit_eq (us := .keyword name :: .time d :: rest) hc
      rcases expand_transition _ hm with hk | ⟨-, ⟨p, w, -, -, hw⟩, -⟩
      · cases hk
      · exact always_present h hbm hx (sets_explicit (us := .keyword name :: .time d :: rest) hi hw)
    · obtain ⟨times, ht, hl⟩ := (hb b hbm).transitions _ hx
      have hlt : i < values.length := (List.getElem?_eq_some_iff.1 hi).1
      obtain ⟨w, hw⟩ := time_present (key := .TransitionDuration) (by decide) (((hb b hbm).timed _ ht).1 (.inr rfl)) (i := i) (by omega)
      exact always_present h hbm ht hw
  · intro i name key hv hpar
    obtain ⟨b, hbm, x, hx, vars, key', values, sh, vs, rfl, hi, hc, hm⟩ := comes_from h hv
    obtain ⟨t1, t2, t3, t4⟩ := (hb b hbm).timed _ hx
    have hmem := List.mem_of_getElem? hi
    have hht : HasTransition b key := by
      rcases expand_motion hm (by simp [motionProperties]) with rfl | rfl | ⟨rfl, rfl⟩
      · rcases expand_animation _ hm with hk | ⟨hk, -⟩
        · cases hk
        · exact absurd (by simp) hk
      · obtain ⟨name', d, hd, rest, rfl⟩ := t4 rfl sh hmem
        obtain rfl := computes_explicit_eq (us := .keyword name' :: .time d :: rest) hc
        rcases expand_transition _ hm with hk | ⟨-, -, -, hk⟩
        · cases hk
        · have := hk rfl
          simp only [List.head?_cons, Option.some.injEq, ComputedValue.keyword.injEq] at this
          subst this
          exact ⟨_, _, _, _, _, hx, .inl rfl, hmem, rfl, hpar⟩
      · obtain ⟨name', rfl⟩ := t3 rfl sh hmem
        have := computes_explicit_eq (us := [.keyword name']) hc
        simp only [List.cons.injEq, and_true, ComputedValue.keyword.injEq] at this
        subst this
        exact ⟨_, _, _, _, _, hx, .inr rfl, hmem, rfl, hpar⟩
    obtain ⟨h1, h2⟩ := (hb b hbm).begins key hht
    refine ⟨h1, h2.imp id ?_⟩
    rintro ⟨hcomp, v, vals, hdecl⟩
    refine always_present h hbm hdecl (v := v) (sets_explicit (us := [v]) rfl ?_)
    rw [expand_plain hcomp]; simp [plainValue]

end Verif
