import Verif.View.Transitions
/-!
# C83: transitions of a program follow its clock
-/
namespace Verif

variable {p : Platform}

/-- The program after the updates `fs`: the transition is on its way from `x` to `y` for `T` seconds. -/
def OnWay (p : Platform) (fuel : Nat) (a : App) (fs : List Frame) (n : NodeId) (i : Nat) (x y : ComputedValue) (T : Rat) : Prop :=
  ∃ a1 outs t, a.run p fuel fs = .ok (a1, outs) ∧ a1.transition n i = some t ∧ t.range = some (x, y) ∧ t.animator.time = T ∧ 0 ≤ T

theorem Turns.step {document : Html} {css : Css} {fuel : Nat} {a : App} {fs : List Frame} {f : Frame} {n : NodeId} {i : Nat} {key : PropertyKey} {D : Rat} {told : ComputedValue}
    (h : Turns p document css fuel a fs f n i key D told) (ht : ∀ g ∈ fs ++ [f], 0 ≤ g.input.time) :
    ∃ x y T, OnWay p fuel a fs n i x y T ∧ ShownAfter p fuel a fs f n ⟨key, 0⟩ (animate x y (min (T + f.input.time) D / D)) ∧
      (y ≠ told → OnWay p fuel a (fs ++ [f]) n i (animate x y (min (T + f.input.time) D / D)) told 0) ∧
      (y = told → OnWay p fuel a (fs ++ [f]) n i x y (T + f.input.time)) := by
  obtain ⟨v, a', e, t, vars, hA, hi, hp, rfl, ho, hvars, hval, hone⟩ := h
  obtain ⟨fuel0, a1, outs, out, h1, h2, h3, h4⟩ := hA.program
  have hl := living_run fs (Living.opened h1) h2
  have hfw := forward_run fs (Living.opened h1) h2 (opened_forward h1) fun g hg => ht g (by simp [hg])
  obtain ⟨e0, k1, k2⟩ := (hl.rebound h3).back hA.there
  have htr : e.transitions = e0.transitions := by rw [k2]
  have hat : a1.transition n i = some t := by
    unfold App.transition
    rw [k1, Option.bind_some, ← htr, hi]
  have h0 : 0 ≤ t.animator.time := hfw n e0 k1 t (by rw [← htr]; exact List.mem_of_getElem? hi)
  have hft : 0 ≤ f.input.time := ht f (by simp)
  obtain ⟨x, y, t', hr, hat', hsh, hne, heq⟩ := hA.turns hi hp ho hvars hval hone (add_nonneg h0 hft)
  refine ⟨x, y, t.animator.time, ⟨a1, outs, t, h2, hat, hr, rfl, h0⟩, ⟨a1, outs, v, a', out, h2, h3, h4, hsh⟩, fun hn => ?_, fun he => ?_⟩
  · obtain ⟨r1, r2⟩ := hne hn
    exact ⟨a', _, t', run_snoc h2 h4, hat', r1, r2, le_rfl⟩
  · obtain ⟨r1, r2⟩ := heq he
    exact ⟨a', _, t', run_snoc h2 h4, hat', r1, r2, add_nonneg h0 hft⟩

theorem OnWay.unique {fuel : Nat} {a : App} {fs : List Frame} {n : NodeId} {i : Nat} {x y x' y' : ComputedValue} {T T' : Rat} (h : OnWay p fuel a fs n i x y T)
    (g : OnWay p fuel a fs n i x' y' T') : x = x' ∧ y = y' ∧ T = T' := by
  obtain ⟨a1, outs, t, h1, h2, h3, h4, -⟩ := h
  obtain ⟨a2, outs', t', g1, g2, g3, g4, -⟩ := g
  rw [h1] at g1
  simp only [Except.ok.injEq, Prod.mk.injEq] at g1
  obtain ⟨rfl, -⟩ := g1
  rw [h2] at g2; injection g2 with g2; subst g2
  rw [h3] at g3
  simp only [Option.some.injEq, Prod.mk.injEq] at g3
  exact ⟨g3.1, g3.2, h4.symm.trans g4⟩

/-- As long as the property is told the value the transition is on its way to. -/
theorem OnWay.steps {document : Html} {css : Css} {fuel : Nat} {a : App} {n : NodeId} {i : Nat} {key : PropertyKey} {D : Rat} {x told : ComputedValue} (gs : List Frame) :
    ∀ {fs : List Frame} {T : Rat}, OnWay p fuel a fs n i x told T → (∀ g ∈ fs ++ gs, 0 ≤ g.input.time) →
      (∀ pre f post, gs = pre ++ f :: post → Turns p document css fuel a (fs ++ pre) f n i key D told) →
      OnWay p fuel a (fs ++ gs) n i x told (T + timeOf gs) ∧
      ∀ pre f post, gs = pre ++ f :: post → ShownAfter p fuel a (fs ++ pre) f n ⟨key, 0⟩ (animate x told (min (T + timeOf (pre ++ [f])) D / D)) := by
  induction gs with
  | nil =>
    intro fs T h _ _
    refine ⟨by simpa [timeOf] using h, fun pre f post hx => ?_⟩
    simp at hx
  | cons g gs ih =>
    intro fs T h ht hT
    obtain ⟨x', y', T', w1, w2, -, w3⟩ := (by simpa using hT [] g gs rfl : Turns p document css fuel a fs g n i key D told).step
      fun f hf => ht f (by simp only [List.mem_append, List.mem_cons, List.not_mem_nil, or_false] at hf ⊢; tauto)
    obtain ⟨rfl, rfl, rfl⟩ := h.unique w1
    obtain ⟨r1, r2⟩ := ih (w3 rfl) (fun f hf => ht f (by simpa using hf)) fun pre f post hx => by
      have := hT (g :: pre) f post (by rw [hx]; rfl)
      simpa using this
    refine ⟨?_, fun pre f post hx => ?_⟩
    · have : T + timeOf (g :: gs) = T + g.input.time + timeOf gs := by simp [timeOf, add_assoc]
      rw [this]
      simpa using r1
    · cases pre with
      | nil =>
        simp only [List.nil_append, List.cons.injEq] at hx
        obtain ⟨rfl, -⟩ := hx
        simpa [timeOf] using w2
      | cons g' pre =>
        simp only [List.cons_append, List.cons.injEq] at hx
        obtain ⟨rfl, hx⟩ := hx
        have := r2 pre f post hx
        have e : T + timeOf (g :: pre ++ [f]) = T + g.input.time + timeOf (pre ++ [f]) := by simp [timeOf, add_assoc]
        rw [e]
        simpa using this

/-- **C83 (part).** In a program, the stylesheet and the animations give a property of a displayed element the value `v`, in an
update and the following ones (`first :: before`), and then the value `w`, in an update and the following ones (`change :: after`). The property has a
transition. In the update of the change, the element has a value `old`, which is `v` if the transition was through; and in each update
after it, the value on the way from `old` to `w` for the time passed since the change, as long as that is less than the
duration, and then `w`. Missing: as in C55, a delay, a duration of zero, properties with several values; and what C77
leaves out. -/
theorem C83_transition_partial {document : Html} {css : Css} {fuel : Nat} {a : App} {n : NodeId} {i : Nat} {key : PropertyKey} {D : Rat} {v w : ComputedValue} (hne : v ≠ w)
    {fs before after : List Frame} {first change : Frame} (htimes : ∀ f ∈ fs ++ first :: before ++ change :: after, 0 ≤ f.input.time)
    (hv : ∀ pre f post, first :: before = pre ++ f :: post → Turns p document css fuel a (fs ++ pre) f n i key D v)
    (hw : ∀ pre f post, change :: after = pre ++ f :: post → Turns p document css fuel a (fs ++ first :: before ++ pre) f n i key D w) :
    ∃ old, ShownAfter p fuel a (fs ++ first :: before) change n ⟨key, 0⟩ old ∧ (D ≤ timeOf (before ++ [change]) → old = v) ∧
      ∀ pre f post, after = pre ++ f :: post →
        (timeOf (pre ++ [f]) < D → ShownAfter p fuel a (fs ++ first :: before ++ change :: pre) f n ⟨key, 0⟩ (animate old w (timeOf (pre ++ [f]) / D))) ∧
        (D ≤ timeOf (pre ++ [f]) → ShownAfter p fuel a (fs ++ first :: before ++ change :: pre) f n ⟨key, 0⟩ w) := by
  have hv0 : Turns p document css fuel a fs first n i key D v := by simpa using hv [] first before rfl
  have hD : 0 < D := by
    obtain ⟨_, _, _, t, _, _, _, hp, rfl, -⟩ := hv0
    exact hp.2.2.2.2
  obtain ⟨x0, y0, T0, -, -, s1, s2⟩ := hv0.step fun f hf => htimes f (by simp only [List.mem_append, List.mem_cons, List.not_mem_nil, or_false] at hf ⊢; tauto)
  obtain ⟨x, T, hT0, hon⟩ : ∃ x T, 0 ≤ T ∧ OnWay p fuel a (fs ++ [first]) n i x v T := by
    by_cases hy : y0 = v
    · have := s2 hy
      subst hy
      obtain ⟨_, _, _, _, _, _, _, hT⟩ := id this
      exact ⟨_, _, hT, this⟩
    · exact ⟨_, _, le_rfl, s1 hy⟩
  obtain ⟨hon2, -⟩ := hon.steps (key := key) (D := D) before (fun f hf => htimes f (by simp only [List.mem_append, List.mem_cons, List.not_mem_nil, or_false] at hf ⊢; tauto))
    fun pre f post hx => by
      have := hv (first :: pre) f post (by rw [hx]; rfl)
      simpa using this
  have hon3 : OnWay p fuel a (fs ++ first :: before) n i x v (T + timeOf before) := by simpa using hon2
  have hw0 : Turns p document css fuel a (fs ++ first :: before) change n i key D w := by simpa using hw [] change after rfl
  obtain ⟨x', y', T', c1, c2, c3, -⟩ := hw0.step fun f hf => htimes f (by simp only [List.mem_append, List.mem_cons, List.not_mem_nil, or_false] at hf ⊢; tauto)
  obtain ⟨rfl, rfl, rfl⟩ := hon3.unique c1
  obtain ⟨-, r⟩ := (c3 hne).steps (key := key) (D := D) after (fun f hf => htimes f (by simpa using hf)) fun pre f post hx => by
    have := hw (change :: pre) f post (by rw [hx]; rfl)
    simpa using this
  refine ⟨_, c2, fun hle => ?_, fun pre f post hx => ?_⟩
  · have hsum : timeOf (before ++ [change]) = timeOf before + change.input.time := by simp [timeOf]
    rw [min_eq_right (by rw [hsum] at hle; linarith), div_self hD.ne']
    exact (C54_ends _ _).2
  · have := r pre f post hx
    rw [zero_add] at this
    refine ⟨fun hlt => ?_, fun hle => ?_⟩
    · rw [min_eq_left hlt.le] at this
      simpa using this
    · rw [min_eq_right hle, div_self hD.ne', (C54_ends _ _).2] at this
      simpa using this

/-- **C83 (part).** A property with a transition that has been given the same value for at least the duration of the transition has
that value, whatever happened before. Missing: as in `C83_transition_partial`. -/
theorem C83_steady_partial {document : Html} {css : Css} {fuel : Nat} {a : App} {n : NodeId} {i : Nat} {key : PropertyKey} {D : Rat} {v : ComputedValue}
    {fs between : List Frame} {first last : Frame} (htimes : ∀ f ∈ fs ++ first :: between ++ [last], 0 ≤ f.input.time)
    (hv : ∀ pre f post, first :: between ++ [last] = pre ++ f :: post → Turns p document css fuel a (fs ++ pre) f n i key D v) (hD : D ≤ timeOf (between ++ [last])) :
    ShownAfter p fuel a (fs ++ first :: between) last n ⟨key, 0⟩ v := by
  have hv0 : Turns p document css fuel a fs first n i key D v := by simpa using hv [] first (between ++ [last]) rfl
  have hD0 : 0 < D := by
    obtain ⟨_, _, _, t, _, _, _, hp, rfl, -⟩ := hv0
    exact hp.2.2.2.2
  obtain ⟨x0, y0, T0, -, -, s1, s2⟩ := hv0.step fun f hf => htimes f (by simp only [List.mem_append, List.mem_cons, List.not_mem_nil, or_false] at hf ⊢; tauto)
  obtain ⟨x, T, hT0, hon⟩ : ∃ x T, 0 ≤ T ∧ OnWay p fuel a (fs ++ [first]) n i x v T := by
    by_cases hy : y0 = v
    · have := s2 hy
      subst hy
      obtain ⟨_, _, _, _, _, _, _, hT⟩ := id this
      exact ⟨_, _, hT, this⟩
    · exact ⟨_, _, le_rfl, s1 hy⟩
  obtain ⟨-, r⟩ := hon.steps (key := key) (D := D) (between ++ [last]) (fun f hf => htimes f (by simpa using hf))
    fun pre f post hx => by
      have := hv (first :: pre) f post (by rw [List.cons_append, hx]; rfl)
      simpa using this
  have := r between last [] rfl
  rw [min_eq_right (by linarith), div_self hD0.ne', (C54_ends _ _).2] at this
  simpa using this

end Verif
