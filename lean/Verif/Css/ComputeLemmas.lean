import Verif.Spec.Cascade
/-!
# Lemmas about computed styles (for C43-C46)
-/
namespace Verif

/-! ## Maps -/

theorem ComputedStyle.get_insert_same (m : ComputedStyle) (d : Descriptor) (v : ComputedValue) :
    (m.insert d v).get d = some v := by
  unfold ComputedStyle.get ComputedStyle.insert
  rw [List.find?_append]
  have : (m.filter (·.1 != d)).find? (·.1 == d) = none := by
    rw [List.find?_eq_none]
    intro x hx
    have := (List.mem_filter.1 hx).2
    simpa using this
  simp [this]

theorem ComputedStyle.get_insert_other (m : ComputedStyle) {d d' : Descriptor} (v : ComputedValue) (h : d' ≠ d) :
    (m.insert d v).get d' = m.get d' := by
  unfold ComputedStyle.get ComputedStyle.insert
  rw [List.find?_append]
  have h1 : (m.filter (·.1 != d)).find? (·.1 == d') = m.find? (·.1 == d') := by
    induction m with
    | nil => rfl
    | cons x m ih =>
      by_cases hx : x.1 = d
      · have : ¬ x.1 = d' := fun e => h (e.symm.trans hx)
        rw [List.filter_cons_of_neg (by simp [hx]), List.find?_cons_of_neg (by simpa using this)]
        exact ih
      · rw [List.filter_cons_of_pos (by simp [hx])]
        by_cases hy : x.1 = d'
        · rw [List.find?_cons_of_pos (by simp [hy]), List.find?_cons_of_pos (by simp [hy])]
        · rw [List.find?_cons_of_neg (by simpa using hy), List.find?_cons_of_neg (by simpa using hy)]
          exact ih
  rw [h1]
  have h2 : ([(d, v)] : ComputedStyle).find? (·.1 == d') = none := by simp [Ne.symm h]
  rw [h2, Option.or_none]

theorem ComputedStyle.get_insert (m : ComputedStyle) (d d' : Descriptor) (v : ComputedValue) :
    (m.insert d v).get d' = if d' = d then some v else m.get d' := by
  by_cases h : d' = d
  · subst h; rw [if_pos rfl]; exact m.get_insert_same _ _
  · rw [if_neg h]; exact m.get_insert_other v h

/-- No descriptor twice. -/
def ComputedStyle.Once (m : ComputedStyle) : Prop := (m.map (·.1)).Nodup

theorem ComputedStyle.Once.insert {m : ComputedStyle} (h : m.Once) (d : Descriptor) (v : ComputedValue) : (m.insert d v).Once := by
  unfold ComputedStyle.Once ComputedStyle.insert at *
  rw [List.map_append, List.nodup_append]
  refine ⟨h.sublist (List.filter_sublist.map _), by simp, ?_⟩
  intro a ha b hb
  obtain ⟨x, hx, rfl⟩ := List.mem_map.1 ha
  have := (List.mem_filter.1 hx).2
  simp only [List.map_cons, List.map_nil, List.mem_singleton] at hb
  subst hb
  simpa using this

theorem ComputedStyle.Once.get_iff {m : ComputedStyle} (h : m.Once) (d : Descriptor) (v : ComputedValue) :
    m.get d = some v ↔ (d, v) ∈ m := by
  unfold ComputedStyle.get ComputedStyle.Once at *
  induction m with
  | nil => simp
  | cons x m ih =>
    simp only [List.map_cons, List.nodup_cons] at h
    by_cases hx : x.1 = d
    · rw [List.find?_cons_of_pos (by simp [hx])]
      simp only [Option.map_some, Option.some.injEq, List.mem_cons]
      constructor
      · intro e; exact .inl (by rw [← hx, ← e])
      · rintro (e | e)
        · rw [← e]
        · exact absurd (List.mem_map.2 ⟨(d, v), e, hx.symm⟩) h.1
    · rw [List.find?_cons_of_neg (by simpa using hx), ih h.2, List.mem_cons]
      constructor
      · exact .inr
      · rintro (e | e)
        · exact absurd (by rw [← e]) hx
        · exact e

/-! ## Substitution of variables -/

theorem gather_mono {α β} {f g : α → Option (List β)} (l : List α) (h : ∀ a ∈ l, ∀ x, f a = some x → g a = some x) {y : List β}
    (hy : gather f l = some y) : gather g l = some y := by
  induction l generalizing y with
  | nil => exact hy
  | cons a l ih =>
    simp only [gather] at hy ⊢
    cases hf : f a with
    | none => rw [hf] at hy; simp at hy
    | some x =>
      rw [hf] at hy
      rw [h a (by simp) x hf]
      cases hl : gather f l with
      | none => rw [hl] at hy; simp at hy
      | some z => rw [hl] at hy; rw [ih (fun b hb => h b (by simp [hb])) hl]; exact hy

theorem computeDef_mono (vars : Variables) (fuel : Nat) (d : Definition) (x : List ComputedValue)
    (h : computeDef vars fuel d = some x) : computeDef vars (fuel + 1) d = some x := by
  induction fuel generalizing d x with
  | zero => simp [computeDef] at h
  | succ fuel ih =>
    cases d with
    | var name =>
      simp only [computeDef] at h ⊢
      cases hv : vars name with
      | none => rw [hv] at h; exact h
      | some l => rw [hv] at h; exact gather_mono l (fun a _ => ih a) h
    | function name args =>
      simp only [computeDef] at h ⊢
      cases hg : gather (computeDef vars fuel) args with
      | none => rw [hg] at h; simp at h
      | some vs => rw [hg] at h; rw [gather_mono args (fun a _ => ih a) hg]; exact h
    | explicit v => exact h

theorem computeShorthand_mono {vars : Variables} {fuel fuel' : Nat} (hf : fuel ≤ fuel') {ds : Shorthand} {x : List ComputedValue}
    (h : computeShorthand vars fuel ds = some x) : computeShorthand vars fuel' ds = some x := by
  induction hf with
  | refl => exact h
  | step _ ih => exact gather_mono ds (fun a _ => computeDef_mono vars _ a) ih

theorem gather_append {α β} (f : α → Option (List β)) (l l' : List α) {x y} (h : gather f l = some x) (h' : gather f l' = some y) :
    gather f (l ++ l') = some (x ++ y) := by
  induction l generalizing x with
  | nil => simp only [gather, Option.some.injEq] at h; subst h; exact h'
  | cons a l ih =>
    simp only [gather, List.cons_append] at h ⊢
    cases hf : f a with
    | none => rw [hf] at h; simp at h
    | some z =>
      rw [hf] at h
      cases hl : gather f l with
      | none => rw [hl] at h; simp at h
      | some w =>
        rw [hl] at h
        simp only [Option.some.injEq] at h; subst h
        rw [ih hl]; simp

theorem computeShorthand_sound (vars : Variables) (fuel : Nat) (ds : Shorthand) (x : List ComputedValue)
    (h : computeShorthand vars fuel ds = some x) : Computes vars ds x := by
  unfold computeShorthand at h
  induction fuel generalizing ds x with
  | zero =>
    cases ds with
    | nil => simp only [gather, Option.some.injEq] at h; subst h; exact .nil
    | cons d ds => simp [gather, computeDef] at h
  | succ fuel ihf =>
    induction ds generalizing x with
    | nil => simp only [gather, Option.some.injEq] at h; subst h; exact .nil
    | cons d ds ih =>
      simp only [gather] at h
      cases hd : computeDef vars (fuel + 1) d with
      | none => rw [hd] at h; simp at h
      | some a =>
        rw [hd] at h
        cases hl : gather (computeDef vars (fuel + 1)) ds with
        | none => rw [hl] at h; simp at h
        | some b =>
          rw [hl] at h
          simp only [Option.some.injEq] at h; subst h
          have ht := ih b hl
          cases d with
          | var name =>
            simp only [computeDef] at hd
            cases hv : vars name with
            | none => rw [hv] at hd; simp only [Option.some.injEq] at hd; subst hd; exact .unknown hv ht
            | some l => rw [hv] at hd; exact .known hv (ihf l a hd) ht
          | function name args =>
            simp only [computeDef] at hd
            cases hg : gather (computeDef vars fuel) args with
            | none => rw [hg] at hd; simp at hd
            | some vs => rw [hg] at hd; simp only [Option.some.injEq] at hd; subst hd; exact .function (ihf args vs hg) ht
          | explicit v => simp only [computeDef, Option.some.injEq] at hd; subst hd; exact .explicit ht

theorem computeShorthand_complete {vars : Variables} {ds : Shorthand} {x : List ComputedValue} (h : Computes vars ds x) :
    ∃ fuel, computeShorthand vars fuel ds = some x := by
  induction h with
  | nil => exact ⟨0, rfl⟩
  | known hv _ _ ih1 ih2 =>
    obtain ⟨f1, h1⟩ := ih1
    obtain ⟨f2, h2⟩ := ih2
    refine ⟨max f1 f2 + 1, ?_⟩
    have h1 := computeShorthand_mono (Nat.le_max_left f1 f2) h1
    have h2 := computeShorthand_mono (Nat.le_succ_of_le (Nat.le_max_right f1 f2)) h2
    unfold computeShorthand at h1 h2 ⊢
    simp only [gather, computeDef, hv, h1, h2]
  | unknown hv _ ih =>
    obtain ⟨f, h⟩ := ih
    refine ⟨f + 1, ?_⟩
    have h := computeShorthand_mono (Nat.le_succ f) h
    unfold computeShorthand at h ⊢
    simp only [gather, computeDef, hv, h, List.cons_append, List.nil_append]
  | function _ _ ih1 ih2 =>
    obtain ⟨f1, h1⟩ := ih1
    obtain ⟨f2, h2⟩ := ih2
    refine ⟨max f1 f2 + 1, ?_⟩
    have h1 := computeShorthand_mono (Nat.le_max_left f1 f2) h1
    have h2 := computeShorthand_mono (Nat.le_succ_of_le (Nat.le_max_right f1 f2)) h2
    unfold computeShorthand at h1 h2 ⊢
    simp only [gather, computeDef, h1, h2, List.cons_append, List.nil_append]
  | explicit _ ih =>
    obtain ⟨f, h⟩ := ih
    refine ⟨f + 1, ?_⟩
    have h := computeShorthand_mono (Nat.le_succ f) h
    unfold computeShorthand at h ⊢
    simp only [gather, computeDef, h, List.cons_append, List.nil_append]

theorem Computes.unique {vars : Variables} {ds : Shorthand} {x y : List ComputedValue} (h : Computes vars ds x)
    (h' : Computes vars ds y) : x = y := by
  obtain ⟨f, h1⟩ := computeShorthand_complete h
  obtain ⟨g, h2⟩ := computeShorthand_complete h'
  have h1 := computeShorthand_mono (Nat.le_max_left f g) h1
  have h2 := computeShorthand_mono (Nat.le_max_right f g) h2
  rw [h1] at h2
  exact Option.some.inj h2

theorem acyclic_computes {vars : Variables} {rank : String → Nat}
    (h : ∀ name l, vars name = some l → ∀ m, Mentions m l → rank m < rank name) (ds : List Definition) :
    ∃ x, Computes vars ds x := by
  have all : ∀ n ds, (∀ m, Mentions m ds → rank m < n) → ∃ x, Computes vars ds x := by
    intro n
    induction n with
    | zero =>
      intro ds
      have : ∀ k ds, sizeOf ds ≤ k → (∀ m, Mentions m ds → rank m < 0) → ∃ x, Computes vars ds x := by
        intro k
        induction k with
        | zero => intro ds hk; cases ds <;> simp at hk
        | succ k ih =>
          intro ds hk hm
          cases ds with
          | nil => exact ⟨[], .nil⟩
          | cons d ds =>
            obtain ⟨b, hb⟩ := ih ds (by simp at hk; omega) (fun m h => hm m (.tail h))
            cases d with
            | var name => exact absurd (hm name .var) (by omega)
            | function f args =>
              obtain ⟨a, ha⟩ := ih args (by simp at hk; omega) (fun m h => hm m (.function h))
              exact ⟨_, .function ha hb⟩
            | explicit v => exact ⟨_, .explicit hb⟩
      exact this _ ds (Nat.le_refl _)
    | succ n ihn =>
      intro ds
      have : ∀ k ds, sizeOf ds ≤ k → (∀ m, Mentions m ds → rank m < n + 1) → ∃ x, Computes vars ds x := by
        intro k
        induction k with
        | zero => intro ds hk; cases ds <;> simp at hk
        | succ k ih =>
          intro ds hk hm
          cases ds with
          | nil => exact ⟨[], .nil⟩
          | cons d ds =>
            obtain ⟨b, hb⟩ := ih ds (by simp at hk; omega) (fun m h => hm m (.tail h))
            cases d with
            | var name =>
              cases hv : vars name with
              | none => exact ⟨_, .unknown hv hb⟩
              | some l =>
                have hr := hm name .var
                obtain ⟨a, ha⟩ := ihn l (fun m hml => by have := h name l hv m hml; omega)
                exact ⟨_, .known hv ha hb⟩
            | function f args =>
              obtain ⟨a, ha⟩ := ih args (by simp at hk; omega) (fun m h => hm m (.function h))
              exact ⟨_, .function ha hb⟩
            | explicit v => exact ⟨_, .explicit hb⟩
      exact this _ ds (Nat.le_refl _)
  -- a bound on the ranks of the finitely many mentioned variables
  have bound : ∀ k ds, sizeOf ds ≤ k → ∃ n, ∀ m, Mentions m ds → rank m < n := by
    intro k
    induction k with
    | zero => intro ds hk; cases ds <;> simp at hk
    | succ k ih =>
      intro ds hk
      cases ds with
      | nil => exact ⟨0, fun m hm => by cases hm⟩
      | cons d ds =>
        obtain ⟨n, hn⟩ := ih ds (by simp at hk; omega)
        cases d with
        | var name =>
          refine ⟨max n (rank name + 1), fun m hm => ?_⟩
          cases hm with
          | var => omega
          | tail h => have := hn m h; omega
        | function f args =>
          obtain ⟨n', hn'⟩ := ih args (by simp at hk; omega)
          refine ⟨max n n', fun m hm => ?_⟩
          cases hm with
          | function h => have := hn' m h; omega
          | tail h => have := hn m h; omega
        | explicit v =>
          refine ⟨n, fun m hm => ?_⟩
          cases hm with
          | tail h => exact hn m h
  obtain ⟨n, hn⟩ := bound _ ds (Nat.le_refl _)
  exact all n ds hn

/-! ## Blocks -/

theorem overwrites_get (index : Nat) (l : List (PropertyKey × ComputedValue)) (hl : (l.map (·.1)).Nodup) (m : ComputedStyle)
    (d : Descriptor) : (overwrites index l m).get d =
      if d.index = index then (match l.find? (·.1 == d.key) with | some x => some x.2 | none => m.get d) else m.get d := by
  induction l generalizing m with
  | nil => simp [overwrites]
  | cons x l ih =>
    obtain ⟨key, value⟩ := x
    simp only [List.map_cons, List.nodup_cons] at hl
    simp only [overwrites]
    rw [ih hl.2]
    by_cases hi : d.index = index
    · simp only [hi, if_true]
      by_cases hk : key = d.key
      · have hd : (⟨key, index⟩ : Descriptor) = d := by cases d; simp_all
        have hn : l.find? (·.1 == d.key) = none := by
          rw [List.find?_eq_none]
          intro y hy e
          simp only [beq_iff_eq] at e
          exact hl.1 (List.mem_map.2 ⟨y, hy, by rw [e, hk]⟩)
        rw [hn, List.find?_cons_of_pos (by simp [hk])]
        simp only [hd, ComputedStyle.get_insert_same]
      · rw [List.find?_cons_of_neg (by simpa using hk)]
        cases l.find? (·.1 == d.key) with
        | some y => rfl
        | none =>
          simp only
          rw [ComputedStyle.get_insert_other]
          intro e; exact hk (by rw [e])
    · simp only [hi, if_false]
      rw [ComputedStyle.get_insert_other]
      intro e; exact hi (by rw [e])

theorem overwrites_once (index : Nat) (l : List (PropertyKey × ComputedValue)) {m : ComputedStyle} (h : m.Once) :
    (overwrites index l m).Once := by
  induction l generalizing m with
  | nil => exact h
  | cons x l ih => exact ih (h.insert _ _)

theorem boxValues_nodup {a b c d : PropertyKey} (h : [a, b, c, d].Nodup) (vs : List ComputedValue) :
    ((boxValues a b c d vs).map (·.1)).Nodup := by
  unfold boxValues
  split <;> first | exact h | exact List.nodup_nil

theorem plainValue_nodup (key : PropertyKey) (vs : List ComputedValue) : ((plainValue key vs).map (·.1)).Nodup := by
  unfold plainValue
  split <;> simp

theorem sideValues_nodup {key a b : PropertyKey} (h : a ≠ b) (vs : List ComputedValue) : ((sideValues key a b vs).map (·.1)).Nodup := by
  unfold sideValues
  split
  · simp [h]
  · exact plainValue_nodup _ _

/-- Distinct keys (so that `split` sees the list). -/
def KeysOnce (l : List (PropertyKey × ComputedValue)) : Prop := (l.map (·.1)).Nodup

theorem expand_once (key : PropertyKey) (vs : List ComputedValue) : KeysOnce (expand key vs) := by
  unfold expand
  refine iteInduction (motive := KeysOnce) (fun _ => ?_) (fun _ => ?_)
  · split <;> simp [KeysOnce]
  refine iteInduction (motive := KeysOnce) (fun _ => ?_) (fun _ => ?_)
  · split <;> simp [KeysOnce]
  refine iteInduction (motive := KeysOnce) (fun _ => ?_) (fun _ => ?_)
  · split
    · split <;> simp [KeysOnce, borderValues]
    · simp [KeysOnce, borderValues]
    · exact plainValue_nodup _ _
  refine iteInduction (motive := KeysOnce) (fun _ => ?_) (fun _ => ?_)
  · exact sideValues_nodup (by decide) _
  refine iteInduction (motive := KeysOnce) (fun _ => ?_) (fun _ => ?_)
  · exact sideValues_nodup (by decide) _
  refine iteInduction (motive := KeysOnce) (fun _ => ?_) (fun _ => ?_)
  · exact sideValues_nodup (by decide) _
  refine iteInduction (motive := KeysOnce) (fun _ => ?_) (fun _ => ?_)
  · exact sideValues_nodup (by decide) _
  refine iteInduction (motive := KeysOnce) (fun _ => ?_) (fun _ => ?_)
  · exact boxValues_nodup (by decide) _
  refine iteInduction (motive := KeysOnce) (fun _ => ?_) (fun _ => ?_)
  · exact boxValues_nodup (by decide) _
  refine iteInduction (motive := KeysOnce) (fun _ => ?_) (fun _ => ?_)
  · exact boxValues_nodup (by decide) _
  refine iteInduction (motive := KeysOnce) (fun _ => ?_) (fun _ => ?_)
  · split <;> simp [KeysOnce]
  refine iteInduction (motive := KeysOnce) (fun _ => ?_) (fun _ => ?_)
  · split <;> simp [KeysOnce]
  refine iteInduction (motive := KeysOnce) (fun _ => ?_) (fun _ => ?_)
  · split <;> simp [KeysOnce]
  refine iteInduction (motive := KeysOnce) (fun _ => ?_) (fun _ => ?_)
  · exact boxValues_nodup (by decide) _
  refine iteInduction (motive := KeysOnce) (fun _ => ?_) (fun _ => ?_)
  · exact boxValues_nodup (by decide) _
  refine iteInduction (motive := KeysOnce) (fun _ => ?_) (fun _ => ?_)
  · split
    · simp [KeysOnce]
    · simp [KeysOnce]
    · simp [KeysOnce]
    · exact plainValue_nodup _ _
  refine iteInduction (motive := KeysOnce) (fun _ => ?_) (fun _ => ?_)
  · split
    · simp [KeysOnce]
    · simp [KeysOnce]
    · simp [KeysOnce]
    · simp [KeysOnce]
    · exact plainValue_nodup _ _
  · exact plainValue_nodup _ _

theorem expand_nodup (key : PropertyKey) (vs : List ComputedValue) : ((expand key vs).map (·.1)).Nodup := expand_once key vs

end Verif
