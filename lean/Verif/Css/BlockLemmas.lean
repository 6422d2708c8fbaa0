import Verif.Css.ComputeLemmas
import Mathlib.Data.List.Induction
/-!
# The computed style of declaration blocks (for C43, C45)
-/
namespace Verif

theorem computeBlock_append (fuel : Nat) (a b : List Declaration) (vars : Variables) (style : ComputedStyle) :
    computeBlock fuel (a ++ b) vars style =
      (computeBlock fuel a vars style).bind fun x => computeBlock fuel b x.1 x.2 := by
  induction a generalizing vars style with
  | nil => rfl
  | cons x a ih =>
    cases x with
    | «variable» key l => simp only [List.cons_append, computeBlock]; exact ih _ _
    | property key values =>
      simp only [List.cons_append, computeBlock]
      cases computeValues vars fuel key 0 values style with
      | none => rfl
      | some s => exact ih _ _

theorem computeBlocks_flatten (fuel : Nat) (blocks : List (List Declaration)) (vars : Variables) (style : ComputedStyle) :
    computeBlocks fuel blocks vars style = computeBlock fuel blocks.flatten vars style := by
  induction blocks generalizing vars style with
  | nil => rfl
  | cons b blocks ih =>
    rw [List.flatten_cons, computeBlock_append]
    simp only [computeBlocks]
    cases computeBlock fuel b vars style with
    | none => rfl
    | some x => exact ih _ _

theorem computeValues_get {vars : Variables} {fuel : Nat} {key : PropertyKey} (values : List Shorthand) {index : Nat}
    {style style' : ComputedStyle} (h : computeValues vars fuel key index values style = some style') (d : Descriptor) (v : ComputedValue) :
    style'.get d = some v ↔
      (∃ s vs, index ≤ d.index ∧ values[d.index - index]? = some s ∧ Computes vars s vs ∧ (d.key, v) ∈ expand key vs) ∨
      (style.get d = some v ∧ ¬ ∃ w s vs, index ≤ d.index ∧ values[d.index - index]? = some s ∧ Computes vars s vs ∧ (d.key, w) ∈ expand key vs) := by
  induction values generalizing index style with
  | nil =>
    simp only [computeValues, Option.some.injEq] at h
    subst h
    simp
  | cons s values ih =>
    simp only [computeValues] at h
    cases hs : computeStyle vars fuel key index s style with
    | none => rw [hs] at h; cases h
    | some style1 =>
      rw [hs] at h
      simp only at h
      rw [ih h]
      unfold computeStyle at hs
      cases hc : computeShorthand vars fuel s with
      | none => rw [hc] at hs; cases hs
      | some vs =>
        rw [hc] at hs
        simp only [Option.some.injEq] at hs
        have hcs := computeShorthand_sound vars fuel s vs hc
        have hget := overwrites_get index (expand key vs) (expand_nodup key vs) style d
        rw [hs] at hget
        rw [hget]
        by_cases hi : d.index = index
        · have e : d.index - (index + 1) = 0 := by omega
          have e' : d.index - index = 0 := by omega
          have e1 : ¬ index + 1 ≤ d.index := by omega
          have e2 : index ≤ d.index := by omega
          simp only [e1, e2, false_and, exists_false, false_or, not_false_eq_true, and_true, if_pos hi, e', true_and,
            List.getElem?_cons_zero, Option.some.injEq]
          cases hf : (expand key vs).find? (·.1 == d.key) with
          | some y =>
            have hm := List.mem_of_find?_eq_some hf
            have hk := List.find?_some hf
            simp only [beq_iff_eq] at hk
            simp only [Option.some.injEq]
            constructor
            · intro hv
              left
              exact ⟨s, vs, rfl, hcs, by rw [← hv, ← hk]; exact hm⟩
            · rintro (⟨s', vs', rfl, hcs', hm'⟩ | ⟨_, hno⟩)
              · have := hcs.unique hcs'
                subst this
                have hnd := expand_nodup key vs
                have h1 : y = (d.key, v) := by
                  rw [← hk] at hm' ⊢
                  have : ∀ {l : List (PropertyKey × ComputedValue)}, (l.map (·.1)).Nodup → ∀ {a b}, a ∈ l → b ∈ l → a.1 = b.1 → a = b := by
                    intro l hl
                    induction l with
                    | nil => intro a b ha; cases ha
                    | cons x l ih =>
                      simp only [List.map_cons, List.nodup_cons] at hl
                      intro a b ha hb hab
                      rcases List.mem_cons.1 ha with ea | ha1 <;> rcases List.mem_cons.1 hb with eb | hb1
                      · rw [ea, eb]
                      · exact absurd (List.mem_map.2 ⟨b, hb1, by rw [← hab, ea]⟩) hl.1
                      · exact absurd (List.mem_map.2 ⟨a, ha1, by rw [hab, eb]⟩) hl.1
                      · exact ih hl.2 ha1 hb1 hab
                  exact this hnd hm hm' rfl
                rw [h1]
              · exact absurd ⟨y.2, s, vs, rfl, hcs, by rw [← hk]; exact hm⟩ hno
          | none =>
            rw [List.find?_eq_none] at hf
            have hno : ¬ ∃ w s' vs', s = s' ∧ Computes vars s' vs' ∧ (d.key, w) ∈ expand key vs' := by
              rintro ⟨w, s', vs', rfl, hcs', hm⟩
              have := hcs.unique hcs'
              subst this
              exact hf _ hm (by simp)
            constructor
            · intro hv; exact .inr ⟨hv, hno⟩
            · rintro (⟨s', vs', h1, h2, h3⟩ | ⟨hv, _⟩)
              · exact absurd ⟨v, s', vs', h1, h2, h3⟩ hno
              · exact hv
        · simp only [if_neg hi]
          by_cases hlt : index < d.index
          · have e2 : index ≤ d.index := by omega
            have e1 : index + 1 ≤ d.index := hlt
            have e3 : d.index - index = (d.index - (index + 1)) + 1 := by omega
            simp only [e1, e2, true_and, e3, List.getElem?_cons_succ]
          · have e2 : ¬ index ≤ d.index := by omega
            have e1 : ¬ index + 1 ≤ d.index := by omega
            simp only [e1, e2, false_and]

theorem scopeAfter_nil (vars : Variables) : scopeAfter vars [] = vars := by
  funext name
  simp [scopeAfter, givenTo]

theorem scopeAfter_snoc (vars : Variables) (block : List Declaration) (key : String) (l : Shorthand) :
    scopeAfter vars (block ++ [.variable key l]) = (scopeAfter vars block).set key l := by
  funext name
  by_cases h : key = name
  · subst h
    simp [scopeAfter, givenTo, SMap.set]
  · have h' : ¬ name = key := fun e => h e.symm
    simp [scopeAfter, givenTo, SMap.set, h, h']

theorem scopeAfter_property (vars : Variables) (block : List Declaration) (key : PropertyKey) (values : List Shorthand) :
    scopeAfter vars (block ++ [.property key values]) = scopeAfter vars block := by
  funext name
  simp [scopeAfter, givenTo]

theorem setsAt_lt {vars : Variables} {block : List Declaration} {x : Declaration} {i : Nat} {d : Descriptor} {v : ComputedValue}
    (h : i < block.length) : SetsAt vars (block ++ [x]) i d v ↔ SetsAt vars block i d v := by
  unfold SetsAt
  rw [List.getElem?_append_left h, List.take_append_of_le_length (Nat.le_of_lt h)]

theorem setsAt_last {vars : Variables} {block : List Declaration} {x : Declaration} {d : Descriptor} {v : ComputedValue} :
    SetsAt vars (block ++ [x]) block.length d v ↔ x.Sets (scopeAfter vars block) d v := by
  unfold SetsAt
  simp

theorem SetsAt.lt {vars : Variables} {block : List Declaration} {i : Nat} {d : Descriptor} {v : ComputedValue}
    (h : SetsAt vars block i d v) : i < block.length := by
  obtain ⟨x, hx, _⟩ := h
  exact (List.getElem?_eq_some_iff.1 hx).1

/-- One declaration more: what it sets, else what was there. -/
theorem setsAt_snoc {vars : Variables} {block : List Declaration} {x : Declaration} {d : Descriptor} {v : ComputedValue} :
    (∃ i, SetsAt vars (block ++ [x]) i d v ∧ ∀ j w, i < j → ¬ SetsAt vars (block ++ [x]) j d w) ↔
      x.Sets (scopeAfter vars block) d v ∨
      ((∃ i, SetsAt vars block i d v ∧ ∀ j w, i < j → ¬ SetsAt vars block j d w) ∧ ¬ ∃ w, x.Sets (scopeAfter vars block) d w) := by
  constructor
  · rintro ⟨i, hi, hl⟩
    have hlt := hi.lt
    simp only [List.length_append, List.length_singleton] at hlt
    by_cases he : i = block.length
    · subst he; exact .inl (setsAt_last.1 hi)
    · have hlt : i < block.length := by omega
      refine .inr ⟨⟨i, (setsAt_lt hlt).1 hi, ?_⟩, ?_⟩
      · intro j w hj hs
        exact hl j w hj ((setsAt_lt hs.lt).2 hs)
      · rintro ⟨w, hw⟩
        exact hl _ w hlt (setsAt_last.2 hw)
  · rintro (h | ⟨⟨i, hi, hl⟩, hno⟩)
    · refine ⟨_, setsAt_last.2 h, ?_⟩
      intro j w hj hs
      have := hs.lt
      simp only [List.length_append, List.length_singleton] at this
      omega
    · refine ⟨i, (setsAt_lt hi.lt).2 hi, ?_⟩
      intro j w hj hs
      have hlt := hs.lt
      simp only [List.length_append, List.length_singleton] at hlt
      by_cases he : j = block.length
      · subst he; exact hno ⟨w, setsAt_last.1 hs⟩
      · exact hl j w hj ((setsAt_lt (by omega)).1 hs)

theorem computeBlock_vars {fuel : Nat} (block : List Declaration) {vars vars' : Variables} {style style' : ComputedStyle}
    (h : computeBlock fuel block vars style = some (vars', style')) : vars' = scopeAfter vars block := by
  induction block using List.reverseRecOn generalizing vars' style' with
  | nil =>
    simp only [computeBlock, Option.some.injEq, Prod.mk.injEq] at h
    rw [scopeAfter_nil, h.1]
  | append_singleton block x ih =>
    rw [computeBlock_append] at h
    cases h1 : computeBlock fuel block vars style with
    | none => rw [h1] at h; cases h
    | some p =>
      obtain ⟨v1, s1⟩ := p
      rw [h1] at h
      simp only [Option.bind_some] at h
      have hv := ih h1
      cases x with
      | «variable» key l =>
        simp only [computeBlock, Option.some.injEq, Prod.mk.injEq] at h
        rw [scopeAfter_snoc, ← hv, ← h.1]
      | property key values =>
        simp only [computeBlock] at h
        cases h2 : computeValues v1 fuel key 0 values s1 with
        | none => rw [h2] at h; cases h
        | some s2 =>
          rw [h2] at h
          simp only [Option.some.injEq, Prod.mk.injEq] at h
          rw [scopeAfter_property, ← hv, ← h.1]

theorem computeBlock_get {fuel : Nat} (block : List Declaration) {vars vars' : Variables} {style : ComputedStyle}
    (h : computeBlock fuel block vars [] = some (vars', style)) (d : Descriptor) (v : ComputedValue) :
    style.get d = some v ↔ ∃ i, SetsAt vars block i d v ∧ ∀ j w, i < j → ¬ SetsAt vars block j d w := by
  induction block using List.reverseRecOn generalizing vars' style v with
  | nil =>
    simp only [computeBlock, Option.some.injEq, Prod.mk.injEq] at h
    rw [← h.2]
    simp [ComputedStyle.get, SetsAt]
  | append_singleton block x ih =>
    rw [computeBlock_append] at h
    cases h1 : computeBlock fuel block vars [] with
    | none => rw [h1] at h; cases h
    | some p =>
      obtain ⟨v1, s1⟩ := p
      rw [h1] at h
      simp only [Option.bind_some] at h
      have hv := computeBlock_vars block h1
      rw [setsAt_snoc, ← ih h1]
      cases x with
      | «variable» key l =>
        simp only [computeBlock, Option.some.injEq, Prod.mk.injEq] at h
        rw [← h.2]
        simp [Declaration.Sets]
      | property key values =>
        simp only [computeBlock] at h
        cases h2 : computeValues v1 fuel key 0 values s1 with
        | none => rw [h2] at h; cases h
        | some s2 =>
          rw [h2] at h
          simp only [Option.some.injEq, Prod.mk.injEq] at h
          rw [← h.2, computeValues_get values h2, ← hv]
          have e : ∀ w, (∃ s vs, 0 ≤ d.index ∧ values[d.index - 0]? = some s ∧ Computes v1 s vs ∧ (d.key, w) ∈ expand key vs) ↔
              (Declaration.property key values).Sets v1 d w := by
            intro w
            constructor
            · rintro ⟨s, vs, _, h3, h4, h5⟩; exact ⟨key, values, s, vs, rfl, h3, h4, h5⟩
            · rintro ⟨k, vals, s, vs, he, h3, h4, h5⟩
              cases he
              exact ⟨s, vs, Nat.zero_le _, h3, h4, h5⟩
          simp only [e]

theorem computeBlock_once {fuel : Nat} (block : List Declaration) {vars vars' : Variables} {style style' : ComputedStyle}
    (h : computeBlock fuel block vars style = some (vars', style')) (ho : style.Once) : style'.Once := by
  have hvals : ∀ vals vars key index (s s' : ComputedStyle), computeValues vars fuel key index vals s = some s' → s.Once → s'.Once := by
    intro vals vars key
    induction vals with
    | nil =>
      intro index s s' h ho
      simp only [computeValues, Option.some.injEq] at h
      exact h ▸ ho
    | cons a vals ih =>
      intro index s s' h ho
      simp only [computeValues] at h
      cases hs : computeStyle vars fuel key index a s with
      | none => rw [hs] at h; cases h
      | some s1 =>
        rw [hs] at h
        refine ih _ _ _ h ?_
        unfold computeStyle at hs
        cases hc : computeShorthand vars fuel a with
        | none => rw [hc] at hs; cases hs
        | some vs =>
          rw [hc] at hs
          simp only [Option.some.injEq] at hs
          exact hs ▸ overwrites_once index _ ho
  induction block generalizing vars style with
  | nil =>
    simp only [computeBlock, Option.some.injEq, Prod.mk.injEq] at h
    exact h.2 ▸ ho
  | cons x block ih =>
    cases x with
    | «variable» key l => exact ih h ho
    | property key values =>
      simp only [computeBlock] at h
      cases h2 : computeValues vars fuel key 0 values style with
      | none => rw [h2] at h; cases h
      | some s2 =>
        rw [h2] at h
        exact ih h (hvals _ _ _ _ _ _ h2 ho)

/-- A block whose declarations all mean something is computed, with a big enough stack. -/
theorem computeBlock_total (block : List Declaration) (vars : Variables)
    (h : ∀ i key values, block[i]? = some (.property key values) → ∀ s ∈ values, ∃ vs, Computes (scopeAfter vars (block.take i)) s vs)
    (style : ComputedStyle) : ∃ fuel, ∀ fuel', fuel ≤ fuel' → (computeBlock fuel' block vars style).isSome := by
  have hvals : ∀ vals (vars : Variables) key, (∀ s ∈ vals, ∃ vs, Computes vars s vs) →
      ∃ fuel, ∀ fuel', fuel ≤ fuel' → ∀ index s, (computeValues vars fuel' key index vals s).isSome := by
    intro vals vars key
    induction vals with
    | nil => intro _; exact ⟨0, fun _ _ _ _ => rfl⟩
    | cons a vals ih =>
      intro hc
      obtain ⟨f1, h1⟩ := ih (fun s hs => hc s (List.mem_cons_of_mem _ hs))
      obtain ⟨vs, hvs⟩ := hc a List.mem_cons_self
      obtain ⟨f2, h2⟩ := computeShorthand_complete hvs
      refine ⟨max f1 f2, fun fuel hf index s => ?_⟩
      simp only [computeValues, computeStyle]
      rw [computeShorthand_mono (by omega) h2]
      exact h1 fuel (by omega) _ _
  induction block using List.reverseRecOn with
  | nil => exact ⟨0, fun _ _ => rfl⟩
  | append_singleton block x ih =>
    obtain ⟨f1, h1⟩ := ih (by
      intro i key values hi s hs
      have hlt := (List.getElem?_eq_some_iff.1 hi).1
      have := h i key values (by rw [List.getElem?_append_left hlt]; exact hi) s hs
      rwa [List.take_append_of_le_length (Nat.le_of_lt hlt)] at this)
    cases x with
    | «variable» key l =>
      refine ⟨f1, fun fuel hf => ?_⟩
      rw [computeBlock_append]
      obtain ⟨p, hp⟩ := Option.isSome_iff_exists.1 (h1 fuel hf)
      rw [hp]; rfl
    | property key values =>
      obtain ⟨f2, h2⟩ := hvals values (scopeAfter vars block) key (by
        intro s hs
        have := h block.length key values (by simp) s hs
        simpa using this)
      refine ⟨max f1 f2, fun fuel hf => ?_⟩
      rw [computeBlock_append]
      obtain ⟨p, hp⟩ := Option.isSome_iff_exists.1 (h1 fuel (by omega))
      obtain ⟨v1, s1⟩ := p
      rw [hp]
      simp only [Option.bind_some, computeBlock]
      have hv := computeBlock_vars block hp
      have := h2 fuel (by omega) 0 s1
      rw [← hv] at this
      obtain ⟨q, hq⟩ := Option.isSome_iff_exists.1 this
      rw [hq]; rfl

end Verif
