import Verif.Spec.Swaps
import Verif.View.Copies
import Verif.View.StyleFinal
/-!
# Lemmas about rules in another order (C105)
-/
namespace Verif

variable {p : Platform}

theorem Swapped.refl {α : Type} {S : α → α → Prop} (l : List α) : Swapped S l l := by
  induction l with
  | nil => exact .nil
  | cons x l ih => exact .same ih

theorem Swapped.perm {α : Type} {S : α → α → Prop} {l l' : List α} (h : Swapped S l l') : l.Perm l' := by
  induction h with
  | nil => exact .nil
  | same _ ih => exact ih.cons _
  | swap l _ => exact .swap _ _ l
  | trans _ _ ih1 ih2 => exact ih1.trans ih2

theorem Swapped.filterMap {α β : Type} {S : α → α → Prop} {S' : β → β → Prop} {f : α → Option β}
    (hf : ∀ x y x' y', f x = some x' → f y = some y' → S x y → S' x' y') {l l' : List α} (h : Swapped S l l') : Swapped S' (l.filterMap f) (l'.filterMap f) := by
  induction h with
  | nil => exact .nil
  | @same x l l' _ ih =>
    simp only [List.filterMap_cons]
    split
    · exact ih
    · exact .same ih
  | @swap x y l hs =>
    simp only [List.filterMap_cons]
    cases hx : f x with
    | none => exact .refl _
    | some x' =>
      cases hy : f y with
      | none => exact .refl _
      | some y' => exact .swap _ (hf x y x' y' hx hy hs)
  | trans _ _ ih1 ih2 => exact ih1.trans ih2

/-! ## Writing values -/

theorem writeAll_get (w : ComputedStyle) (d : Descriptor) :
    (d ∈ w.map (·.1) ∧ ∃ v, ∀ m, (writeAll w m).get d = some v) ∨ ∀ m, (writeAll w m).get d = m.get d := by
  induction w with
  | nil => exact .inr fun _ => rfl
  | cons x w ih =>
    rcases ih with ⟨h1, v, h2⟩ | h
    · exact .inl ⟨List.mem_cons_of_mem _ h1, v, fun m => h2 _⟩
    · by_cases hd : d = x.1
      · exact .inl ⟨by simp [hd], x.2, fun m => by show (writeAll w (m.insert x.1 x.2)).get d = _; rw [h, ComputedStyle.get_insert, if_pos hd]⟩
      · exact .inr fun m => by show (writeAll w (m.insert x.1 x.2)).get d = _; rw [h, ComputedStyle.get_insert, if_neg hd]

theorem writeAll_has {w : ComputedStyle} {d : Descriptor} (h : d ∈ w.map (·.1)) : ∃ v, ∀ m, (writeAll w m).get d = some v := by
  induction w with
  | nil => cases h
  | cons x w ih =>
    by_cases hd : d ∈ w.map (·.1)
    · obtain ⟨v, hv⟩ := ih hd; exact ⟨v, fun m => hv _⟩
    · have hx : d = x.1 := by
        rcases List.mem_cons.1 h with h | h
        · exact h
        · exact absurd h hd
      refine ⟨x.2, fun m => ?_⟩
      show (writeAll w (m.insert x.1 x.2)).get d = _
      rcases writeAll_get w d with ⟨h1, _⟩ | h1
      · exact absurd h1 hd
      · rw [h1, ComputedStyle.get_insert, if_pos hx]

theorem SameMap.writeAll (w : ComputedStyle) {m m' : ComputedStyle} (h : SameMap m m') : SameMap (Verif.writeAll w m) (Verif.writeAll w m') := by
  induction w generalizing m m' with
  | nil => exact h
  | cons x w ih => exact ih (h.insert x.1 x.2)

theorem SameMap.symm {a b : ComputedStyle} (h : SameMap a b) : SameMap b a := ⟨h.right, h.left, fun d => (h.get d).symm⟩

theorem SameMap.exchange {w w' : ComputedStyle} (hw : ∀ d ∈ w.map (·.1), d ∉ w'.map (·.1)) {m m' : ComputedStyle} (h : SameMap m m') :
    SameMap (Verif.writeAll w' (Verif.writeAll w m)) (Verif.writeAll w (Verif.writeAll w' m')) := by
  have h1 := ((SameMap.refl h.left).writeAll w).writeAll w'
  have h2 := ((SameMap.refl h.right).writeAll w').writeAll w
  refine ⟨h1.left, h2.left, fun d => ?_⟩
  rcases writeAll_get w d with ⟨g1, v, g⟩ | g <;> rcases writeAll_get w' d with ⟨k1, v', k⟩ | k
  · exact absurd k1 (hw d g1)
  · rw [k, g, g]
  · rw [k, g, k]
  · rw [k, g, g, k, h.get]

/-! ## Blocks -/

/-- Both without end, or the same variables and the same values. -/
inductive BlocksAlike : Option (Variables × ComputedStyle) → Option (Variables × ComputedStyle) → Prop
  | none : BlocksAlike none none
  | some {vars m m'} : SameMap m m' → BlocksAlike (some (vars, m)) (some (vars, m'))

theorem BlocksAlike.symm {a b} (h : BlocksAlike a b) : BlocksAlike b a := by
  cases h with
  | none => exact .none
  | some h => exact .some h.symm

theorem BlocksAlike.trans {a b c} (h : BlocksAlike a b) (g : BlocksAlike b c) : BlocksAlike a c := by
  cases h with
  | none => exact g
  | some h => cases g with | some g => exact .some (h.trans g)

theorem computeBlock_alike (fuel : Nat) (block : List Declaration) (vars : Variables) {m m' : ComputedStyle} (h : SameMap m m') :
    BlocksAlike (computeBlock fuel block vars m) (computeBlock fuel block vars m') := by
  rcases computeBlock_writes fuel block vars with hn | ⟨v, w, hw⟩
  · rw [hn, hn]; exact .none
  · rw [hw, hw]; exact .some (h.writeAll w)

theorem computeBlocks_alike (fuel : Nat) (l : List (List Declaration)) : ∀ (vars : Variables) {m m' : ComputedStyle}, SameMap m m' →
    BlocksAlike (computeBlocks fuel l vars m) (computeBlocks fuel l vars m') := by
  intro vars m m' h
  rw [computeBlocks_flatten, computeBlocks_flatten]
  exact computeBlock_alike fuel _ vars h

/-- The places a block writes are the ones it sets. -/
theorem computeBlock_places {fuel : Nat} {block : List Declaration} {vars vars' : Variables} {w : ComputedStyle}
    (hw : ∀ m, computeBlock fuel block vars m = some (vars', writeAll w m)) {d : Descriptor} (hd : d ∈ w.map (·.1)) :
    ∃ x ∈ block, ∃ vars v, x.Sets vars d v := by
  obtain ⟨v, hv⟩ := writeAll_has hd
  obtain ⟨i, ⟨x, hx, hs⟩, _⟩ := (computeBlock_get block (hw []) d v).1 (hv [])
  exact ⟨x, List.mem_of_getElem? hx, _, v, hs⟩

theorem computeBlocks_exchange {fuel : Nat} {a b : List Declaration} {vars : Variables} {o : Option ComputedStyle}
    (ha : ∀ m, computeBlock fuel a vars m = o.map fun w => (vars, writeAll w m))
    (hab : ∀ vars' w, (∀ m, computeBlock fuel b vars m = some (vars', writeAll w m)) → ∀ m, computeBlock fuel a vars' m = o.map fun w => (vars', writeAll w m))
    (hs : ∀ x ∈ a, ∀ y ∈ b, ∀ vars vars' d v w, x.Sets vars d v → ¬ y.Sets vars' d w)
    {m m' : ComputedStyle} (hm : SameMap m m') (rest : List (List Declaration)) :
    BlocksAlike (computeBlocks fuel (a :: b :: rest) vars m) (computeBlocks fuel (b :: a :: rest) vars m') := by
  simp only [computeBlocks]
  rcases computeBlock_writes fuel b vars with hn | ⟨v, w', hw'⟩
  · rw [hn]
    cases o with
    | none => rw [ha]; exact .none
    | some w => rw [ha]; simp only [Option.map_some]; rw [hn]; exact .none
  · have hav := hab v w' hw'
    cases o with
    | none => rw [ha, hw']; simp only [Option.map_none]; rw [hav]; exact .none
    | some w =>
      simp only [Option.map_some] at ha hav
      rw [ha, hw']
      simp only
      rw [hw', hav]
      simp only
      refine computeBlocks_alike fuel rest v (hm.exchange fun d hd hd' => ?_)
      obtain ⟨x, hx, _, _, h1⟩ := computeBlock_places ha hd
      obtain ⟨y, hy, _, _, h2⟩ := computeBlock_places hw' hd'
      exact hs x hx y hy _ _ _ _ _ h1 h2

theorem Style.Apart.symm {a b : Style} (h : a.Apart b) : b.Apart a :=
  ⟨fun x hx y hy vars vars' d v w h1 h2 => h.values y hy x hx vars' vars d w v h2 h1, h.scopes.elim (fun h => .inl ⟨h.2, h.1⟩) fun h => .inr h.symm⟩

theorem computeBlock_undefining (fuel : Nat) {s : Style} (h : s.NoDefinitions) (vars : Variables) :
    ∃ o : Option ComputedStyle, ∀ m, computeBlock fuel s.declaration vars m = o.map fun w => (vars, writeAll w m) := by
  rcases computeBlock_writes fuel s.declaration vars with hn | ⟨v, w, hw⟩
  · exact ⟨none, hn⟩
  · have := computeBlock_props fuel h vars (hw [])
    simp only at this
    subst this
    exact ⟨some w, hw⟩

theorem computeBlock_constant (fuel : Nat) {s : Style} (h : s.NoVariables) :
    ∃ o : Option ComputedStyle, ∀ vars m, computeBlock fuel s.declaration vars m = o.map fun w => (vars, writeAll w m) := by
  rcases computeBlock_literal fuel h with hn | ⟨w, hw⟩
  · exact ⟨none, hn⟩
  · exact ⟨some w, hw⟩

theorem computeBlocks_apart {fuel : Nat} {a b : Style} (h : a.Apart b) (vars : Variables) {m m' : ComputedStyle} (hm : SameMap m m') (rest : List (List Declaration)) :
    BlocksAlike (computeBlocks fuel (a.declaration :: b.declaration :: rest) vars m) (computeBlocks fuel (b.declaration :: a.declaration :: rest) vars m') := by
  rcases h.scopes with ⟨h1, h2⟩ | h1 | h1
  · obtain ⟨o, ho⟩ := computeBlock_undefining fuel h1 vars
    refine computeBlocks_exchange ho (fun vars' w hw => ?_) h.values hm rest
    have := computeBlock_props fuel h2 vars (hw [])
    simp only at this
    subst this
    exact ho
  · obtain ⟨o, ho⟩ := computeBlock_constant fuel h1
    exact computeBlocks_exchange (ho vars) (fun vars' _ _ => ho vars') h.values hm rest
  · obtain ⟨o, ho⟩ := computeBlock_constant fuel h1
    exact (computeBlocks_exchange (ho vars) (fun vars' _ _ => ho vars') h.symm.values hm.symm rest).symm

theorem computeBlocks_swapped {fuel : Nat} {l l' : List Style} (h : Swapped Style.Apart l l') (rest : List (List Declaration)) :
    ∀ (vars : Variables) {m m' : ComputedStyle}, SameMap m m' →
      BlocksAlike (computeBlocks fuel (l.map (·.declaration) ++ rest) vars m) (computeBlocks fuel (l'.map (·.declaration) ++ rest) vars m') := by
  induction h with
  | nil => exact fun vars _ _ h => computeBlocks_alike fuel rest vars h
  | @same x l l' _ ih =>
    intro vars m m' hm
    simp only [List.map_cons, List.cons_append, computeBlocks]
    have h1 := computeBlock_alike fuel x.declaration vars hm
    revert h1
    generalize computeBlock fuel x.declaration vars m = A
    generalize computeBlock fuel x.declaration vars m' = B
    intro h1
    cases h1 with
    | none => exact .none
    | some h1 => exact ih _ h1
  | swap l hs => exact fun vars m m' hm => computeBlocks_apart hs vars hm _
  | trans _ _ ih1 ih2 => exact fun vars m m' hm => (ih1 vars (.refl hm.left)).trans (ih2 vars hm)

/-! ## Rules that are kept -/

/-- The rules kept for an element, in another order. -/
abbrev SwappedKept : List ElementStyle → List ElementStyle → Prop := Swapped fun x y => x.rule.Apart y.rule

theorem classify_swapped {checks : Bool} {t : Tree} {n : NodeId} {e : Element} {l l' : List Style} (h : Swapped Style.Apart l l') :
    ExRel SwappedKept (classify checks t n e l) (classify checks t n e l') := by
  rcases classify_sorts checks t n e l with ⟨h1, h2⟩ | ⟨h1, h2⟩ <;> rcases classify_sorts checks t n e l' with ⟨g1, g2⟩ | ⟨g1, g2⟩
  · rw [h2, g2]; exact .error _
  · obtain ⟨s, hs, hf⟩ := h1; exact absurd ⟨s, h.perm.mem_iff.1 hs, hf⟩ g1
  · obtain ⟨s, hs, hf⟩ := g1; exact absurd ⟨s, h.perm.mem_iff.2 hs, hf⟩ h1
  · rw [h2, g2]
    exact .ok (h.filterMap fun x y x' y' hx hy hs => by rw [sortRule_rule hx, sortRule_rule hy]; exact hs)

theorem useRule_rule {checks : Bool} {t : Tree} {n : NodeId} {x : ElementStyle} {y : Style} (h : useRule checks t n x = some y) : x.rule = y := by
  cases x with
  | static s => simp only [useRule, Option.some.injEq] at h; exact h
  | dynamic s =>
    simp only [useRule] at h
    split at h
    · simp only [Option.some.injEq] at h; exact h
    · cases h

theorem applied_swapped {checks : Bool} {t : Tree} {n : NodeId} {l l' : List ElementStyle} (h : SwappedKept l l') :
    ExRel (Swapped Style.Apart) (applied checks viewPseudo t n l) (applied checks viewPseudo t n l') := by
  rcases applied_uses checks t n l with ⟨h1, h2⟩ | ⟨h1, h2⟩ <;> rcases applied_uses checks t n l' with ⟨g1, g2⟩ | ⟨g1, g2⟩
  · rw [h2, g2]; exact .error _
  · obtain ⟨s, hs, hf⟩ := h1; exact absurd ⟨s, h.perm.mem_iff.1 hs, hf⟩ g1
  · obtain ⟨s, hs, hf⟩ := g1; exact absurd ⟨s, h.perm.mem_iff.2 hs, hf⟩ h1
  · rw [h2, g2]
    exact .ok (h.filterMap fun x y x' y' hx hy hs => by rw [← useRule_rule hx, ← useRule_rule hy]; exact hs)

theorem keepRules_swapped {checks : Bool} {t : Tree} {l l' : List Style}
    (h : Swapped Style.Apart l l') (depth : Nat) : ∀ {n : NodeId} {k k' : NodeId → List ElementStyle}, (∀ m, SwappedKept (k m) (k' m)) →
      ExRel (fun k k' => ∀ m, SwappedKept (k m) (k' m)) (keepRules checks l t depth n k) (keepRules checks l' t depth n k') := by
  induction depth with
  | zero => intro n k k' _; exact .error _
  | succ depth ih =>
    intro n k k' hk
    rw [keepRules, keepRules]
    cases he : t.ctx n with
    | none => exact .error _
    | some e =>
      simp only
      have hc := classify_swapped (checks := checks) (t := t) (n := n) (e := e) h
      revert hc
      generalize classify checks t n e l = A
      generalize classify checks t n e l' = B
      intro hc
      cases hc with
      | error f => exact .error _
      | @ok c c' hc =>
        simp only
        have loop : ∀ (cs : List NodeId) {k k' : NodeId → List ElementStyle}, (∀ m, SwappedKept (k m) (k' m)) →
            ExRel (fun k k' => ∀ m, SwappedKept (k m) (k' m)) (keepEach (fun kept c => keepRules checks l t depth c kept) cs k)
              (keepEach (fun kept c => keepRules checks l' t depth c kept) cs k') := by
          intro cs
          induction cs with
          | nil => intro k k' hk; exact .ok hk
          | cons c cs ihc =>
            intro k k' hk
            simp only [keepEach]
            have h1 := ih (n := c) hk
            revert h1
            generalize keepRules checks l t depth c k = A
            generalize keepRules checks l' t depth c k' = B
            intro h1
            cases h1 with
            | error f => exact .error _
            | ok h1 => exact ihc h1
        refine loop _ fun m => ?_
        by_cases hm : m = n
        · subst hm; rw [upd_same, upd_same]; exact hc
        · rw [upd_other _ _ hm, upd_other _ _ hm]; exact hk m

/-! ## Elements -/

theorem styleElement_swapped {env : FrameEnv} (hf : env.order.Fair) {rules' : NodeId → List ElementStyle} {t : Tree} {n : NodeId} (h : SwappedKept (env.rules n) (rules' n))
    (parent : Element) (sizes : Sizes) (vars : Variables) (layout : LayoutStyle) (e : Element)
    (hs : ∀ x, x ∈ declarations env t n e ∨ x ∈ keyframeDeclarations env e → x.Singular) :
    styleElement { env with rules := rules' } t n parent sizes vars layout e = styleElement env t n parent sizes vars layout e := by
  unfold styleElement
  simp only [playAnimators_rules]
  have ha := applied_swapped (checks := env.checks) (t := t) (n := n) h
  cases h1 : applied env.checks viewPseudo t n (env.rules n) with
  | error f =>
    rw [h1] at ha
    cases h1' : applied env.checks viewPseudo t n (rules' n) with
    | error f' => rfl
    | ok r => rw [h1'] at ha; cases ha
  | ok rules =>
    rw [h1] at ha
    cases h1' : applied env.checks viewPseudo t n (rules' n) with
    | error f' => rw [h1'] at ha; cases ha
    | ok rules2 =>
      rw [h1'] at ha
      cases ha with
      | ok ha =>
      have e1 : (parent.inherit e.reset).style = e.style := rfl
      have e2 : (parent.inherit e.reset).animators = e.animators := rfl
      have e3 : (parent.inherit e.reset).transitions = e.transitions := rfl
      simp only [e1, e2, e3]
      have hb := computeBlocks_swapped (fuel := env.fuel) ha (if e.style.isEmpty then [] else [e.style]) vars (SameMap.refl (a := []) List.nodup_nil)
      change BlocksAlike (computeBlocks env.fuel (elementBlocks rules e.style) vars []) (computeBlocks env.fuel (elementBlocks rules2 e.style) vars []) at hb
      cases h2 : computeBlocks env.fuel (elementBlocks rules e.style) vars [] with
      | none =>
        rw [h2] at hb
        cases h2' : computeBlocks env.fuel (elementBlocks rules2 e.style) vars [] with
        | none => rfl
        | some r => rw [h2'] at hb; cases hb
      | some r =>
        obtain ⟨vars', declared⟩ := r
        rw [h2] at hb
        cases h2' : computeBlocks env.fuel (elementBlocks rules2 e.style) vars [] with
        | none => rw [h2'] at hb; cases hb
        | some r' =>
          obtain ⟨vars2, declared'⟩ := r'
          rw [h2'] at hb
          cases hb with
          | some hb =>
          have ha := playAnimators_alike (SameBut.refl hf) n vars' e.animators 0 hb
          simp only
          cases h3 : playAnimators env n vars' 0 e.animators declared with
          | error x => rw [h3] at ha; cases h4 : playAnimators env n vars' 0 e.animators declared' <;> rw [h4] at ha <;> cases ha; rfl
          | ok r =>
            rw [h3] at ha
            cases h4 : playAnimators env n vars' 0 e.animators declared' with
            | error x => rw [h4] at ha; cases ha
            | ok r' =>
              rw [h4] at ha
              obtain ⟨a1, m1⟩ := r
              obtain ⟨a2, m2⟩ := r'
              cases ha with
              | ok ha =>
                obtain ⟨ha, hm⟩ := ha
                simp only at ha hm
                subst ha
                have ht := playTransitions_alike (fuel := env.fuel) (time := env.time) e.transitions hm
                simp only
                cases h5 : playTransitions env.fuel env.time e.transitions m1 with
                | error x => rw [h5] at ht; cases h6 : playTransitions env.fuel env.time e.transitions m2 <;> rw [h6] at ht <;> cases ht; rfl
                | ok r =>
                  rw [h5] at ht
                  cases h6 : playTransitions env.fuel env.time e.transitions m2 with
                  | error x => rw [h6] at ht; cases ht
                  | ok r' =>
                    rw [h6] at ht
                    obtain ⟨b1, f1⟩ := r
                    obtain ⟨b2, f2⟩ := r'
                    cases ht with
                    | ok ht =>
                      obtain ⟨hb', hfin⟩ := ht
                      simp only at hb' hfin
                      subst hb'
                      have hst : Steps env t n parent sizes vars layout e _ _ vars' rules declared a1 m1 b1 f1 := ⟨h1, h2, h3, h5, rfl, rfl⟩
                      have hdom := hst.domain hf (fun x hx _ _ _ hx' => singular_orderly (hs x hx) hx')
                      have hperm : (env.order.style n f1).Perm (env.order.style n f2) :=
                        (hf.style n f1).trans (hfin.perm.trans (hf.style n f2).symm)
                      have honce : (env.order.style n f1).Once := ((hf.style n f1).map _).nodup_iff.2 hfin.left
                      have hget : ∀ d v, (env.order.style n f1).get d = some v → Orderly d := by
                        intro d v hv
                        refine hdom d v ((hfin.left.get_iff d v).2 ?_)
                        exact (hf.style n f1).mem_iff.1 ((honce.get_iff d v).1 hv)
                      simp only [applyAll_orderly sizes hperm honce hget, init_same hfin]

theorem applied_from {checks : Bool} {t : Tree} {n : NodeId} {l : List ElementStyle} {rules : List Style} (h : applied checks viewPseudo t n l = .ok rules) :
    ∀ r ∈ rules, ∃ x ∈ l, x.rule = r := by
  rcases applied_uses checks t n l with ⟨h1, h2⟩ | ⟨h1, h2⟩
  · rw [h2] at h; cases h
  · rw [h2] at h
    injection h with h
    subst h
    intro r hr
    obtain ⟨x, hx, hxr⟩ := List.mem_filterMap.1 hr
    exact ⟨x, hx, useRule_rule hxr⟩

theorem declarations_singular {env : FrameEnv} {t : Tree} {n : NodeId} {e : Element}
    (hr : ∀ n, ∀ r ∈ env.rules n, ∀ x ∈ r.rule.declaration, x.Singular)
    (ha : ∀ name an, env.animations name = some an → ∀ k ∈ an.keyframes, ∀ x ∈ k.declaration, x.Singular)
    (hst : ∀ x ∈ e.style, x.Singular) : ∀ x, x ∈ declarations env t n e ∨ x ∈ keyframeDeclarations env e → x.Singular := by
  intro x hx
  rcases hx with hx | hx
  · unfold declarations at hx
    split at hx
    · rename_i rules hrules
      rcases List.mem_append.1 hx with hx | hx
      · obtain ⟨b, hb, hxb⟩ := List.mem_flatten.1 hx
        obtain ⟨r, hr', rfl⟩ := List.mem_map.1 hb
        obtain ⟨y, hy, rfl⟩ := applied_from hrules r hr'
        exact hr n y hy x hxb
      · exact hst x hx
    · cases hx
  · unfold keyframeDeclarations at hx
    obtain ⟨b, hb, hxb⟩ := List.mem_flatten.1 hx
    obtain ⟨a, _, rfl⟩ := List.mem_map.1 hb
    split at hxb
    · rename_i an han
      obtain ⟨b, hb, hxb⟩ := List.mem_flatten.1 hxb
      obtain ⟨k, hk, rfl⟩ := List.mem_map.1 hb
      exact ha _ an han k hk x hxb
    · cases hxb

/-- Styling a tree with rules in another order. -/
theorem styleTree_swapped {env : FrameEnv} (hf : env.order.Fair) {rules' : NodeId → List ElementStyle} (hk : ∀ n, SwappedKept (env.rules n) (rules' n))
    (hr : ∀ n, ∀ r ∈ env.rules n, ∀ x ∈ r.rule.declaration, x.Singular)
    (ha : ∀ name an, env.animations name = some an → ∀ k ∈ an.keyframes, ∀ x ∈ k.declaration, x.Singular)
    (depth : Nat) (n : NodeId) (sizes : Sizes) (vars : Variables) (s : Styled) (hi : ∀ n e, s.tree.ctx n = some e → ∀ x ∈ e.style, x.Singular) :
    styleTree env depth n sizes vars s = styleTree { env with rules := rules' } depth n sizes vars s ∧
    ∀ s', styleTree env depth n sizes vars s = .ok s' → ∀ n e, s'.tree.ctx n = some e → ∀ x ∈ e.style, x.Singular := by
  have hput : ∀ (s : Styled) (n : NodeId) (l : LayoutStyle) (e e' : Element), s.tree.ctx n = some e → e'.style = e.style →
      (∀ n e, s.tree.ctx n = some e → ∀ x ∈ e.style, x.Singular) → ∀ m a, (s.put n l e').tree.ctx m = some a → ∀ x ∈ a.style, x.Singular := by
    intro s n l e e' he hst hi m a hm
    by_cases hmn : m = n
    · subst hmn
      simp only [Styled.put, Tree.setCtx, upd_same, Option.some.injEq] at hm
      subst hm
      rw [hst]
      exact hi m e he
    · simp only [Styled.put, Tree.setCtx, upd_other _ _ hmn] at hm
      exact hi m a hm
  induction depth generalizing n sizes vars s with
  | zero => exact ⟨rfl, fun s' h => by cases h⟩
  | succ depth ih =>
    simp only [styleTree]
    cases hp : (s.tree.par n).bind s.tree.ctx with
    | none => exact ⟨rfl, fun s' h => by cases h⟩
    | some parent =>
      cases hc : s.tree.ctx n with
      | none => exact ⟨rfl, fun s' h => by cases h⟩
      | some e =>
        simp only
        by_cases ht : e.text.isSome
        · simp only [if_pos ht]
          refine ⟨by trivial, fun s' h => ?_⟩
          injection h with h
          subst h
          exact hput s n _ e _ hc rfl hi
        · simp only [if_neg ht]
          rw [styleElement_swapped hf (hk n) parent sizes vars (s.layouts n) e (declarations_singular hr ha (hi n e hc))]
          cases hse : styleElement env s.tree n parent sizes vars (s.layouts n) e with
          | error x => exact ⟨rfl, fun s' h => by cases h⟩
          | ok r =>
            obtain ⟨⟨l, e'⟩, vars'⟩ := r
            simp only
            have hi' := hput s n l e e' hc (styleElement_form hse).2.2 hi
            by_cases hleaf : e'.tag ∈ leafTags
            · simp only [if_pos hleaf]
              refine ⟨by trivial, fun s' h => ?_⟩
              injection h with h
              subst h
              exact hi'
            · simp only [if_neg hleaf]
              have loop : ∀ (cs : List NodeId) (s : Styled), (∀ n e, s.tree.ctx n = some e → ∀ x ∈ e.style, x.Singular) →
                  forEach (fun s c => styleTree env depth c (sizes.under e') vars' s) cs s =
                    forEach (fun s c => styleTree { env with rules := rules' } depth c (sizes.under e') vars' s) cs s ∧
                  ∀ s', forEach (fun s c => styleTree env depth c (sizes.under e') vars' s) cs s = .ok s' → ∀ n e, s'.tree.ctx n = some e → ∀ x ∈ e.style, x.Singular := by
                intro cs
                induction cs with
                | nil => intro s hi; exact ⟨rfl, fun s' h => by injection h with h; subst h; exact hi⟩
                | cons c cs ihc =>
                  intro s hi
                  obtain ⟨g1, g2⟩ := ih c (sizes.under e') vars' s hi
                  simp only [forEach, ← g1]
                  cases hst : styleTree env depth c (sizes.under e') vars' s with
                  | error x => exact ⟨rfl, fun s' h => by cases h⟩
                  | ok s1 => exact ihc s1 (g2 s1 hst)
              exact loop _ _ hi'

/-! ## Whole runs -/

/-- The same program with rules in another order. -/
structure App.Swaps (a a' : App) : Prop where
  screen : a'.screen = a.screen
  layouts : a'.layouts = a.layouts
  animations : a'.css.animations = a.css.animations
  kept : ∀ m, SwappedKept (a.kept m) (a'.kept m)

theorem openApp_swapped {fuel : Nat} {document : Html} {css css' : Css} (hm : Swapped Style.Apart css.styles css'.styles)
    (ha : css'.animations = css.animations) : ExRel App.Swaps (openApp p fuel document css) (openApp p fuel document css') := by
  unfold openApp
  simp only
  split
  · exact .error _
  · rename_i root body σ _
    split
    · exact .error _
    · have hr := keepRules_swapped (checks := p.checks) (t := σ.tree) hm fuel (n := body) (k := fun _ => []) (k' := fun _ => []) (fun _ => .nil)
      revert hr
      generalize keepRules p.checks css.styles σ.tree fuel body (fun _ => []) = A
      generalize keepRules p.checks css'.styles σ.tree fuel body (fun _ => []) = B
      intro hr
      cases hr with
      | error f => exact .error _
      | ok hr =>
        simp only
        split
        · exact .error _
        · exact .ok ⟨rfl, rfl, ha, hr⟩

end Verif
