import Verif.Spec.Copies
import Verif.View.Useless
/-!
# Lemmas about rules written more than once (C104)
-/
namespace Verif

variable {p : Platform}

theorem Copied.mem {α : Type} {T E : α → Prop} {l l' : List α} (h : Copied T E l l') (x : α) : x ∈ l' ↔ x ∈ l := by
  induction h with
  | nil => simp
  | same _ ih => simp [ih]
  | twice _ _ ih => simp [ih]
  | @earlier y l l' _ hy _ ih =>
    simp only [List.mem_cons, ih]
    exact ⟨fun h => h.elim (fun h => h ▸ hy) id, .inr⟩

theorem Copied.filterMap {α β : Type} {T E : α → Prop} {T' E' : β → Prop} {f : α → Option β} (hf : ∀ x y, f x = some y → (T x → T' y) ∧ (E x → E' y))
    {l l' : List α} (h : Copied T E l l') : Copied T' E' (l.filterMap f) (l'.filterMap f) := by
  induction h with
  | nil => exact .nil
  | @same x l l' _ ih =>
    simp only [List.filterMap_cons]
    split
    · exact ih
    · exact .same ih
  | @twice x l l' hx _ ih =>
    simp only [List.filterMap_cons]
    split
    · exact ih
    · rename_i y hy; exact .twice ((hf x y hy).1 hx) ih
  | @earlier x l l' hx hm _ ih =>
    simp only [List.filterMap_cons]
    split
    · exact ih
    · rename_i y hy; exact .earlier ((hf x y hy).2 hx) (List.mem_filterMap.2 ⟨x, hm, hy⟩) ih

/-! ## Writing values -/

/-- Values written one after the other. -/
def writeAll (w : ComputedStyle) (m : ComputedStyle) : ComputedStyle := w.foldl (fun m x => m.insert x.1 x.2) m

/-- What a style has at other places. -/
def outside (keys : List Descriptor) (m : ComputedStyle) : ComputedStyle := m.filter fun x => !keys.contains x.1

theorem writeAll_append (a b m : ComputedStyle) : writeAll (a ++ b) m = writeAll b (writeAll a m) := List.foldl_append

theorem outside_insert (keys : List Descriptor) (d : Descriptor) (v : ComputedValue) {m m' : ComputedStyle} (h : outside keys m = outside keys m') :
    outside keys (m.insert d v) = outside keys (m'.insert d v) := by
  unfold outside ComputedStyle.insert at *
  simp only [List.filter_append, List.filter_filter] at h ⊢
  congr 1
  have key : ∀ l : ComputedStyle, l.filter (fun a => (!keys.contains a.1) && (a.1 != d)) = (l.filter fun x => !keys.contains x.1).filter fun a => a.1 != d := by
    intro l; rw [List.filter_filter]; congr 1; funext a; exact Bool.and_comm _ _
  rw [key, key, h]

theorem outside_writeAll (keys : List Descriptor) (w : ComputedStyle) {m m' : ComputedStyle} (h : outside keys m = outside keys m') :
    outside keys (writeAll w m) = outside keys (writeAll w m') := by
  induction w generalizing m m' with
  | nil => exact h
  | cons x w ih => exact ih (outside_insert keys x.1 x.2 h)

theorem outside_cons_insert (keys : List Descriptor) (d : Descriptor) (v : ComputedValue) {m m' : ComputedStyle} (h : outside (d :: keys) m = outside (d :: keys) m') :
    outside keys (m.insert d v) = outside keys (m'.insert d v) := by
  unfold outside ComputedStyle.insert at *
  simp only [List.filter_append, List.filter_filter]
  congr 1
  have key : ∀ l : ComputedStyle, l.filter (fun a => (!keys.contains a.1) && (a.1 != d)) = l.filter fun x => !(d :: keys).contains x.1 := by
    intro l; congr 1; funext a
    rw [List.contains_cons, Bool.not_or, Bool.and_comm]
    rfl
  rw [key, key, h]

/-- Where values are written, it does not matter what was there. -/
theorem writeAll_over (w : ComputedStyle) {m m' : ComputedStyle} (h : outside (w.map (·.1)) m = outside (w.map (·.1)) m') : writeAll w m = writeAll w m' := by
  induction w generalizing m m' with
  | nil => simpa [outside, writeAll] using h
  | cons x w ih => exact ih (outside_cons_insert _ x.1 x.2 h)

theorem outside_forget (keys : List Descriptor) (w : ComputedStyle) (hw : ∀ x ∈ w, x.1 ∈ keys) (m : ComputedStyle) : outside keys (writeAll w m) = outside keys m := by
  induction w generalizing m with
  | nil => rfl
  | cons x w ih =>
    show outside keys (writeAll w (m.insert x.1 x.2)) = _
    rw [ih (fun y hy => hw y (List.mem_cons_of_mem _ hy))]
    have hx := hw x List.mem_cons_self
    unfold outside ComputedStyle.insert
    simp only [List.filter_append, List.filter_filter, List.filter_cons, List.filter_nil]
    have : keys.contains x.1 = true := by simpa using hx
    rw [this]
    simp only [Bool.not_true, Bool.false_eq_true, if_false, List.append_nil]
    apply List.filter_congr
    intro a _
    by_cases ha : a.1 = x.1
    · simp [ha, hx]
    · simp [ha]

theorem writeAll_twice (w m : ComputedStyle) : writeAll w (writeAll w m) = writeAll w m :=
  writeAll_over w (outside_forget _ w (fun _ hx => List.mem_map_of_mem hx) m)

theorem overwrites_writes (index : Nat) (l : List (PropertyKey × ComputedValue)) : ∃ w, ∀ m, overwrites index l m = writeAll w m := by
  induction l with
  | nil => exact ⟨[], fun _ => rfl⟩
  | cons x l ih =>
    obtain ⟨w, hw⟩ := ih
    exact ⟨(⟨x.1, index⟩, x.2) :: w, fun m => hw _⟩

theorem computeValues_writes (vars : Variables) (fuel : Nat) (key : PropertyKey) (l : List Shorthand) : ∀ index,
    (∀ m, computeValues vars fuel key index l m = none) ∨ ∃ w, ∀ m, computeValues vars fuel key index l m = some (writeAll w m) := by
  induction l with
  | nil => exact fun _ => .inr ⟨[], fun _ => rfl⟩
  | cons v l ih =>
    intro index
    simp only [computeValues, computeStyle]
    cases computeShorthand vars fuel v with
    | none => exact .inl fun _ => rfl
    | some values =>
      simp only
      obtain ⟨w, hw⟩ := overwrites_writes index (expand key values)
      rcases ih (index + 1) with h | ⟨w', h⟩
      · exact .inl fun m => h _
      · exact .inr ⟨w ++ w', fun m => by rw [h, hw, writeAll_append]⟩

/-- What a block writes does not depend on what is there. -/
theorem computeBlock_writes (fuel : Nat) (block : List Declaration) : ∀ vars,
    (∀ m, computeBlock fuel block vars m = none) ∨ ∃ vars' w, ∀ m, computeBlock fuel block vars m = some (vars', writeAll w m) := by
  induction block with
  | nil => exact fun vars => .inr ⟨vars, [], fun _ => rfl⟩
  | cons d block ih =>
    intro vars
    cases d with
    | «variable» k s => simpa only [computeBlock] using ih (vars.set k s)
    | property k values =>
      simp only [computeBlock]
      rcases computeValues_writes vars fuel k values 0 with h | ⟨w, h⟩
      · exact .inl fun m => by rw [h]
      · simp only [h]
        rcases ih vars with h' | ⟨vars', w', h'⟩
        · exact .inl fun m => h' _
        · exact .inr ⟨vars', w ++ w', fun m => by rw [h', writeAll_append]⟩

/-! ## Values without variables -/

theorem gather_congr {α β : Type} {f g : α → Option (List β)} {l : List α} (h : ∀ a ∈ l, f a = g a) : gather f l = gather g l := by
  induction l with
  | nil => rfl
  | cons a l ih => simp only [gather, h a List.mem_cons_self, ih fun b hb => h b (List.mem_cons_of_mem _ hb)]

theorem computeDef_noVar (vars vars' : Variables) (fuel : Nat) : ∀ {d : Definition}, d.NoVar → computeDef vars fuel d = computeDef vars' fuel d := by
  induction fuel with
  | zero => intros; rfl
  | succ fuel ih =>
    intro d hd
    cases hd with
    | explicit v => rfl
    | function name args h => simp only [computeDef, gather_congr fun a ha => ih (h a ha)]

theorem computeValues_noVar (vars vars' : Variables) (fuel : Nat) (key : PropertyKey) {l : List Shorthand} (h : ∀ v ∈ l, ∀ d ∈ v, d.NoVar) :
    ∀ index m, computeValues vars fuel key index l m = computeValues vars' fuel key index l m := by
  induction l with
  | nil => intros; rfl
  | cons v l ih =>
    intro index m
    simp only [computeValues, computeStyle, computeShorthand, gather_congr fun d hd => computeDef_noVar vars vars' fuel (h v List.mem_cons_self d hd),
      ih fun v hv => h v (List.mem_cons_of_mem _ hv)]

/-- A block without variables writes the same everywhere. -/
theorem computeBlock_literal (fuel : Nat) {block : List Declaration} (h : ∀ d ∈ block, d.Literal) :
    (∀ vars m, computeBlock fuel block vars m = none) ∨ ∃ w, ∀ vars m, computeBlock fuel block vars m = some (vars, writeAll w m) := by
  induction block with
  | nil => exact .inr ⟨[], fun _ _ => rfl⟩
  | cons d block ih =>
    have hd := h d List.mem_cons_self
    cases d with
    | «variable» k s => exact hd.elim
    | property k values =>
      simp only [computeBlock]
      have hv := fun (vars : Variables) => computeValues_noVar vars (fun _ => none) fuel k hd 0
      rcases computeValues_writes (fun _ => none) fuel k values 0 with g | ⟨w, g⟩
      · exact .inl fun vars m => by rw [hv, g]
      · simp only [hv, g]
        rcases ih fun d hd => h d (List.mem_cons_of_mem _ hd) with h' | ⟨w', h'⟩
        · exact .inl fun vars m => h' _ _
        · exact .inr ⟨w ++ w', fun vars m => by rw [h', writeAll_append]⟩

/-! ## Blocks written twice -/

theorem computeBlock_joined (fuel : Nat) (a b : List Declaration) (vars : Variables) (m : ComputedStyle) :
    computeBlock fuel (a ++ b) vars m = (computeBlock fuel a vars m).bind fun r => computeBlock fuel b r.1 r.2 := by
  induction a generalizing vars m with
  | nil => rfl
  | cons d a ih =>
    cases d with
    | «variable» k s => simp only [List.cons_append, computeBlock, ih]
    | property k values =>
      simp only [List.cons_append, computeBlock]
      cases computeValues vars fuel k 0 values m with
      | none => rfl
      | some m => simp only [ih]

/-- Variables defined one after the other. -/
def defineEach (defs : List Declaration) (vars : Variables) : Variables :=
  defs.foldl (fun vars d => match d with | .«variable» k s => vars.set k s | .property _ _ => vars) vars

theorem computeBlock_defs (fuel : Nat) {defs : List Declaration} (h : ∀ d ∈ defs, ∃ k v, d = .«variable» k v) (vars : Variables) (m : ComputedStyle) :
    computeBlock fuel defs vars m = some (defineEach defs vars, m) := by
  induction defs generalizing vars with
  | nil => rfl
  | cons d defs ih =>
    obtain ⟨k, v, rfl⟩ := h d List.mem_cons_self
    simp only [computeBlock]
    exact ih (fun d hd => h d (List.mem_cons_of_mem _ hd)) _

theorem computeBlock_props (fuel : Nat) {props : List Declaration} (h : ∀ d ∈ props, ∃ k v, d = .property k v) (vars : Variables) {m : ComputedStyle}
    {r : Variables × ComputedStyle} (hr : computeBlock fuel props vars m = some r) : r.1 = vars := by
  induction props generalizing m with
  | nil => simp only [computeBlock, Option.some.injEq] at hr; rw [← hr]
  | cons d props ih =>
    obtain ⟨k, v, rfl⟩ := h d List.mem_cons_self
    simp only [computeBlock] at hr
    split at hr
    · cases hr
    · exact ih (fun d hd => h d (List.mem_cons_of_mem _ hd)) hr

theorem set_set_other {α : Type} (m : SMap α) (k : String) (a : α) (x : String) : m.set k a x = if x = k then some a else m x := by
  by_cases h : x = k
  · subst h; rw [if_pos rfl]; exact SMap.set_same _ _ _
  · rw [if_neg h]; exact SMap.set_other _ _ h

/-- Where a variable is defined, it does not matter what it was. -/
theorem defineEach_at (defs : List Declaration) (k : String) : (∀ vars : Variables, defineEach defs vars k = vars k) ∨ ∃ v, ∀ vars : Variables, defineEach defs vars k = v := by
  induction defs with
  | nil => exact .inl fun _ => rfl
  | cons d defs ih =>
    rcases ih with h | ⟨v, h⟩
    · cases d with
      | «variable» k' s =>
        by_cases hk : k = k'
        · exact .inr ⟨some s, fun vars => by show defineEach defs (vars.set k' s) k = _; rw [h, set_set_other, if_pos hk]⟩
        · exact .inl fun vars => by show defineEach defs (vars.set k' s) k = _; rw [h, set_set_other, if_neg hk]
      | property k' s => exact .inl fun vars => h vars
    · exact .inr ⟨v, fun vars => h _⟩

theorem defineEach_twice (defs : List Declaration) (vars : Variables) : defineEach defs (defineEach defs vars) = defineEach defs vars := by
  funext k
  rcases defineEach_at defs k with h | ⟨v, h⟩
  · rw [h]
  · rw [h, h]

/-- A block that defines its variables first does the same when it is done again. -/
theorem computeBlock_twice (fuel : Nat) {s : Style} (h : s.VariablesFirst) {vars vars' : Variables} {m m' : ComputedStyle}
    (hr : computeBlock fuel s.declaration vars m = some (vars', m')) : computeBlock fuel s.declaration vars' m' = some (vars', m') := by
  obtain ⟨defs, props, he, hd, hp⟩ := h
  rw [he, computeBlock_joined, computeBlock_defs fuel hd] at hr ⊢
  simp only [Option.bind_some] at hr ⊢
  have h1 := computeBlock_props fuel hp _ hr
  simp only at h1
  subst h1
  rw [defineEach_twice]
  rcases computeBlock_writes fuel props (defineEach defs vars) with hn | ⟨v, w, hw⟩
  · rw [hn] at hr; cases hr
  · rw [hw] at hr ⊢
    simp only [Option.some.injEq, Prod.mk.injEq] at hr ⊢
    obtain ⟨h1, rfl⟩ := hr
    exact ⟨h1, writeAll_twice w m⟩

/-! ## All blocks -/

theorem computeBlocks_none {fuel : Nat} {b : List Declaration} (hb : ∀ vars m, computeBlock fuel b vars m = none) {l : List (List Declaration)} (h : b ∈ l)
    (vars : Variables) (m : ComputedStyle) : computeBlocks fuel l vars m = none := by
  induction l generalizing vars m with
  | nil => cases h
  | cons c l ih =>
    simp only [computeBlocks]
    rcases List.mem_cons.1 h with rfl | h
    · rw [hb]
    · split
      · rfl
      · exact ih h _ _

/-- What a later block overwrites does not matter. -/
theorem computeBlocks_over {fuel : Nat} {b : List Declaration} {w : ComputedStyle} (hb : ∀ vars m, computeBlock fuel b vars m = some (vars, writeAll w m))
    {l : List (List Declaration)} (h : b ∈ l) (vars : Variables) {m m' : ComputedStyle} (hm : outside (w.map (·.1)) m = outside (w.map (·.1)) m') :
    computeBlocks fuel l vars m = computeBlocks fuel l vars m' := by
  induction l generalizing vars m m' with
  | nil => cases h
  | cons c l ih =>
    simp only [computeBlocks]
    by_cases hc : b = c
    · subst hc
      rw [hb, hb, writeAll_over w hm]
    · have h : b ∈ l := by
        rcases List.mem_cons.1 h with h | h
        · exact absurd h hc
        · exact h
      rcases computeBlock_writes fuel c vars with hn | ⟨v, w', hw⟩
      · rw [hn, hn]
      · rw [hw, hw]
        exact ih h v (outside_writeAll _ w' hm)

theorem computeBlocks_copied {fuel : Nat} {l l' : List Style} (h : Copied Style.VariablesFirst Style.NoVariables l l') (rest : List (List Declaration)) :
    ∀ vars m, computeBlocks fuel (l'.map (·.declaration) ++ rest) vars m = computeBlocks fuel (l.map (·.declaration) ++ rest) vars m := by
  induction h with
  | nil => intros; rfl
  | @same x l l' _ ih => intro vars m; simp only [List.map_cons, List.cons_append, computeBlocks, ih]
  | @twice x l l' hx _ ih =>
    intro vars m
    simp only [List.map_cons, List.cons_append, computeBlocks, ih]
    cases hc : computeBlock fuel x.declaration vars m with
    | none => rfl
    | some r =>
      obtain ⟨v, m'⟩ := r
      simp only [computeBlock_twice fuel hx hc]
  | @earlier x l l' hx hm _ ih =>
    intro vars m
    have hmem : x.declaration ∈ l.map (·.declaration) ++ rest := List.mem_append_left _ (List.mem_map_of_mem hm)
    simp only [List.map_cons, List.cons_append, computeBlocks]
    rcases computeBlock_literal fuel hx with hn | ⟨w, hw⟩
    · rw [hn, computeBlocks_none hn hmem]
    · rw [hw]
      simp only
      rw [ih]
      exact computeBlocks_over hw hmem vars (outside_forget _ w (fun _ hx => List.mem_map_of_mem hx) m)

/-! ## Rules that are kept -/

theorem matchLoop_panic {checks pc} {t : Tree} (ss : List Simple) : ∀ {n : NodeId} {e : Element} {f : Fail}, matchLoop checks pc t ss n e = .error f → f = .panic := by
  induction ss with
  | nil => intro n e f h; cases h
  | cons s ss ih =>
    intro n e f h
    by_cases hs : s.isPart = true
    · rw [matchLoop_part hs] at h
      split at h
      · exact ih h
      · cases h
    · cases s with
      | combinator d =>
        simp only [matchLoop] at h
        split at h
        · rename_i g hg
          injection h with h; subst h
          unfold nextTarget at hg
          split at hg
          · cases hg
          · split at hg
            · split at hg
              · cases hg
              · split at hg
                · cases hg
                · split at hg
                  · injection hg with hg; exact hg.symm
                  · cases hg
                · cases hg
            · cases hg
        · cases h
        · split at h
          · injection h with h; exact h.symm
          · exact ih h
      | _ => simp [Simple.isPart] at hs

theorem matchStyle_panic {checks pc} {t : Tree} {s : Style} {n : NodeId} {f : Fail} (h : matchStyle checks pc t s n = .error f) : f = .panic := by
  unfold matchStyle at h
  revert h
  induction s.selectors with
  | nil => intro h; cases h
  | cons c l ih =>
    intro h
    simp only [matchAny] at h
    split at h
    · rename_i g hg
      injection h with h; subst h
      unfold matchComplex at hg
      split at hg
      · injection hg with hg; exact hg.symm
      · exact matchLoop_panic _ hg
    · cases h
    · exact ih h

/-- What becomes of one rule. -/
def sortRule (checks : Bool) (t : Tree) (n : NodeId) (e : Element) (s : Style) : Option ElementStyle :=
  match matchStyle checks anyPseudo t s n with
  | .error _ => none
  | .ok m =>
    if m then if isStatic e.hints s && !s.hasPseudoSelector then some (.static s) else some (.dynamic s)
    else if isStatic e.hints s then none else some (.dynamic s)

theorem sortRule_rule {checks : Bool} {t : Tree} {n : NodeId} {e : Element} {s : Style} {y : ElementStyle} (h : sortRule checks t n e s = some y) : y.rule = s := by
  unfold sortRule at h
  split at h
  · cases h
  · split at h <;> split at h <;> first | (injection h with h; subst h; rfl) | cases h

theorem classify_sorts (checks : Bool) (t : Tree) (n : NodeId) (e : Element) (l : List Style) :
    ((∃ s ∈ l, ∃ f, matchStyle checks anyPseudo t s n = .error f) ∧ classify checks t n e l = .error .panic) ∨
    ((¬ ∃ s ∈ l, ∃ f, matchStyle checks anyPseudo t s n = .error f) ∧ classify checks t n e l = .ok (l.filterMap (sortRule checks t n e))) := by
  induction l with
  | nil => exact .inr ⟨by simp, rfl⟩
  | cons s l ih =>
    rw [classify]
    cases hm : matchStyle checks anyPseudo t s n with
    | error f => exact .inl ⟨⟨s, List.mem_cons_self, f, hm⟩, by rw [matchStyle_panic hm]⟩
    | ok b =>
      simp only
      rcases ih with ⟨⟨s', h1, f, h2⟩, h3⟩ | ⟨h1, h2⟩
      · exact .inl ⟨⟨s', List.mem_cons_of_mem _ h1, f, h2⟩, by rw [h3]⟩
      · refine .inr ⟨?_, ?_⟩
        · rintro ⟨s', h3, f, h4⟩
          rcases List.mem_cons.1 h3 with rfl | h3
          · rw [hm] at h4; cases h4
          · exact h1 ⟨s', h3, f, h4⟩
        · rw [h2]
          simp only [List.filterMap_cons, sortRule, hm]
          cases b <;> simp only [Bool.false_eq_true, if_false, if_true] <;> split <;> rfl

/-- What is used of one kept rule now. -/
def useRule (checks : Bool) (t : Tree) (n : NodeId) : ElementStyle → Option Style
  | .static s => some s
  | .dynamic s => match matchStyle checks viewPseudo t s n with | .ok true => some s | _ => none

/-- Checking the rule fails. -/
def ElementStyle.Fails (checks : Bool) (t : Tree) (n : NodeId) : ElementStyle → Prop
  | .static _ => False
  | .dynamic s => ∃ f, matchStyle checks viewPseudo t s n = .error f

theorem applied_uses (checks : Bool) (t : Tree) (n : NodeId) (l : List ElementStyle) :
    ((∃ s ∈ l, s.Fails checks t n) ∧ applied checks viewPseudo t n l = .error .panic) ∨
    ((¬ ∃ s ∈ l, s.Fails checks t n) ∧ applied checks viewPseudo t n l = .ok (l.filterMap (useRule checks t n))) := by
  induction l with
  | nil => exact .inr ⟨by simp, rfl⟩
  | cons s l ih =>
    cases s with
    | static s =>
      simp only [applied]
      rcases ih with ⟨⟨s', h1, h2⟩, h3⟩ | ⟨h1, h2⟩
      · exact .inl ⟨⟨s', List.mem_cons_of_mem _ h1, h2⟩, by rw [h3]⟩
      · refine .inr ⟨?_, by rw [h2]; rfl⟩
        rintro ⟨s', h3, h4⟩
        rcases List.mem_cons.1 h3 with rfl | h3
        · exact h4
        · exact h1 ⟨s', h3, h4⟩
    | dynamic s =>
      simp only [applied]
      cases hm : matchStyle checks viewPseudo t s n with
      | error f => exact .inl ⟨⟨.dynamic s, List.mem_cons_self, f, hm⟩, by rw [matchStyle_panic hm]⟩
      | ok b =>
        simp only
        rcases ih with ⟨⟨s', h1, h2⟩, h3⟩ | ⟨h1, h2⟩
        · exact .inl ⟨⟨s', List.mem_cons_of_mem _ h1, h2⟩, by rw [h3]⟩
        · refine .inr ⟨?_, ?_⟩
          · rintro ⟨s', h3, h4⟩
            rcases List.mem_cons.1 h3 with rfl | h3
            · obtain ⟨f, h4⟩ := h4; rw [hm] at h4; cases h4
            · exact h1 ⟨s', h3, h4⟩
          · rw [h2]
            cases b <;> simp [useRule, hm]

/-- The copies among the rules kept for an element. -/
abbrev CopiedKept : List ElementStyle → List ElementStyle → Prop := Copied (fun x => x.rule.VariablesFirst) (fun x => x.rule.NoVariables)

theorem classify_copied {checks : Bool} {t : Tree} {n : NodeId} {e : Element} {l l' : List Style} (h : Copied Style.VariablesFirst Style.NoVariables l l') :
    ExRel CopiedKept (classify checks t n e l) (classify checks t n e l') := by
  rcases classify_sorts checks t n e l with ⟨h1, h2⟩ | ⟨h1, h2⟩ <;> rcases classify_sorts checks t n e l' with ⟨g1, g2⟩ | ⟨g1, g2⟩
  · rw [h2, g2]; exact .error _
  · obtain ⟨s, hs, hf⟩ := h1; exact absurd ⟨s, (h.mem s).2 hs, hf⟩ g1
  · obtain ⟨s, hs, hf⟩ := g1; exact absurd ⟨s, (h.mem s).1 hs, hf⟩ h1
  · rw [h2, g2]
    exact .ok (h.filterMap fun x y hxy => by rw [sortRule_rule hxy]; exact ⟨id, id⟩)

theorem applied_copied {checks : Bool} {t : Tree} {n : NodeId} {l l' : List ElementStyle} (h : CopiedKept l l') :
    ExRel (Copied Style.VariablesFirst Style.NoVariables) (applied checks viewPseudo t n l) (applied checks viewPseudo t n l') := by
  rcases applied_uses checks t n l with ⟨h1, h2⟩ | ⟨h1, h2⟩ <;> rcases applied_uses checks t n l' with ⟨g1, g2⟩ | ⟨g1, g2⟩
  · rw [h2, g2]; exact .error _
  · obtain ⟨s, hs, hf⟩ := h1; exact absurd ⟨s, (h.mem s).2 hs, hf⟩ g1
  · obtain ⟨s, hs, hf⟩ := g1; exact absurd ⟨s, (h.mem s).1 hs, hf⟩ h1
  · rw [h2, g2]
    refine .ok (h.filterMap fun x y hxy => ?_)
    have : x.rule = y := by
      cases x with
      | static s => simp only [useRule, Option.some.injEq] at hxy; exact hxy
      | dynamic s =>
        simp only [useRule] at hxy
        split at hxy
        · simp only [Option.some.injEq] at hxy; exact hxy
        · cases hxy
    rw [this]; exact ⟨id, id⟩

theorem styleElement_copied {env : FrameEnv} {rules' : NodeId → List ElementStyle} {t : Tree} {n : NodeId} (h : CopiedKept (env.rules n) (rules' n))
    (parent : Element) (sizes : Sizes) (vars : Variables) (l : LayoutStyle) (e : Element) :
    styleElement { env with rules := rules' } t n parent sizes vars l e = styleElement env t n parent sizes vars l e := by
  unfold styleElement
  simp only [playAnimators_rules]
  have ha := applied_copied (checks := env.checks) (t := t) (n := n) h
  revert ha
  generalize applied env.checks viewPseudo t n (env.rules n) = A
  generalize applied env.checks viewPseudo t n (rules' n) = B
  intro ha
  cases ha with
  | error f => rfl
  | ok ha =>
    simp only [elementBlocks]
    rw [computeBlocks_copied ha]

theorem keepRules_copied {checks : Bool} {t : Tree} {l l' : List Style}
    (h : Copied Style.VariablesFirst Style.NoVariables l l') (depth : Nat) : ∀ {n : NodeId} {k k' : NodeId → List ElementStyle}, (∀ m, CopiedKept (k m) (k' m)) →
      ExRel (fun k k' => ∀ m, CopiedKept (k m) (k' m)) (keepRules checks l t depth n k) (keepRules checks l' t depth n k') := by
  induction depth with
  | zero => intro n k k' _; exact .error _
  | succ depth ih =>
    intro n k k' hk
    rw [keepRules, keepRules]
    cases he : t.ctx n with
    | none => exact .error _
    | some e =>
      simp only
      have hc := classify_copied (checks := checks) (t := t) (n := n) (e := e) h
      revert hc
      generalize classify checks t n e l = A
      generalize classify checks t n e l' = B
      intro hc
      cases hc with
      | error f => exact .error _
      | @ok c c' hc =>
        simp only
        have loop : ∀ (cs : List NodeId) {k k' : NodeId → List ElementStyle}, (∀ m, CopiedKept (k m) (k' m)) →
            ExRel (fun k k' => ∀ m, CopiedKept (k m) (k' m)) (keepEach (fun kept c => keepRules checks l t depth c kept) cs k)
              (keepEach (fun kept c => keepRules checks l' t depth c kept) cs k') := by
          intro cs
          induction cs with
          | nil => intro k k' hk; exact .ok hk
          | cons c cs ihc =>
            intro k k' hk
            simp only [keepEach]
            have h1 := ih (n := c) hk
            revert h1
            generalize keepRules checks l t depth c k = A
            generalize keepRules checks l' t depth c k' = B
            intro h1
            cases h1 with
            | error f => exact .error _
            | ok h1 => exact ihc h1
        refine loop _ fun m => ?_
        by_cases hm : m = n
        · subst hm; rw [upd_same, upd_same]; exact hc
        · rw [upd_other _ _ hm, upd_other _ _ hm]; exact hk m

/-! ## Styling and whole runs -/

theorem styleTree_alike {env : FrameEnv} {rules' : NodeId → List ElementStyle}
    (h : ∀ t n parent sizes vars l e, styleElement { env with rules := rules' } t n parent sizes vars l e = styleElement env t n parent sizes vars l e) (depth : Nat) :
    ∀ (n : NodeId) (sizes : Sizes) (vars : Variables) (s : Styled), styleTree { env with rules := rules' } depth n sizes vars s = styleTree env depth n sizes vars s := by
  induction depth with
  | zero => intros; rfl
  | succ depth ih =>
    intro n sizes vars s
    rw [styleTree, styleTree]
    simp only [h]
    have : (fun (sz : Sizes) (v : Variables) (s : Styled) c => styleTree { env with rules := rules' } depth c sz v s) =
        fun sz v s c => styleTree env depth c sz v s := by
      funext sz v s c; exact ih c sz v s
    simp only [ih]

/-- The same program with copies of rules. -/
structure App.Copies (a a' : App) : Prop where
  screen : a'.screen = a.screen
  layouts : a'.layouts = a.layouts
  animations : a'.css.animations = a.css.animations
  kept : ∀ m, CopiedKept (a.kept m) (a'.kept m)

theorem openApp_copied {fuel : Nat} {document : Html} {css css' : Css} (hm : Copied Style.VariablesFirst Style.NoVariables css.styles css'.styles)
    (ha : css'.animations = css.animations) : ExRel App.Copies (openApp p fuel document css) (openApp p fuel document css') := by
  unfold openApp
  simp only
  split
  · exact .error _
  · rename_i root body σ _
    split
    · exact .error _
    · have hr := keepRules_copied (checks := p.checks) (t := σ.tree) hm fuel (n := body) (k := fun _ => []) (k' := fun _ => []) (fun _ => .nil)
      revert hr
      generalize keepRules p.checks css.styles σ.tree fuel body (fun _ => []) = A
      generalize keepRules p.checks css'.styles σ.tree fuel body (fun _ => []) = B
      intro hr
      cases hr with
      | error f => exact .error _
      | ok hr =>
        simp only
        split
        · exact .error _
        · exact .ok ⟨rfl, rfl, ha, hr⟩

theorem App.Copies.update {fuel : Nat} {a a' : App} (hm : App.Copies a a') (order : FrameOrder) (input : Input) (value : Json) :
    ExRel (fun r r' => App.Copies r.1 r'.1 ∧ r'.2 = r.2) (a.update p fuel order input value) (a'.update p fuel order input value) := by
  obtain ⟨sc, css, kept, layouts⟩ := a
  obtain ⟨sc', css', kept', layouts'⟩ := a'
  obtain ⟨h1, h2, h3, h4⟩ := hm
  simp only at h1 h2 h3 h4
  subst h1 h2
  unfold App.update
  simp only
  cases hv : sc'.view.update p.inline value with
  | error f => exact .error _
  | ok v =>
    simp only
    have key := styleTree_alike (env := App.env p fuel order ⟨sc', css, kept, layouts'⟩ input.time) (rules' := kept')
      (fun t n parent sizes vars l e => styleElement_copied (h4 n) parent sizes vars l e) fuel
    have henv : App.env p fuel order ⟨sc', css', kept', layouts'⟩ input.time =
        { App.env p fuel order ⟨sc', css, kept, layouts'⟩ input.time with rules := kept' } := by
      unfold App.env; simp only [h3]
    unfold styleView
    rw [henv, key]
    split
    · exact .error _
    · split
      · exact .error _
      · split
        · exact .error _
        · exact .ok ⟨⟨rfl, rfl, h3, h4⟩, rfl⟩

theorem App.Copies.run {fuel : Nat} (fs : List Frame) : ∀ {a a' : App}, App.Copies a a' →
      ExRel (fun r r' => App.Copies r.1 r'.1 ∧ r'.2 = r.2) (a.run p fuel fs) (a'.run p fuel fs) := by
  induction fs with
  | nil => intro a a' hm; exact .ok ⟨hm, rfl⟩
  | cons f fs ih =>
    intro a a' hm
    simp only [App.run]
    have hu := hm.update (p := p) (fuel := fuel) f.order f.input f.value
    revert hu
    generalize a.update p fuel f.order f.input f.value = A
    generalize a'.update p fuel f.order f.input f.value = B
    intro hu
    cases hu with
    | error e => exact .error _
    | ok hu =>
      rename_i r r'
      obtain ⟨r1, o1⟩ := r
      obtain ⟨r2, o2⟩ := r'
      obtain ⟨h1, h2⟩ := hu
      simp only at h1 h2 ⊢
      subst h2
      have h3 := ih h1
      revert h3
      generalize r1.run p fuel fs = A
      generalize r2.run p fuel fs = B
      intro h3
      cases h3 with
      | error e => exact .error _
      | ok h3 =>
        rename_i x y
        obtain ⟨x1, x2⟩ := x
        obtain ⟨y1, y2⟩ := y
        obtain ⟨h4, h5⟩ := h3
        simp only at h4 h5 ⊢
        subst h5
        exact .ok ⟨h4, rfl⟩

end Verif
