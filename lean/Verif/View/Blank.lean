import Verif.View.View
/-!
# The blank model (lemmas for C07, C18-C20)

The model built by rendering has nulls at its leaves and no empty array.
-/
namespace Verif
open Json

mutual
def Blank : Json → Prop
  | .null => True
  | .arr l => l ≠ [] ∧ BlankList l
  | .obj o => BlankFields o
  | _ => False
def BlankList : List Json → Prop
  | [] => True
  | x :: l => Blank x ∧ BlankList l
def BlankFields : List (String × Json) → Prop
  | [] => True
  | (_, x) :: l => Blank x ∧ BlankFields l
end

theorem blankList_iff (l : List Json) : BlankList l ↔ ∀ x ∈ l, Blank x := by
  induction l with
  | nil => simp [BlankList]
  | cons a l ih => simp [BlankList, ih]

theorem blankFields_iff (l : List (String × Json)) : BlankFields l ↔ ∀ p ∈ l, Blank p.2 := by
  induction l with
  | nil => simp [BlankFields]
  | cons a l ih => obtain ⟨k, x⟩ := a; simp [BlankFields, ih]

theorem blank_get {l : List (String × Json)} (h : BlankFields l) {k : String} {v : Json}
    (hg : get l k = some v) : Blank v := (blankFields_iff l).1 h _ (get_mem hg)

theorem blank_replace {l : List (String × Json)} (h : BlankFields l) {k : String} {v : Json} (hv : Blank v) :
    BlankFields (replace l k v) := by
  induction l with
  | nil => exact h
  | cons a l ih =>
    obtain ⟨k', x⟩ := a
    simp only [BlankFields] at h
    simp only [replace]
    split <;> simp only [BlankFields]
    · exact ⟨hv, h.2⟩
    · exact ⟨h.1, ih h.2⟩

theorem blank_insert {l : List (String × Json)} (h : BlankFields l) {k : String} {v : Json} (hv : Blank v) :
    BlankFields (Json.insert l k v) := by
  unfold Json.insert
  split
  · exact blank_replace h hv
  · induction l with
    | nil => simp [place, BlankFields, hv]
    | cons a l ih =>
      obtain ⟨k', x⟩ := a
      simp only [BlankFields] at h
      rename_i hn
      simp only [place]
      split <;> simp only [BlankFields]
      · exact ⟨hv, h⟩
      · refine ⟨h.1, ih h.2 ?_⟩
        intro hh; apply hn
        rw [get_cons]; split <;> simp_all

theorem defineTokens_blank (ts : List String) (v : Json) (h : Blank v) : Blank (defineTokens ts v) := by
  induction ts generalizing v with
  | nil => exact h
  | cons t ts ih =>
    simp only [defineTokens]
    split
    · rename_i i hi
      have hl : BlankList (asArray v) := by
        cases v <;> simp [Blank, BlankList, asArray] at h ⊢
        exact h.2
      generalize asArray v = l at hl
      simp only [Blank]
      constructor
      · intro hh
        have := congrArg List.length hh
        rw [List.length_modify, List.length_append, List.length_replicate, List.length_nil] at this
        omega
      · rw [blankList_iff] at hl ⊢
        intro x hx
        obtain ⟨j, hj⟩ := List.mem_iff_getElem?.1 hx
        rw [List.getElem?_modify] at hj
        have hb : ∀ y : Json, (l ++ List.replicate (i + 1 - l.length) Json.null)[j]? = some y → Blank y := by
          intro y hy
          rcases List.mem_append.1 (List.mem_of_getElem? hy) with hm | hm
          · exact hl y hm
          · rw [(List.mem_replicate.1 hm).2]; simp [Blank]
        cases hy : (l ++ List.replicate (i + 1 - l.length) Json.null)[j]? with
        | none => rw [hy] at hj; simp at hj
        | some y =>
          rw [hy] at hj
          have hj : (if i = j then defineTokens ts y else y) = x := by simpa using hj
          subst hj
          split
          · exact ih y (hb y hy)
          · exact hb y hy
    · have hl : BlankFields (asObject v) := by
        cases v <;> simp [Blank, BlankFields, asObject] at h ⊢
        exact h
      generalize asObject v = o at hl
      simp only [Blank]
      have h1 : BlankFields (if (get o t).isSome then o else Json.insert o t .null) := by
        split
        · exact hl
        · exact blank_insert hl (by simp [Blank])
      generalize (if (get o t).isSome then o else Json.insert o t .null) = o' at h1
      apply blank_replace h1
      apply ih
      cases hg : get o' t with
      | none => simp [Blank]
      | some x => exact blank_get h1 hg

theorem define_blank (v : Json) (p : String) (h : Blank v) : Blank (define v p) := by
  unfold define
  split
  · exact h
  · exact defineTokens_blank _ _ h

/-- Blank defaults. -/
def BlankDefaults (defs : Defaults) : Prop := ∀ k d, defs k = some d → Blank d

mutual
theorem memorize_blank (tp : String) (v : Json) (defs : Defaults) (h : Blank v) (hd : BlankDefaults defs) :
    ∃ d, memorize tp v defs = some d ∧ BlankDefaults d := by
  match v with
  | .arr [] => simp [Blank] at h
  | .arr (d :: l) =>
    simp only [Blank, BlankList] at h
    simp only [memorize]
    exact memorize_blank tp d _ h.2.1 (by
      intro k x hx
      by_cases hk : k = tp
      · simp [hk] at hx; subst hx; exact h.2.1
      · simp [hk] at hx; exact hd k x hx)
  | .obj l =>
    simp only [Blank] at h
    simp only [memorize]
    exact memorizeFields_blank tp l defs h hd
  | .null => exact ⟨defs, by simp [memorize], hd⟩
  | .bool _ => simp [Blank] at h
  | .num _ => simp [Blank] at h
  | .str _ => simp [Blank] at h
theorem memorizeFields_blank (tp : String) (l : List (String × Json)) (defs : Defaults) (h : BlankFields l)
    (hd : BlankDefaults defs) : ∃ d, memorizeFields tp l defs = some d ∧ BlankDefaults d := by
  match l with
  | [] => exact ⟨defs, by simp [memorizeFields], hd⟩
  | (k, v) :: t =>
    simp only [BlankFields] at h
    obtain ⟨d, h1, h2⟩ := memorize_blank (sub tp k) v defs h.1 hd
    simp only [memorizeFields, h1, Option.bind_some]
    exact memorizeFields_blank tp t d h.2 h2
end

theorem renderSpans_blank (params st) (ss : List TextSpan) (i : Nat) (σ : Render) (h : Blank σ.schema) :
    Blank (renderSpans params st ss i σ).2.schema := by
  induction ss generalizing i σ with
  | nil => exact h
  | cons s ss ih =>
    cases s with
    | string s => exact ih (i + 1) σ h
    | binder b => exact ih (i + 1) _ (define_blank _ _ h)

theorem renderArguments_blank (as : List CallbackArgument) (σ : Render) (h : Blank σ.schema) :
    Blank (renderArguments as σ).2.schema := by
  induction as generalizing σ with
  | nil => exact h
  | cons a as ih =>
    cases a with
    | keyword k => exact ih σ h
    | event => exact ih σ h
    | binder b => exact ih _ (define_blank _ _ h)

theorem renderBinding_blank (env : RenderEnv) (node : NodeId) (s : Element × Render) (b : ElementBinding)
    (h : Blank s.2.schema) : Blank (renderBinding env node s b).2.schema := by
  obtain ⟨e, σ⟩ := s
  cases b with
  | none key value => simp only [renderBinding]; by_cases h2 : key = "id" <;> simpa [h2] using h
  | alias n b => exact h
  | «repeat» n c b => exact h
  | visibility n b => exact h
  | tag key b => exact define_blank _ _ h
  | callback ev as => exact renderArguments_blank as σ h
  | «attribute» key spans =>
    match spans with
    | [] => exact h
    | [.string v] => exact h
    | [.binder b] => exact renderSpans_blank _ id [.binder b] 0 σ h
    | .string a :: b :: l => exact renderSpans_blank _ id (.string a :: b :: l) 0 σ h
    | .binder a :: b :: l => exact renderSpans_blank _ id (.binder a :: b :: l) 0 σ h

theorem renderBindings_blank (env : RenderEnv) (node : NodeId) (bs : List ElementBinding)
    (s : Element × Render) (h : Blank s.2.schema) :
    Blank (bs.foldl (renderBinding env node) s).2.schema := by
  induction bs generalizing s with
  | nil => exact h
  | cons b bs ih => exact ih _ (renderBinding_blank env node s b h)

theorem renderAliases_blank (bs : List ElementBinding) (ov : SMap (Option String)) (σ : Render)
    (h : Blank σ.schema) : Blank (renderAliases bs ov σ).2.schema := by
  induction bs generalizing ov σ with
  | nil => exact h
  | cons b bs ih =>
    cases b with
    | alias name b => exact ih _ _ (define_blank _ _ h)
    | _ => exact ih ov σ h

def RecBlank (rec : RenderFn) : Prop := ∀ h σ n σ', Blank σ.schema → rec h σ = .ok (n, σ') → Blank σ'.schema

theorem renderSlots_blank {rec : RenderFn} (hrec : RecBlank rec) {name binder child} (ns : List Nat)
    (cs : List NodeId) (σ : Render) (h : Blank σ.schema) {cs' σ'}
    (hok : renderSlots rec name binder child ns cs σ = .ok (cs', σ')) : Blank σ'.schema := by
  induction ns generalizing cs σ with
  | nil => simp only [renderSlots, Except.ok.injEq, Prod.mk.injEq] at hok; rw [← hok.2]; exact h
  | cons n ns ih =>
    simp only [renderSlots] at hok
    split at hok
    · simp at hok
    · rename_i c σ1 he
      exact ih _ _ (hrec _ _ _ _ (define_blank _ _ h) he) hok

theorem renderBody_blank {rec : RenderFn} (hrec : RecBlank rec) {node child} (cs : List NodeId) (σ : Render)
    (h : Blank σ.schema) {cs' σ'} (hok : renderBody rec node child cs σ = .ok (cs', σ')) :
    Blank σ'.schema := by
  unfold renderBody at hok
  split at hok
  · simp only at hok
    split at hok
    · simp at hok
    · rename_i c σ1 he
      simp only [Except.ok.injEq, Prod.mk.injEq] at hok
      obtain ⟨-, rfl⟩ := hok
      have := hrec _ _ _ _ (define_blank _ _ h) he
      exact this
  · split at hok
    · simp only at hok
      split at hok
      · simp at hok
      · rename_i cs1 σ1 he
        simp only [Except.ok.injEq, Prod.mk.injEq] at hok
        obtain ⟨-, rfl⟩ := hok
        have := renderSlots_blank hrec _ _ _ (define_blank _ _ h) he
        exact this
    · split at hok
      · simp at hok
      · rename_i c σ1 he
        simp only [Except.ok.injEq, Prod.mk.injEq] at hok
        obtain ⟨-, rfl⟩ := hok
        exact hrec _ _ _ _ h he

theorem renderChildren_blank {env : RenderEnv} {rec : RenderFn} (hrec : RecBlank rec) {node} (hs : List Html)
    (cs : List NodeId) (σ : Render) (h : Blank σ.schema) {cs' σ'}
    (hok : renderChildren env rec node hs cs σ = .ok (cs', σ')) : Blank σ'.schema := by
  induction hs generalizing cs σ with
  | nil => simp only [renderChildren, Except.ok.injEq, Prod.mk.injEq] at hok; rw [← hok.2]; exact h
  | cons x hs ih =>
    simp only [renderChildren] at hok
    split at hok
    · simp at hok
    · rename_i cs1 σ1 he
      refine ih _ _ ?_ hok
      unfold renderChild at he
      split at he
      · simp at he
      · simp only at he
        split at he
        · simp at he
        · rename_i cs2 σ2 he2
          simp only [Except.ok.injEq, Prod.mk.injEq] at he
          obtain ⟨-, rfl⟩ := he
          have := renderBody_blank hrec _ _ (renderAliases_blank _ _ _ h) he2
          exact this

theorem renderNode_blank (env : RenderEnv) (fuel : Nat) : RecBlank (renderNode env fuel) := by
  induction fuel with
  | zero => intro h σ n σ' _ hok; simp [renderNode] at hok
  | succ fuel ih =>
    intro h σ n σ' hb hok
    simp only [renderNode] at hok
    split at hok
    · simp only [Except.ok.injEq, Prod.mk.injEq, renderText] at hok
      rw [← hok.2]
      exact renderSpans_blank _ _ _ _ _ hb
    · unfold renderElement at hok
      simp only at hok
      split at hok
      · simp at hok
      · rename_i cs σ1 he
        split at hok
        · simp at hok
        · simp only [Except.ok.injEq, Prod.mk.injEq] at hok
          obtain ⟨-, rfl⟩ := hok
          have h1 := renderBindings_blank env σ.tree.newLeaf.1 h.bindings
            ({ node := σ.tree.newLeaf.1, tag := h.tag }, { σ with tree := σ.tree.newLeaf.2 }) hb
          unfold renderContent at he
          split at he
          · simp only [Except.ok.injEq, Prod.mk.injEq] at he
            obtain ⟨-, rfl⟩ := he; exact h1
          · split at he
            · simp only [Except.ok.injEq, Prod.mk.injEq] at he
              obtain ⟨-, rfl⟩ := he; exact h1
            · have := renderChildren_blank ih _ _ _ h1 he
              exact this

theorem renderView_blank {env : RenderEnv} {fuel : Nat} {h : Html} {root body : NodeId} {σ : Render}
    (hok : renderView env fuel h = .ok (root, body, σ)) : Blank σ.schema := by
  unfold renderView at hok
  simp only at hok
  split at hok
  · simp at hok
  · rename_i b σ1 he
    split at hok
    · simp at hok
    · simp only [Except.ok.injEq, Prod.mk.injEq] at hok
      obtain ⟨-, -, rfl⟩ := hok
      have := renderNode_blank env fuel _ _ _ _ (by simp [Blank, BlankFields]) he
      exact this

/-- Inside a blank model there are only blank parts. -/
theorem prior_blank (defs : Defaults) (hd : BlankDefaults defs) (p : List Tok) (ap : String) (v x : Json)
    (h : Blank v) (hp : prior defs ap v p = some x) : Blank x := by
  induction p generalizing ap v with
  | nil => simp only [prior, Option.some.injEq] at hp; subst hp; exact h
  | cons t ts ih =>
    cases v with
    | arr l =>
      cases t with
      | idx i =>
        simp only [prior] at hp
        simp only [Blank, blankList_iff] at h
        split at hp
        · rename_i y hy
          exact ih ap y (h.2 y (List.mem_of_getElem? hy)) hp
        · rw [Option.bind_eq_some_iff] at hp
          obtain ⟨d, hd1, hd2⟩ := hp
          exact ih ap d (hd _ _ hd1) hd2
      | key k => simp [prior] at hp
    | obj o =>
      cases t with
      | key k =>
        simp only [prior] at hp
        rw [Option.bind_eq_some_iff] at hp
        obtain ⟨d, hd1, hd2⟩ := hp
        simp only [Blank] at h
        exact ih _ d (blank_get h hd1) hd2
      | idx i => simp [prior] at hp
    | _ => cases t <;> simp [prior] at hp

theorem get_projectFields (fs : List (String × Shape)) (v : Json) (k : String) :
    get (projectFields fs v) k = (Shape.field fs k).map fun s => project s (member v k) := by
  induction fs with
  | nil => rfl
  | cons a fs ih =>
    obtain ⟨k', s⟩ := a
    simp only [projectFields]
    rw [get_cons, field_cons]
    by_cases h : k' = k
    · subst h; simp
    · simp [h, ih]

/-- What a place denoted before: what it was in the last value, or something blank. -/
theorem prior_project (defs : Defaults) (hd : BlankDefaults defs) (p : List Tok) (s sh : Shape)
    (v w x y : Json) (ap : String) (hr : s.read w p = some (sh, y))
    (hp : prior defs ap (project s v) p = some x) :
    (∃ raw, s.read v p = some (sh, raw) ∧ x = project sh raw) ∨ Blank x := by
  induction p generalizing ap s v w with
  | nil =>
    simp only [prior, Option.some.injEq] at hp
    have hr' : s = sh := by cases s <;> simp [Shape.read] at hr <;> exact hr.1
    subst hr'
    left
    refine ⟨v, by cases s <;> rfl, hp.symm⟩
  | cons t ts ih =>
    cases s with
    | leaf => cases t <;> simp [Shape.read] at hr
    | arr s =>
      cases t with
      | key k => simp [Shape.read] at hr
      | idx i =>
        simp only [Shape.read] at hr ⊢
        rw [Option.bind_eq_some_iff] at hr
        obtain ⟨w', -, hr⟩ := hr
        simp only [project, prior] at hp
        split at hp
        · rename_i z hz
          rw [List.getElem?_map] at hz
          cases hi : (items v)[i]? with
          | none => rw [hi] at hz; simp at hz
          | some u =>
            rw [hi] at hz
            simp only [Option.map_some, Option.some.injEq] at hz
            subst hz
            simpa using ih s u w' ap hr hp
        · rw [Option.bind_eq_some_iff] at hp
          obtain ⟨d, hd1, hd2⟩ := hp
          exact .inr (prior_blank defs hd ts ap d x (hd _ _ hd1) hd2)
    | obj fs =>
      cases t with
      | idx i => simp [Shape.read] at hr
      | key k =>
        simp only [Shape.read] at hr ⊢
        rw [Option.bind_eq_some_iff] at hr
        obtain ⟨s', hs', hr⟩ := hr
        simp only [project, prior, get_projectFields, hs', Option.map_some, Option.bind_some] at hp
        simpa [hs'] using ih s' (member v k) (member w k) _ hr hp

/-- A shape reads a path of one text only as one path. -/
theorem read_ptr_inj (s : Shape) (v w : Json) (p q : List Tok) (a b : Shape × Json) (hok : s.Ok)
    (hp : s.read v p = some a) (hq : s.read w q = some b) (h : ptr p = ptr q) : p = q := by
  induction p generalizing s v w q with
  | nil =>
    cases q with
    | nil => rfl
    | cons t q => exact absurd h (by simpa using ptr_ne_below [] t q)
  | cons t p ih =>
    cases q with
    | nil => exact absurd h.symm (by simpa using ptr_ne_below [] t p)
    | cons t' q =>
      cases s with
      | leaf => cases t <;> simp [Shape.read] at hp
      | arr s =>
        cases t with
        | key k => simp [Shape.read] at hp
        | idx i =>
          cases t' with
          | key k => simp [Shape.read] at hq
          | idx j =>
            simp only [Shape.read] at hp hq
            rw [Option.bind_eq_some_iff] at hp hq
            obtain ⟨v', -, hp⟩ := hp
            obtain ⟨w', -, hq⟩ := hq
            have hi := ptr_step_inj (base := []) (t := .idx i) (t' := .idx j) (p := p) (p' := q)
              (idx_slashFree i) (idx_slashFree j) h
            have hpq' := hi.2
            have hj := idx_str_inj hi.1
            subst hj
            have hpq : ptr p = ptr q := hpq'
            rw [ih s v' w' q (by simpa [Shape.Ok] using hok) hp hq hpq]
      | obj fs =>
        cases t with
        | idx k => simp [Shape.read] at hp
        | key k =>
          cases t' with
          | idx i => simp [Shape.read] at hq
          | key k' =>
            simp only [Shape.read] at hp hq
            rw [Option.bind_eq_some_iff] at hp hq
            obtain ⟨s1, hs1, hp⟩ := hp
            obtain ⟨s2, hs2, hq⟩ := hq
            simp only [Shape.Ok] at hok
            have f1 := okFields_mem hok.2 (field_eq hs1)
            have f2 := okFields_mem hok.2 (field_eq hs2)
            have hi := ptr_step_inj (base := []) (t := .key k) (t' := .key k') (p := p) (p' := q) f1 f2 h
            have hpq' := hi.2
            have hi := hi.1
            simp only [Tok.str] at hi
            subst hi
            rw [hs1] at hs2; injection hs2 with hs2; subst hs2
            have hpq : ptr p = ptr q := hpq'
            rw [ih s1 _ _ q (okFields_shape hok.2 (field_eq hs1)) hp hq hpq]

end Verif
