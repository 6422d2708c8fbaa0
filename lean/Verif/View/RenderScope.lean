import Verif.Spec.Scope
import Verif.View.RenderFrame
/-!
# Rendering follows lexical scoping (lemmas for C23-C25)
-/
namespace Verif

theorem pointer_eq_denotes (b : Binder) (ρ : SMap String) : b.pointer ρ = b.denotes ρ := by
  have aux : ∀ (l : List String) (a k : String), a ++ "/" ++ "/".intercalate (k :: l)
      = (k :: l).foldl (fun p k => p ++ "/" ++ k) a := by
    intro l
    induction l with
    | nil => intro a k; simp
    | cons x l ih =>
      intro a k
      rw [List.foldl_cons, ← ih, String.intercalate_cons_cons]
      simp [String.append_assoc]
  unfold Binder.pointer Binder.denotes
  cases hρ : ρ b.head <;> cases h : b.tail with
  | nil => simp
  | cons k l =>
    simp only
    rw [if_pos (by simp)]
    exact aux l _ k

/-- The effect on the schema of a list of uses. -/
def defineAll (ms : List Mention) (v : Json) : Json := (mentionedPaths ms).foldl define v

/-- Schema and bindings grow as a list of uses says. -/
def Used (σ σ' : Render) (ms : List Mention) : Prop :=
  σ'.schema = defineAll ms σ.schema ∧ σ'.regs.map Prod.fst = σ.regs.map Prod.fst ++ boundPaths ms

theorem Used.nil (σ : Render) : Used σ σ [] := by simp [Used, defineAll, mentionedPaths, boundPaths]

theorem Used.append {a b c : Render} {x y : List Mention} (h1 : Used a b x) (h2 : Used b c y) :
    Used a c (x ++ y) := by
  obtain ⟨s1, r1⟩ := h1
  obtain ⟨s2, r2⟩ := h2
  refine ⟨by rw [s2, s1]; simp [defineAll, mentionedPaths], ?_⟩
  rw [r2, r1, List.append_assoc]; simp [boundPaths]

theorem Used.cons {a b c : Render} {x : Mention} {y : List Mention} (h1 : Used a b [x]) (h2 : Used b c y) :
    Used a c (x :: y) := Used.append h1 h2

theorem Used.other {a b b' : Render} {ms : List Mention} (h : Used a b ms) (hs : b'.schema = b.schema)
    (hr : b'.regs = b.regs) : Used a b' ms := by
  obtain ⟨h1, h2⟩ := h
  exact ⟨by rw [hs, h1], by rw [hr, h2]⟩

theorem Used.other_left {a a' b : Render} {ms : List Mention} (h : Used a b ms)
    (hs : a'.schema = a.schema) (hr : a'.regs = a.regs) : Used a' b ms := by
  obtain ⟨h1, h2⟩ := h
  exact ⟨by rw [hs, h1], by rw [hr, h2]⟩

theorem field_used (σ : Render) (b : Binder) :
    (σ.field b).1 = b.denotes σ.locals ∧ Used σ (σ.field b).2 [.define (b.denotes σ.locals)] := by
  refine ⟨pointer_eq_denotes b _, ?_, ?_⟩
  · simp [Render.field, defineAll, mentionedPaths, pointer_eq_denotes]
  · simp [Render.field, boundPaths]

theorem register_used (σ : Render) (p : String) (b : Binding) : Used σ (σ.register p b) [.bind p] := by
  constructor
  · simp [Render.register, defineAll, mentionedPaths]
  · simp [Render.register, boundPaths]

theorem renderSpans_used (params st) (ss : List TextSpan) (i : Nat) (σ : Render) :
    Used σ (renderSpans params st ss i σ).2 (spanMentions σ.locals ss) := by
  induction ss generalizing i σ with
  | nil => exact Used.nil σ
  | cons s ss ih =>
    cases s with
    | string s => simpa [renderSpans, spanMentions] using ih (i + 1) σ
    | binder b =>
      obtain ⟨f1, f2⟩ := field_used σ b
      have h := ih (i + 1) ((σ.field b).2.register (σ.field b).1 ⟨params i, b.pipe⟩)
      have hl : ((σ.field b).2.register (σ.field b).1 ⟨params i, b.pipe⟩).locals = σ.locals := rfl
      rw [hl] at h
      simp only [renderSpans]
      have hm : spanMentions σ.locals (.binder b :: ss)
          = [.define (b.denotes σ.locals)] ++ ([.bind (b.denotes σ.locals)] ++ spanMentions σ.locals ss) := rfl
      rw [hm]
      have hr := register_used (σ.field b).2 (σ.field b).1 ⟨params i, b.pipe⟩
      have hr' : Used (σ.field b).2 ((σ.field b).2.register (σ.field b).1 ⟨params i, b.pipe⟩)
          [.bind (b.denotes σ.locals)] := by
        have e : [Mention.bind (b.denotes σ.locals)] = [.bind (σ.field b).1] := by rw [f1]
        rw [e]; exact hr
      exact f2.append (hr'.append h)

theorem renderArguments_used (as : List CallbackArgument) (σ : Render) :
    Used σ (renderArguments as σ).2 (ownMentions σ.locals (.callback "" as)) := by
  induction as generalizing σ with
  | nil => exact Used.nil σ
  | cons a as ih =>
    cases a with
    | keyword k => simpa [renderArguments, ownMentions] using ih σ
    | event => simpa [renderArguments, ownMentions] using ih σ
    | binder b => exact (field_used σ b).2.append (ih (σ.field b).2)

theorem renderBinding_used (env : RenderEnv) (node : NodeId) (e : Element) (σ : Render) (b : ElementBinding) :
    Used σ (renderBinding env node (e, σ) b).2 (ownMentions σ.locals b) := by
  cases b with
  | none key value =>
    simp only [renderBinding]
    by_cases h2 : key = "id"
    · simp only [h2, if_true]; exact (Used.nil σ).other rfl rfl
    · simp only [h2, if_false]; exact Used.nil σ
  | alias n b => exact Used.nil σ
  | «repeat» n c b => exact Used.nil σ
  | visibility n b => exact Used.nil σ
  | tag key b =>
    obtain ⟨f1, f2⟩ := field_used σ b
    exact f2.append (f1 ▸ register_used _ _ _)
  | callback ev as => exact renderArguments_used as σ
  | «attribute» key spans =>
    match spans with
    | [] => exact Used.nil σ
    | [.string v] => exact Used.nil σ
    | [.binder b] => exact renderSpans_used _ id [.binder b] 0 σ
    | .string a :: b :: l => exact renderSpans_used _ id (.string a :: b :: l) 0 σ
    | .binder a :: b :: l => exact renderSpans_used _ id (.binder a :: b :: l) 0 σ

theorem renderBindings_used (env : RenderEnv) (node : NodeId) (bs : List ElementBinding)
    (s : Element × Render) :
    Used s.2 (bs.foldl (renderBinding env node) s).2 (bs.flatMap (ownMentions s.2.locals)) := by
  induction bs generalizing s with
  | nil => exact Used.nil _
  | cons b bs ih =>
    obtain ⟨e, σ⟩ := s
    rw [List.foldl_cons, List.flatMap_cons]
    have hl := (renderBinding_step env node (e, σ) b).locals
    have h := ih (renderBinding env node (e, σ) b)
    rw [hl] at h
    exact (renderBinding_used env node e σ b).append h

theorem renderAliases_used (bs : List ElementBinding) (ov : SMap (Option String)) (σ : Render) :
    (renderAliases bs ov σ).2.locals = (aliasScope σ.locals bs).1 ∧
    Used σ (renderAliases bs ov σ).2 (aliasScope σ.locals bs).2 := by
  induction bs generalizing ov σ with
  | nil => exact ⟨rfl, Used.nil σ⟩
  | cons b bs ih =>
    cases b with
    | alias name b =>
      obtain ⟨f1, f2⟩ := field_used σ b
      have h := ih (ov.set name ((σ.field b).2.locals name))
        { (σ.field b).2 with locals := (σ.field b).2.locals.set name (σ.field b).1 }
      simp only [renderAliases]
      rw [f1] at h ⊢
      refine ⟨h.1, ?_⟩
      exact f2.append (h.2.other_left rfl rfl)
    | _ => simpa [renderAliases, aliasScope] using ih ov σ

/-- Undoing the aliases restores the names as they were. -/
theorem renderAliases_restore (bs : List ElementBinding) (ov : SMap (Option String)) (σ : Render)
    (hn : (aliasNames bs).Nodup) (ho : ∀ n ∈ aliasNames bs, ov n = none) :
    restore (renderAliases bs ov σ).1 (renderAliases bs ov σ).2.locals = restore ov σ.locals := by
  induction bs generalizing ov σ with
  | nil => rfl
  | cons b bs ih =>
    cases b with
    | alias name b =>
      simp only [aliasNames, List.filterMap_cons, List.nodup_cons] at hn
      simp only [renderAliases]
      rw [ih _ _ hn.2]
      · funext x
        unfold restore
        simp only [Render.field]
        by_cases hx : x = name
        · subst hx
          have h0 : ov x = none := ho x (by simp [aliasNames])
          simp [h0]
        · simp [SMap.set_other _ _ hx]
      · intro n hnm
        have hne : n ≠ name := fun e => hn.1 (e ▸ hnm)
        rw [SMap.set_other _ _ hne]
        exact ho n (by simp only [aliasNames, List.filterMap_cons]; exact List.mem_cons_of_mem _ hnm)
    | _ =>
      simp only [aliasNames, List.filterMap_cons] at hn
      exact ih ov σ hn (fun n hm => ho n (by simpa only [aliasNames, List.filterMap_cons] using hm))

/-- A rendering function that respects scoping on the templates satisfying `Q`. -/
def RecScoped (Q : Html → Prop) (rec : RenderFn) (below : SMap String → Html → List Mention) : Prop :=
  ∀ h σ n σ', Q h → rec h σ = .ok (n, σ') → σ'.locals = σ.locals ∧ Used σ σ' (below σ.locals h)

theorem renderSlots_scoped {Q : Html → Prop} {rec below} (hrec : RecScoped Q rec below) {child : Html}
    (hQ : Q child) {name : String} {b : Binder} (hne : name ≠ b.head) (ns : List Nat) (cs : List NodeId)
    (σ : Render) (ρ : SMap String) (hρ : ∀ x, x ≠ name → σ.locals x = ρ x) {cs' σ'}
    (h : renderSlots rec name b child ns cs σ = .ok (cs', σ')) :
    (∀ x, x ≠ name → σ'.locals x = ρ x) ∧
    Used σ σ' (ns.flatMap fun n => .define (b.denotes ρ ++ "/" ++ toString n) ::
      below (ρ.set name (b.denotes ρ ++ "/" ++ toString n)) child) := by
  induction ns generalizing cs σ with
  | nil =>
    simp only [renderSlots, Except.ok.injEq, Prod.mk.injEq] at h
    rw [← h.2]
    exact ⟨hρ, Used.nil σ⟩
  | cons n ns ih =>
    simp only [renderSlots] at h
    split at h
    · simp at h
    · rename_i c σ1 he
      obtain ⟨l1, u1⟩ := hrec _ _ _ _ hQ he
      have hp : b.pointer σ.locals = b.denotes ρ := by
        rw [pointer_eq_denotes]; unfold Binder.denotes; rw [hρ b.head (Ne.symm hne)]
      have hl : (σ.index b n).2.locals.set name (σ.index b n).1
          = ρ.set name (b.denotes ρ ++ "/" ++ toString n) := by
        funext x
        by_cases hx : x = name
        · subst hx; simp [Render.index, hp]
        · simp only [SMap.set_other _ _ hx]; exact hρ x hx
      simp only [hl] at l1 u1
      obtain ⟨l2, u2⟩ := ih (cs ++ [c]) σ1 (by intro x hx; rw [l1, SMap.set_other _ _ hx]) h
      refine ⟨l2, ?_⟩
      rw [List.flatMap_cons]
      refine Used.append (b := σ1) ?_ u2
      have u0 : Used σ (σ.index b n).2 [.define (b.denotes ρ ++ "/" ++ toString n)] := by
        constructor
        · simp [Render.index, hp, defineAll, mentionedPaths]
        · simp [Render.index, boundPaths]
      exact u0.append (u1.other_left rfl rfl)

theorem renderBody_scoped {Q : Html → Prop} {rec below} (hrec : RecScoped Q rec below) {child : Html}
    (hQ : Q child) (hfresh : LoopNameFresh child) {node : NodeId} (cs : List NodeId) (σ : Render) {cs' σ'}
    (h : renderBody rec node child cs σ = .ok (cs', σ')) :
    σ'.locals = σ.locals ∧ Used σ σ' (match child.asVisibility, child.asRepeat with
      | some (_, b), _ => .define (b.denotes σ.locals) :: (below σ.locals child ++ [.bind (b.denotes σ.locals)])
      | none, some (name, count, b) =>
        .define (b.denotes σ.locals) :: .bind (b.denotes σ.locals) ::
          (List.range count).flatMap fun n =>
            .define (b.denotes σ.locals ++ "/" ++ toString n) ::
              below (σ.locals.set name (b.denotes σ.locals ++ "/" ++ toString n)) child
      | none, none => below σ.locals child) := by
  unfold renderBody at h
  split at h
  · rename_i v b hv
    simp only at h
    split at h
    · simp at h
    · rename_i c σ1 he
      simp only [Except.ok.injEq, Prod.mk.injEq] at h
      obtain ⟨-, rfl⟩ := h
      obtain ⟨l1, u1⟩ := hrec _ _ _ _ hQ he
      obtain ⟨f1, f2⟩ := field_used σ b
      refine ⟨l1, ?_⟩
      rw [hv]
      have hl : (σ.field b).2.locals = σ.locals := rfl
      rw [hl] at u1
      exact f2.cons (u1.append (f1 ▸ register_used _ _ _))
  · rename_i hv
    split at h
    · rename_i name count b hr
      simp only at h
      split at h
      · simp at h
      · rename_i cs1 σ1 he
        simp only [Except.ok.injEq, Prod.mk.injEq] at h
        obtain ⟨-, rfl⟩ := h
        have hmem : .repeat name count b ∈ child.bindings := by
          unfold Html.asRepeat at hr
          obtain ⟨x, hx1, hx2⟩ := List.exists_of_findSome?_eq_some hr
          cases x <;> simp at hx2
          obtain ⟨rfl, rfl, rfl⟩ := hx2
          exact hx1
        obtain ⟨f1, f2⟩ := field_used σ b
        obtain ⟨l1, u1⟩ := renderSlots_scoped hrec hQ (hfresh name count b hmem) _ _ _ σ.locals
          (by intro x hx; simp [Render.register, Render.field, SMap.del_other _ hx]) he
        constructor
        · simp only [Render.register, Render.field] at l1 ⊢
          funext x
          by_cases hx : x = name
          · subst hx
            cases hσ : σ.locals x <;> simp
          · have := l1 x hx
            cases hσ : σ.locals name <;> simp [SMap.set_other _ _ hx, SMap.del_other _ hx, this]
        · simp only [hv, hr]
          refine f2.cons (Used.cons (b := (σ.field b).2.register (σ.field b).1
            ⟨.repeat node cs.length count, b.pipe⟩) (f1 ▸ register_used _ _ _) ?_)
          exact (u1.other_left rfl rfl).other rfl rfl
    · rename_i hr
      split at h
      · simp at h
      · rename_i c σ1 he
        simp only [Except.ok.injEq, Prod.mk.injEq] at h
        obtain ⟨-, rfl⟩ := h
        simp only [hv, hr]
        exact hrec _ _ _ _ hQ he

theorem linkParts_aliases (bs : List ElementBinding) (id : Option String) :
    aliasNames (linkParts bs id).2 = aliasNames bs := by
  induction bs generalizing id with
  | nil => rfl
  | cons b bs ih =>
    cases b with
    | none k v =>
      simp only [linkParts]
      split
      · rw [ih]; rfl
      · simp only [aliasNames, List.filterMap_cons]; exact ih id
    | _ => simp only [linkParts, aliasNames, List.filterMap_cons] <;>
        first | exact ih id | exact congrArg _ (ih id)

theorem linkParts_href (bs : List ElementBinding) (id : Option String) (x : String)
    (h : (linkParts bs id).1 = some x) : id = some x ∨ .none "href" x ∈ bs := by
  induction bs generalizing id with
  | nil => exact .inl h
  | cons b bs ih =>
    cases b with
    | none k v =>
      simp only [linkParts] at h
      split at h
      · rename_i hk
        subst hk
        rcases ih _ h with h | h
        · injection h with h; subst h; exact .inr (by simp)
        · exact .inr (by simp [h])
      · rcases ih _ h with h | h
        · exact .inl h
        · exact .inr (by simp [h])
    | _ =>
      simp only [linkParts] at h
      rcases ih _ h with h | h
      · exact .inl h
      · exact .inr (by simp [h])

theorem linkParts_repeat (bs : List ElementBinding) (id : Option String) {n c b}
    (h : .repeat n c b ∈ (linkParts bs id).2) : .repeat n c b ∈ bs := by
  induction bs generalizing id with
  | nil => simp [linkParts] at h
  | cons x bs ih =>
    cases x with
    | none k v =>
      simp only [linkParts] at h
      split at h
      · simp [ih _ h]
      · simp only [List.mem_cons] at h
        rcases h with h | h
        · simp at h
        · simp [ih _ h]
    | _ =>
      simp only [linkParts, List.mem_cons] at h
      rcases h with h | h
      · simp [h]
      · simp [ih _ h]

/-- What the conditions on a template give for a child after its link is resolved. -/
theorem resolve_conditions {env : RenderEnv} {c c' : Html} (h : resolveChild env c = .ok c')
    (hc : DistinctAliases env c ∧ LoopNameFresh c)
    (hq : ∀ id t, env.templates id = some t → DistinctAliases env t ∧ LoopNameFresh t) :
    (aliasNames c'.bindings).Nodup ∧ LoopNameFresh c' := by
  unfold resolveChild at h
  split at h
  · rename_i id bs hl
    split at h
    · simp at h
    · rename_i t ht
      injection h with h
      subst h
      unfold Html.asLink at hl
      split at hl
      · rename_i htag
        split at hl
        · rename_i id' bs' hp
          injection hl with hl
          simp only [Prod.mk.injEq] at hl
          obtain ⟨rfl, rfl⟩ := hl
          have h1 : (linkParts c.bindings none).1 = some id' := by rw [hp]
          have h2 : (linkParts c.bindings none).2 = bs' := by rw [hp]
          have hm := (linkParts_href _ _ _ h1).resolve_left (by simp)
          constructor
          · have := hc.1.2 id' t htag hm ht
            have e : aliasNames (bs' ++ t.bindings) = aliasNames (c.bindings ++ t.bindings) := by
              have := linkParts_aliases c.bindings none
              rw [h2] at this
              simp only [aliasNames, List.filterMap_append] at this ⊢
              rw [this]
            rw [← e] at this; exact this
          · intro n k b hmem
            simp only [Html.bindings, List.mem_append] at hmem
            rcases hmem with hmem | hmem
            · exact hc.2 n k b (linkParts_repeat c.bindings none (h2 ▸ hmem))
            · exact (hq _ _ ht).2 n k b hmem
        · simp at hl
      · simp at hl
  · injection h with h
    subst h
    exact ⟨hc.1.1, hc.2⟩

/-- The nodes inside a resolved child. -/
theorem resolve_below {env : RenderEnv} {h c c' : Html} {P : Html → Prop} (hmem : c ∈ h.children)
    (hr : resolveChild env c = .ok c') (hE : EveryNode env P h) : EveryNode env P c' := by
  refine ⟨?_, hE.2⟩
  unfold resolveChild at hr
  split at hr
  · split at hr
    · simp at hr
    · rename_i t ht
      injection hr with hr
      subst hr
      intro d hd
      apply (hE.2 _ _ ht).2 d
      cases hd with
      | child hx => exact .child hx
      | step hx hy => exact .step hx hy
  · injection hr with hr
    subst hr
    intro d hd
    exact hE.1 d (.step hmem hd)

theorem renderChild_scoped {env : RenderEnv} {rec below} {P : Html → Prop}
    (hP : ∀ c, P c → DistinctAliases env c ∧ LoopNameFresh c)
    (hrec : RecScoped (EveryNode env P) rec below) {h child : Html} (hmem : child ∈ h.children)
    (hE : EveryNode env P h) {node : NodeId} (cs : List NodeId) (σ : Render) {cs' σ'}
    (hok : renderChild env rec node child cs σ = .ok (cs', σ')) :
    σ'.locals = σ.locals ∧ Used σ σ' (childMentions env below σ.locals child) := by
  unfold renderChild at hok
  split at hok
  · simp at hok
  · rename_i c hc
    simp only at hok
    split at hok
    · simp at hok
    · rename_i cs1 σ1 he
      simp only [Except.ok.injEq, Prod.mk.injEq] at hok
      obtain ⟨-, rfl⟩ := hok
      obtain ⟨hn, hf⟩ := resolve_conditions hc (hP _ (hE.1 _ (.child hmem))) (fun id t ht => hP _ (hE.2 id t ht).1)
      obtain ⟨a1, a2⟩ := renderAliases_used c.bindings (fun _ => none) σ
      obtain ⟨b1, b2⟩ := renderBody_scoped hrec (resolve_below hmem hc hE) hf cs _ he
      constructor
      · simp only
        rw [b1, renderAliases_restore _ _ _ hn (by simp)]
        rfl
      · unfold childMentions
        rw [hc]
        simp only
        rw [a1] at b2
        exact (a2.append b2).other rfl rfl

theorem renderChildren_scoped {env : RenderEnv} {rec below} {P : Html → Prop}
    (hP : ∀ c, P c → DistinctAliases env c ∧ LoopNameFresh c)
    (hrec : RecScoped (EveryNode env P) rec below) {h : Html} (hE : EveryNode env P h) {node : NodeId}
    (l : List Html) (hl : ∀ c ∈ l, c ∈ h.children) (cs : List NodeId) (σ : Render) {cs' σ'}
    (hok : renderChildren env rec node l cs σ = .ok (cs', σ')) :
    σ'.locals = σ.locals ∧ Used σ σ' (l.flatMap (childMentions env below σ.locals)) := by
  induction l generalizing cs σ with
  | nil =>
    simp only [renderChildren, Except.ok.injEq, Prod.mk.injEq] at hok
    rw [← hok.2]; exact ⟨rfl, Used.nil σ⟩
  | cons c l ih =>
    simp only [renderChildren] at hok
    split at hok
    · simp at hok
    · rename_i cs1 σ1 he
      obtain ⟨l1, u1⟩ := renderChild_scoped hP hrec (hl c (by simp)) hE cs σ he
      obtain ⟨l2, u2⟩ := ih (fun d hd => hl d (by simp [hd])) cs1 σ1 hok
      rw [l1] at l2 u2
      rw [List.flatMap_cons]
      exact ⟨l2, u1.append u2⟩

theorem renderNode_scoped (env : RenderEnv) {P : Html → Prop}
    (hP : ∀ c, P c → DistinctAliases env c ∧ LoopNameFresh c) (fuel : Nat) :
    RecScoped (EveryNode env P) (renderNode env fuel) (mentions env fuel) := by
  induction fuel with
  | zero => intro h σ n σ' _ hok; simp [renderNode] at hok
  | succ fuel ih =>
    intro h σ n σ' hE hok
    simp only [renderNode] at hok
    split at hok
    · rename_i spans ht
      simp only [Except.ok.injEq] at hok
      have e2 : (renderText env spans σ).2 = σ' := by rw [hok]
      obtain ⟨-, hl, -⟩ := renderSpans_frame (fun i => .text σ.tree.newLeaf.1 i) env.translate spans 0
        { σ with tree := σ.tree.newLeaf.2 }
      have hu := renderSpans_used (fun i => .text σ.tree.newLeaf.1 i) env.translate spans 0
        { σ with tree := σ.tree.newLeaf.2 }
      rw [← e2]
      simp only [mentions, ht]
      exact ⟨hl, (hu.other_left rfl rfl).other rfl rfl⟩
    · rename_i ht
      unfold renderElement at hok
      simp only at hok
      have hb := renderBindings_step env σ.tree.newLeaf.1 h.bindings
        ({ node := σ.tree.newLeaf.1, tag := h.tag }, { σ with tree := σ.tree.newLeaf.2 })
      have hu := renderBindings_used env σ.tree.newLeaf.1 h.bindings
        ({ node := σ.tree.newLeaf.1, tag := h.tag }, { σ with tree := σ.tree.newLeaf.2 })
      generalize h.bindings.foldl (renderBinding env σ.tree.newLeaf.1)
        ({ node := σ.tree.newLeaf.1, tag := h.tag }, { σ with tree := σ.tree.newLeaf.2 }) = s at hb hu hok
      split at hok
      · simp at hok
      · rename_i cs σ1 he
        split at hok
        · simp at hok
        · rename_i t he2
          simp only [Except.ok.injEq, Prod.mk.injEq] at hok
          obtain ⟨-, rfl⟩ := hok
          have hl0 : s.2.locals = σ.locals := hb.locals
          have htag : s.1.tag = h.tag := hb.tag
          simp only [mentions, ht]
          unfold renderContent at he
          rw [htag] at he
          split at he
          · rename_i hi
            simp only [Except.ok.injEq, Prod.mk.injEq] at he
            obtain ⟨-, rfl⟩ := he
            rw [if_pos (.inl hi), List.append_nil]
            exact ⟨hl0, (hu.other_left rfl rfl).other rfl rfl⟩
          · rename_i hi
            split at he
            · rename_i hv
              simp only [Except.ok.injEq, Prod.mk.injEq] at he
              obtain ⟨-, rfl⟩ := he
              rw [if_pos (.inr hv), List.append_nil]
              exact ⟨hl0, (hu.other_left rfl rfl).other rfl rfl⟩
            · rename_i hv
              rw [if_neg (by simp [hi, hv])]
              obtain ⟨l1, u1⟩ := renderChildren_scoped hP ih hE h.children (fun _ => id) [] s.2 he
              rw [hl0] at l1 u1
              exact ⟨l1, (Used.append (hu.other_left rfl rfl) u1).other rfl rfl⟩

end Verif
