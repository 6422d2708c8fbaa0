import Verif.Spec.Mirror
import Verif.View.RenderScope
/-!
# Rendering mirrors the template (lemmas for C24, C27, C61)
-/
namespace Verif

/-- A later state of the rendering: elements and bindings are kept. -/
structure Ext (σ σ' : Render) : Prop where
  ctx : ∀ m e, σ.tree.ctx m = some e → σ'.tree.ctx m = some e
  regs : ∀ r ∈ σ.regs, r ∈ σ'.regs

theorem Ext.refl (σ : Render) : Ext σ σ := ⟨fun _ _ => id, fun _ => id⟩
theorem Ext.trans {a b c : Render} (h1 : Ext a b) (h2 : Ext b c) : Ext a c :=
  ⟨fun m e h => h2.ctx m e (h1.ctx m e h), fun r h => h2.regs r (h1.regs r h)⟩
theorem Ext.same {a b : Render} (h1 : b.tree = a.tree) (h2 : b.regs = a.regs) : Ext a b :=
  ⟨fun m e h => by rw [h1]; exact h, fun r h => by rw [h2]; exact h⟩

/-- A later state of the rendering, as seen from a part that was rendered between `lo` and `σ`: elements and
bindings are kept, and bindings are only added to nodes outside of that part. -/
structure Later (lo : Nat) (σ σ' : Render) : Prop where
  ctx : ∀ m e, σ.tree.ctx m = some e → σ'.tree.ctx m = some e
  regs : ∀ r ∈ σ.regs, r ∈ σ'.regs
  next : σ.tree.next ≤ σ'.tree.next
  added : ∀ r ∈ σ'.regs, r ∈ σ.regs ∨ r.2.node < lo ∨ σ.tree.next ≤ r.2.node

theorem Later.refl (lo : Nat) (σ : Render) : Later lo σ σ :=
  ⟨fun _ _ => id, fun _ => id, Nat.le_refl _, fun _ h => .inl h⟩

theorem Later.trans {lo lo' : Nat} {a b c : Render} (h1 : Later lo a b) (h2 : Later lo' b c) (hl : lo' ≤ lo) :
    Later lo a c := by
  refine ⟨fun m e h => h2.ctx m e (h1.ctx m e h), fun r h => h2.regs r (h1.regs r h),
    Nat.le_trans h1.next h2.next, fun r hr => ?_⟩
  rcases h2.added r hr with h | h | h
  · exact h1.added r h
  · exact .inr (.inl (Nat.lt_of_lt_of_le h hl))
  · exact .inr (.inr (Nat.le_trans h1.next h))

theorem Later.mono {lo lo' : Nat} {a b : Render} (h : Later lo a b) (hl : lo ≤ lo') : Later lo' a b :=
  ⟨h.ctx, h.regs, h.next, fun r hr => by
    rcases h.added r hr with x | x | x
    · exact .inl x
    · exact .inr (.inl (Nat.lt_of_lt_of_le x hl))
    · exact .inr (.inr x)⟩

theorem Later.same {lo : Nat} {a b : Render} (h1 : b.tree = a.tree) (h2 : b.regs = a.regs) : Later lo a b :=
  ⟨fun m e h => by rw [h1]; exact h, fun r h => by rw [h2]; exact h, by rw [h1]; exact Nat.le_refl _,
    fun r h => by rw [h2] at h; exact .inl h⟩

/-- What counts is the tree and the bindings. -/
theorem Later.congr {lo : Nat} {a a' b b' : Render} (h : Later lo a b) (h1 : a'.tree = a.tree)
    (h2 : a'.regs = a.regs) (h3 : b'.tree = b.tree) (h4 : b'.regs = b.regs) : Later lo a' b' := by
  obtain ⟨c, r, n, d⟩ := h
  constructor
  · rw [h1, h3]; exact c
  · rw [h2, h4]; exact r
  · rw [h1, h3]; exact n
  · rw [h1, h2, h4]; exact d

/-- All bindings are about nodes that exist. -/
def RegsOld (σ : Render) : Prop := ∀ r ∈ σ.regs, r.2.node < σ.tree.next

theorem renderSpans_source (params st) (ss : List TextSpan) (i : Nat) (σ : Render) :
    (renderSpans params st ss i σ).1 = ss.map (spanSource st) := by
  induction ss generalizing i σ with
  | nil => rfl
  | cons s ss ih =>
    cases s with
    | string s => simp [renderSpans, spanSource, ih]
    | binder b => simp [renderSpans, spanSource, ih]

theorem mem_spanRegs (params : Nat → BindingParams) (locals) (ss : List TextSpan) (i j : Nat) (b : Binder)
    (h : ss[j]? = some (.binder b)) :
    (b.denotes locals, ⟨params (i + j), b.pipe⟩) ∈ spanRegs params locals ss i := by
  induction ss generalizing i j with
  | nil => simp at h
  | cons s ss ih =>
    cases j with
    | zero =>
      simp at h; subst h
      simp [spanRegs, pointer_eq_denotes]
    | succ j =>
      have := ih (i + 1) j (by simpa using h)
      rw [show i + 1 + j = i + (j + 1) by omega] at this
      cases s with
      | string s => exact this
      | binder b' => exact List.mem_cons_of_mem _ this

theorem renderArguments_value (as : List CallbackArgument) (σ : Render) :
    (renderArguments as σ).1 = as.map (argValue σ.locals) := by
  induction as generalizing σ with
  | nil => rfl
  | cons a as ih =>
    cases a with
    | keyword k => simp [renderArguments, argValue, ih]
    | event => simp [renderArguments, argValue, ih]
    | binder b =>
      simp only [renderArguments, List.map_cons, argValue, ih]
      simp [Render.field, pointer_eq_denotes]

theorem join_single (s : String) : String.join [s] = s := by simp [String.join]

theorem spanRegs_denotes {params : Nat → BindingParams} {locals} {ss : List TextSpan}
    {r : String × Binding} (h : r ∈ spanRegs params locals ss 0) :
    ∃ (i : Nat) (b : Binder), ss[i]? = some (.binder b) ∧ r = (b.denotes locals, ⟨params i, b.pipe⟩) := by
  obtain ⟨i, b, h1, h2⟩ := spanRegs_mem h
  exact ⟨i, b, h1, by rw [h2, pointer_eq_denotes, Nat.zero_add]⟩

/-- What one element binding contributes. -/
theorem renderBinding_value (env : RenderEnv) (node : NodeId) (s : Element × Render) (b : ElementBinding) :
    (∀ key, (renderBinding env node s b).1.attrs key = ((attrValue key b).or (s.1.attrs key))) ∧
    (∀ ev, (renderBinding env node s b).1.listeners ev
      = ((listenerValue s.2.locals ev b).or (s.1.listeners ev))) ∧
    OwnRegistered (renderBinding env node s b).2.regs s.2.locals node b ∧
    (∀ key, (renderBinding env node s b).1.attrsBindings key = ((attrSpans key b).or (s.1.attrsBindings key))) ∧
    ∀ r ∈ (renderBinding env node s b).2.regs, r ∈ s.2.regs ∨ OwnRegistration s.2.locals node r b := by
  obtain ⟨e, σ⟩ := s
  have set_eq : ∀ {α} (m : SMap α) (k : String) (v : α) (key : String),
      m.set k v key = (if k = key then some v else none).or (m key) := by
    intro α m k v key
    by_cases h : k = key
    · subst h; simp
    · simp [h, SMap.set_other _ _ (Ne.symm h)]
  cases b with
  | none key value =>
    simp only [renderBinding]
    refine ⟨?_, ?_, trivial, ?_, ?_⟩
    · intro k
      by_cases h1 : key = "style" <;> simp only [h1, if_true, if_false] <;>
        exact set_eq _ _ _ _
    · intro ev
      by_cases h1 : key = "style" <;> simp [h1, listenerValue]
    · intro ev
      by_cases h1 : key = "style" <;> simp [h1, attrSpans]
    · intro r hr
      by_cases h1 : key = "id" <;> simp only [h1, if_true, if_false] at hr <;> exact .inl hr
  | alias n b => exact ⟨fun k => by simp [renderBinding, attrValue], fun k => by simp [renderBinding, listenerValue], trivial, fun k => by simp [renderBinding, attrSpans], fun r hr => .inl hr⟩
  | «repeat» n c b => exact ⟨fun k => by simp [renderBinding, attrValue], fun k => by simp [renderBinding, listenerValue], trivial, fun k => by simp [renderBinding, attrSpans], fun r hr => .inl hr⟩
  | visibility n b => exact ⟨fun k => by simp [renderBinding, attrValue], fun k => by simp [renderBinding, listenerValue], trivial, fun k => by simp [renderBinding, attrSpans], fun r hr => .inl hr⟩
  | tag key b =>
    refine ⟨fun k => by simp [renderBinding, attrValue], fun k => by simp [renderBinding, listenerValue], ?_, fun k => by simp [renderBinding, attrSpans], ?_⟩
    · simp [OwnRegistered, renderBinding, Render.register, Render.field, pointer_eq_denotes]
    · intro r hr
      simp only [renderBinding, Render.register, Render.field, List.mem_append, List.mem_singleton] at hr
      rcases hr with hr | hr
      · exact .inl hr
      · exact .inr (by rw [hr, pointer_eq_denotes]; rfl)
  | callback ev as =>
    refine ⟨fun k => by simp [renderBinding, attrValue], fun k => ?_, trivial, fun k => by simp [renderBinding, attrSpans], fun r hr => .inl ?_⟩
    · simp only [renderBinding, listenerValue]
      rw [set_eq, renderArguments_value]
    · simp only [renderBinding] at hr
      rw [(renderArguments_frame as σ).2.2.2] at hr; exact hr
  | «attribute» key spans =>
    have main : ∀ spans',
        (∀ k, (e.attrs.set key (TextContent.mk (renderSpans (fun i => .attribute node key i) id spans' 0 σ).1).toString) k
          = (attrValue k (.attribute key spans')).or (e.attrs k)) ∧
        OwnRegistered (renderSpans (fun i => .attribute node key i) id spans' 0 σ).2.regs σ.locals node (.attribute key spans') ∧
        (∀ k, (e.attrsBindings.set key (TextContent.mk (renderSpans (fun i => .attribute node key i) id spans' 0 σ).1)) k
          = (if key = k then some ⟨spans'.map (spanSource id)⟩ else none).or (e.attrsBindings k)) ∧
        ∀ r ∈ (renderSpans (fun i => .attribute node key i) id spans' 0 σ).2.regs,
          r ∈ σ.regs ∨ OwnRegistration σ.locals node r (.attribute key spans') := by
      intro spans'
      refine ⟨fun k => ?_, fun i b hb => ?_, fun k => ?_, fun r hr => ?_⟩
      · rw [set_eq, renderSpans_source]; rfl
      · rw [(renderSpans_frame _ _ _ _ _).2.2.2.2]
        apply List.mem_append_right
        have := mem_spanRegs (fun i => .attribute node key i) σ.locals spans' 0 i b hb
        simpa using this
      · rw [set_eq, renderSpans_source]
      · rw [(renderSpans_frame _ _ _ _ _).2.2.2.2] at hr
        rcases List.mem_append.1 hr with hr | hr
        · exact .inl hr
        · exact .inr (spanRegs_denotes hr)
    match spans with
    | [] => exact ⟨(main []).1, fun k => by simp [renderBinding, listenerValue], (main []).2.1, (main []).2.2.1, (main []).2.2.2⟩
    | [.string v] =>
      refine ⟨fun k => ?_, fun k => by simp [renderBinding, listenerValue], ?_, fun k => by simp [renderBinding, attrSpans], fun r hr => .inl hr⟩
      · simp only [renderBinding, attrValue, List.map_cons, List.map_nil, spanSource, join_single]
        exact set_eq _ _ _ _
      · intro i b hb
        match i, hb with
        | 0, hb => simp at hb
        | i + 1, hb => simp at hb
    | [.binder b] => exact ⟨(main [.binder b]).1, fun k => by simp [renderBinding, listenerValue], (main [.binder b]).2.1, (main [.binder b]).2.2.1, (main [.binder b]).2.2.2⟩
    | .string a :: b :: l =>
      exact ⟨(main (.string a :: b :: l)).1, fun k => by simp [renderBinding, listenerValue], (main (.string a :: b :: l)).2.1, (main (.string a :: b :: l)).2.2.1, (main (.string a :: b :: l)).2.2.2⟩
    | .binder a :: b :: l =>
      exact ⟨(main (.binder a :: b :: l)).1, fun k => by simp [renderBinding, listenerValue], (main (.binder a :: b :: l)).2.1, (main (.binder a :: b :: l)).2.2.1, (main (.binder a :: b :: l)).2.2.2⟩

theorem OwnRegistered.mono {regs regs' ρ n b} (h : OwnRegistered regs ρ n b) (hr : ∀ r ∈ regs, r ∈ regs') :
    OwnRegistered regs' ρ n b := by
  cases b with
  | tag key b => exact hr _ h
  | «attribute» key spans => exact fun i b hb => hr _ (h i b hb)
  | _ => trivial

theorem renderBindings_value (env : RenderEnv) (node : NodeId) (bs : List ElementBinding) (s : Element × Render) :
    (∀ key, (bs.foldl (renderBinding env node) s).1.attrs key
      = ((bs.filterMap (attrValue key)).getLast?).or (s.1.attrs key)) ∧
    (∀ ev, (bs.foldl (renderBinding env node) s).1.listeners ev
      = ((bs.filterMap (listenerValue s.2.locals ev)).getLast?).or (s.1.listeners ev)) ∧
    (∀ b ∈ bs, OwnRegistered (bs.foldl (renderBinding env node) s).2.regs s.2.locals node b) ∧
    (∀ key, (bs.foldl (renderBinding env node) s).1.attrsBindings key
      = ((bs.filterMap (attrSpans key)).getLast?).or (s.1.attrsBindings key)) ∧
    ∀ r ∈ (bs.foldl (renderBinding env node) s).2.regs,
      r ∈ s.2.regs ∨ ∃ b ∈ bs, OwnRegistration s.2.locals node r b := by
  induction bs generalizing s with
  | nil => simp
  | cons b bs ih =>
    obtain ⟨h1, h2, h3, h4, h5⟩ := ih (renderBinding env node s b)
    obtain ⟨g1, g2, g3, g4, g5⟩ := renderBinding_value env node s b
    have hl := (renderBinding_step env node s b).locals
    rw [hl] at h2 h3 h5
    have aux : ∀ {α β} (f : α → Option β) (x : α) (l : List α) (d : Option β),
        ((l.filterMap f).getLast?).or ((f x).or d) = (((x :: l).filterMap f).getLast?).or d := by
      intro α β f x l d
      rw [List.filterMap_cons]
      cases f x with
      | none => simp
      | some y =>
        simp only [List.getLast?_cons]
        cases (l.filterMap f).getLast? <;> simp
    refine ⟨fun key => ?_, fun ev => ?_, fun b' hb' => ?_, fun key => ?_, fun r hr => ?_⟩
    · rw [List.foldl_cons, h1, g1, aux]
    · rw [List.foldl_cons, h2, g2, aux]
    · rw [List.foldl_cons]
      rcases List.mem_cons.1 hb' with rfl | hb'
      · obtain ⟨added, he, -⟩ := (renderBindings_step env node bs (renderBinding env node s b')).regs
        exact g3.mono (fun r hr => by rw [he]; exact List.mem_append_left _ hr)
      · exact h3 b' hb'
    · rw [List.foldl_cons, h4, g4, aux]
    · rw [List.foldl_cons] at hr
      rcases h5 r hr with h | ⟨b', hb', h⟩
      · rcases g5 r h with h | h
        · exact .inl h
        · exact .inr ⟨b, by simp, h⟩
      · exact .inr ⟨b', by simp [hb'], h⟩

/-- A rendering function keeps what is there and its result mirrors the template, also later. -/
def RecMirror (Q : Html → Prop) (rec : RenderFn) (below : Render → SMap String → Html → NodeId → Prop) : Prop :=
  ∀ h σ n σ', Q h → σ.tree.Clean → RegsOld σ → rec h σ = .ok (n, σ') →
    (∀ lo, Later lo σ σ') ∧ σ'.tree.Clean ∧ RegsOld σ' ∧
      ∀ σ'', Later σ.tree.next σ' σ'' → below σ'' σ.locals h n

theorem grew_ext {σ σ' : Render} {n : NodeId} (h : Grew σ σ' n) (hc : σ.tree.Clean) : Ext σ σ' := by
  obtain ⟨-, hf, added, he, -⟩ := h
  refine ⟨fun m e hm => ?_, fun r hr => by rw [he]; exact List.mem_append_left _ hr⟩
  by_cases hlt : m < σ.tree.next
  · rw [(hf.old m hlt).1]; exact hm
  · rw [(hc m (Nat.le_of_not_lt hlt)).1] at hm; simp at hm

theorem grew_later {σ σ' : Render} {n : NodeId} (h : Grew σ σ' n) (hc : σ.tree.Clean) (hr : RegsOld σ) :
    (∀ lo, Later lo σ σ') ∧ RegsOld σ' := by
  have he := grew_ext h hc
  obtain ⟨-, hf, added, ha, hfine⟩ := h
  refine ⟨fun lo => ⟨he.ctx, he.regs, hf.le, fun r hm => ?_⟩, fun r hm => ?_⟩
  · rw [ha] at hm
    rcases List.mem_append.1 hm with hm | hm
    · exact .inl hm
    · exact .inr (.inr (hfine r hm).2.1)
  · rw [ha] at hm
    rcases List.mem_append.1 hm with hm | hm
    · exact Nat.lt_of_lt_of_le (hr r hm) hf.le
    · exact (hfine r hm).2.2

/-- Progress while the children of `node` are rendered. -/
structure MirrorStep (σ σ' : Render) : Prop where
  ext : Ext σ σ'
  clean : σ'.tree.Clean

/-- The same, with the bindings: they are for `node` or for new nodes. -/
structure LoopStep (node : NodeId) (σ σ' : Render) : Prop where
  later : Later (node + 1) σ σ'
  clean : σ'.tree.Clean
  old : RegsOld σ'

theorem LoopStep.trans {node : NodeId} {a b c : Render} (h1 : LoopStep node a b) (h2 : LoopStep node b c) :
    LoopStep node a c := ⟨h1.later.trans h2.later (Nat.le_refl _), h2.clean, h2.old⟩

theorem LoopStep.congr {node : NodeId} {a a' b b' : Render} (h : LoopStep node a b) (h1 : a'.tree = a.tree)
    (h2 : a'.regs = a.regs) (h3 : b'.tree = b.tree) (h4 : b'.regs = b.regs) : LoopStep node a' b' :=
  ⟨h.later.congr h1 h2 h3 h4, by rw [h3]; exact h.clean, by
    unfold RegsOld; rw [h3, h4]; exact h.old⟩

/-- Bindings of `node` are not made by rendering new nodes. -/
theorem Later.none {lo node : Nat} {a b : Render} (h : Later lo a b) (hlo : lo ≤ node) (hn : node < a.tree.next) :
    ∀ r ∈ b.regs, r.2.node = node → r ∈ a.regs := by
  intro r hr e
  rcases h.added r hr with h | h | h
  · exact h
  · rw [e] at h; exact absurd (Nat.lt_of_lt_of_le h hlo) (Nat.lt_irrefl _)
  · rw [e] at h; exact absurd (Nat.lt_of_lt_of_le hn h) (Nat.lt_irrefl _)

theorem renderSlots_mirror {Q : Html → Prop} {rec below} (hrec : RecMirror Q rec below)
    {bm} (hsc : RecScoped Q rec bm) {child : Html} (hQ : Q child) {name : String} {b : Binder}
    (hne : name ≠ b.head) {node : NodeId} (lo cnt : Nat) (cs : List NodeId) (σ : Render) (hc : σ.tree.Clean)
    (hold : RegsOld σ) (hnode : node < σ.tree.next) (ρ : SMap String)
    (hρ : ∀ x, x ≠ name → σ.locals x = ρ x) {cs' σ'}
    (h : renderSlots rec name b child (List.range' lo cnt) cs σ = .ok (cs', σ')) :
    LoopStep node σ σ' ∧ (∀ r ∈ σ'.regs, r.2.node = node → r ∈ σ.regs) ∧
      ∃ group : List NodeId, cs' = cs ++ group ∧ group.length = cnt ∧ ∀ σ'', Later (node + 1) σ' σ'' →
      ∀ (k : Nat) m, group[k]? = some m →
        below σ'' (ρ.set name (b.denotes ρ ++ "/" ++ toString (lo + k))) child m := by
  induction cnt generalizing lo cs σ with
  | zero =>
    simp only [List.range'_zero, renderSlots, Except.ok.injEq, Prod.mk.injEq] at h
    obtain ⟨rfl, rfl⟩ := h
    exact ⟨⟨Later.refl _ _, hc, hold⟩, fun r hr _ => hr, [], by simp, rfl, by simp⟩
  | succ cnt ih =>
    rw [List.range'_succ] at h
    simp only [renderSlots] at h
    split at h
    · simp at h
    · rename_i c σ1 he
      obtain ⟨l1, -⟩ := hsc _ _ _ _ hQ he
      have hp : b.pointer σ.locals = b.denotes ρ := by
        rw [pointer_eq_denotes]; unfold Binder.denotes; rw [hρ b.head (Ne.symm hne)]
      have hl : (σ.index b lo).2.locals.set name (σ.index b lo).1
          = ρ.set name (b.denotes ρ ++ "/" ++ toString lo) := by
        funext x
        by_cases hx : x = name
        · subst hx; simp [Render.index, hp]
        · simp only [SMap.set_other _ _ hx]; exact hρ x hx
      obtain ⟨e1, c1, o1, m1⟩ := hrec _ _ _ _ hQ (by exact hc) (by exact hold) he
      simp only [hl] at l1 m1
      have e1' : ∀ lo, Later lo σ σ1 := fun lo => (e1 lo).congr rfl rfl rfl rfl
      have hn1 : node < σ1.tree.next := Nat.lt_of_lt_of_le hnode (e1' 0).next
      obtain ⟨s2, n2, group, g1, g2, g3⟩ := ih (lo + 1) (cs ++ [c]) σ1 c1 o1 hn1
        (by intro x hx; rw [l1, SMap.set_other _ _ hx]) h
      refine ⟨(LoopStep.mk (e1' _) c1 o1).trans s2, ?_, c :: group, by simp [g1], by simp [g2], ?_⟩
      · intro r hr hrn
        exact (e1' 0).none (Nat.zero_le _) hnode r (n2 r hr hrn) hrn
      intro σ'' hx k m hk
      cases k with
      | zero =>
        simp at hk; subst hk
        exact m1 _ ((s2.later.trans hx (Nat.le_refl _)).mono hnode)
      | succ k =>
        have := g3 σ'' hx k m (by simpa using hk)
        rw [show lo + 1 + k = lo + (k + 1) by omega] at this
        exact this

/-- What a child contributes to the bindings of its parent. -/
structure Owns (node : NodeId) (σ σ' : Render) (own : List (String × Binding)) : Prop where
  mem : ∀ r ∈ own, r ∈ σ'.regs
  all : ∀ r ∈ σ'.regs, r.2.node = node → r ∈ σ.regs ∨ r ∈ own

theorem renderBody_mirror {Q : Html → Prop} {rec below} (hrec : RecMirror Q rec below)
    {bm} (hsc : RecScoped Q rec bm) {child : Html} (hQ : Q child) (hfresh : LoopNameFresh child)
    {node : NodeId} (cs : List NodeId) (σ : Render) (hc : σ.tree.Clean) (hold : RegsOld σ)
    (hnode : node < σ.tree.next) {cs' σ'}
    (h : renderBody rec node child cs σ = .ok (cs', σ')) :
    LoopStep node σ σ' ∧ ∃ own, Owns node σ σ' own ∧
      ∃ group : List NodeId, cs' = cs ++ group ∧ ∀ σ'', Later (node + 1) σ' σ'' →
      match child.asVisibility, child.asRepeat with
      | some (visible, b), _ => ∃ m, group = [m] ∧ below σ'' σ.locals child m ∧
          own = [(b.denotes σ.locals, ⟨.visibility node m visible, b.pipe⟩)]
      | none, some (name, count, b) => group.length = count ∧
          own = [(b.denotes σ.locals, ⟨.repeat node cs.length count, b.pipe⟩)] ∧
          ∀ (k : Nat) m, group[k]? = some m →
            below σ'' (σ.locals.set name (b.denotes σ.locals ++ "/" ++ toString k)) child m
      | none, none => ∃ m, group = [m] ∧ below σ'' σ.locals child m ∧ own = [] := by
  have reg : ∀ (σ : Render) (path : String) (bd : Binding), bd.node = node → node < σ.tree.next → σ.tree.Clean →
      RegsOld σ → LoopStep node σ (σ.register path bd) := by
    intro σ path bd hb hn hcl ho
    refine ⟨⟨fun _ _ => id, fun r hr => List.mem_append_left _ hr, Nat.le_refl _, fun r hr => ?_⟩, hcl, fun r hr => ?_⟩
    · rcases List.mem_append.1 hr with hr | hr
      · exact .inl hr
      · simp only [List.mem_singleton] at hr
        subst hr
        exact .inr (.inl (by simp only [hb]; exact Nat.lt_succ_self _))
    · rcases List.mem_append.1 hr with hr | hr
      · exact ho r hr
      · simp only [List.mem_singleton] at hr
        subst hr
        simp only [hb]; exact hn
  unfold renderBody at h
  split at h
  · rename_i v b hv
    simp only at h
    split at h
    · simp at h
    · rename_i c σ1 he
      simp only [Except.ok.injEq, Prod.mk.injEq] at h
      obtain ⟨rfl, rfl⟩ := h
      obtain ⟨e1, c1, o1, m1⟩ := hrec _ _ _ _ hQ (by exact hc) (by exact hold) he
      have e1' : ∀ lo, Later lo σ σ1 := fun lo => (e1 lo).congr rfl rfl rfl rfl
      have hn1 : node < σ1.tree.next := Nat.lt_of_lt_of_le hnode (e1' 0).next
      have s2 := reg σ1 (σ.field b).1 ⟨.visibility node c v, b.pipe⟩ rfl hn1 c1 o1
      refine ⟨(LoopStep.mk (e1' _) c1 o1).trans s2,
        [(b.denotes σ.locals, ⟨.visibility node c v, b.pipe⟩)], ⟨?_, ?_⟩, [c], rfl, ?_⟩
      · intro r hr
        simp only [List.mem_singleton] at hr
        rw [hr, ← (field_used σ b).1]
        simp [Render.register]
      · intro r hr hrn
        rcases List.mem_append.1 hr with hr | hr
        · exact .inl ((e1' 0).none (Nat.zero_le _) hnode r hr hrn)
        · right
          rw [← (field_used σ b).1]; exact hr
      · intro σ'' hx
        rw [hv]
        exact ⟨c, rfl, m1 _ ((s2.later.trans hx (Nat.le_refl _)).mono hnode), rfl⟩
  · rename_i hv
    split at h
    · rename_i name count b hr
      simp only at h
      split at h
      · simp at h
      · rename_i cs1 σ1 he
        simp only [Except.ok.injEq, Prod.mk.injEq] at h
        obtain ⟨rfl, rfl⟩ := h
        have hmem : .repeat name count b ∈ child.bindings := by
          unfold Html.asRepeat at hr
          obtain ⟨x, hx1, hx2⟩ := List.exists_of_findSome?_eq_some hr
          cases x <;> simp at hx2
          obtain ⟨rfl, rfl, rfl⟩ := hx2
          exact hx1
        rw [List.range_eq_range'] at he
        have s0 := reg σ (σ.field b).1 ⟨.repeat node cs.length count, b.pipe⟩ rfl hnode hc hold
        obtain ⟨s1, n1, group, g1, g2, g3⟩ := renderSlots_mirror hrec hsc hQ (hfresh name count b hmem) (node := node) 0 count cs
          _ (by exact hc) (by exact s0.old) (by exact hnode) σ.locals (by intro x hx; simp [Render.register, Render.field, SMap.del_other _ hx]) he
        have s1' : LoopStep node (σ.register (σ.field b).1 ⟨.repeat node cs.length count, b.pipe⟩) σ1 :=
          s1.congr rfl rfl rfl rfl
        refine ⟨(s0.trans s1').congr rfl rfl rfl rfl,
          [(b.denotes σ.locals, ⟨.repeat node cs.length count, b.pipe⟩)], ⟨?_, ?_⟩, group, g1, ?_⟩
        · intro r hr
          simp only [List.mem_singleton] at hr
          apply s1'.later.regs
          rw [hr, ← (field_used σ b).1]
          simp [Render.register]
        · intro r hr hrn
          have := n1 r hr hrn
          rcases List.mem_append.1 this with hr | hr
          · exact .inl hr
          · right; rw [← (field_used σ b).1]; exact hr
        · intro σ'' hx
          have hx' : Later (node + 1) σ1 σ'' := hx.congr rfl rfl rfl rfl
          simp only [hv, hr]
          refine ⟨g2, trivial, ?_⟩
          intro k m hk
          have := g3 σ'' hx' k m hk
          rw [Nat.zero_add] at this
          exact this
    · rename_i hr
      split at h
      · simp at h
      · rename_i c σ1 he
        simp only [Except.ok.injEq, Prod.mk.injEq] at h
        obtain ⟨rfl, rfl⟩ := h
        obtain ⟨e1, c1, o1, m1⟩ := hrec _ _ _ _ hQ hc hold he
        refine ⟨⟨e1 _, c1, o1⟩, [], ⟨by simp, ?_⟩, [c], rfl, ?_⟩
        · intro r hr hrn
          exact .inl ((e1 0).none (Nat.zero_le _) hnode r hr hrn)
        · intro σ'' hx
          simp only [hv, hr]
          exact ⟨c, rfl, m1 _ (hx.mono hnode), trivial⟩

theorem renderChild_mirror {env : RenderEnv} {rec below} {P : Html → Prop}
    (hP : ∀ c, P c → DistinctAliases env c ∧ LoopNameFresh c)
    (hrec : RecMirror (EveryNode env P) rec below) {bm} (hsc : RecScoped (EveryNode env P) rec bm)
    {h child : Html} (hmem : child ∈ h.children)
    (hE : EveryNode env P h) {node : NodeId} (cs : List NodeId) (σ : Render) (hcl : σ.tree.Clean)
    (hold : RegsOld σ) (hnode : node < σ.tree.next) {cs' σ'}
    (hok : renderChild env rec node child cs σ = .ok (cs', σ')) :
    LoopStep node σ σ' ∧ ∃ own, Owns node σ σ' own ∧
      ∃ group : List NodeId, cs' = cs ++ group ∧ ∀ σ'', Later (node + 1) σ' σ'' →
      MirrorsChild env (below σ'') σ.locals node cs.length child group own := by
  unfold renderChild at hok
  split at hok
  · simp at hok
  · rename_i c hc
    simp only at hok
    split at hok
    · simp at hok
    · rename_i cs1 σ1 he
      simp only [Except.ok.injEq, Prod.mk.injEq] at hok
      obtain ⟨rfl, rfl⟩ := hok
      obtain ⟨hn, hf⟩ := resolve_conditions hc (hP _ (hE.1 _ (.child hmem))) (fun id t ht => hP _ (hE.2 id t ht).1)
      obtain ⟨a1, a2⟩ := renderAliases_used c.bindings (fun _ => none) σ
      obtain ⟨t1, t2, -⟩ := renderAliases_frame c.bindings (fun _ => none) σ
      obtain ⟨s1, own, o1, group, g1, g2⟩ := renderBody_mirror hrec hsc (resolve_below hmem hc hE) hf (node := node) cs _
        (by rw [t1]; exact hcl) (by unfold RegsOld; rw [t1, t2]; exact hold) (by rw [t1]; exact hnode) he
      rw [a1] at g2
      refine ⟨s1.congr t1.symm t2.symm rfl rfl, own, ⟨o1.mem, ?_⟩, group, g1, ?_⟩
      · intro r hr hrn
        rw [← t2]; exact o1.all r hr hrn
      · intro σ'' hx
        exact ⟨c, hc, g2 σ'' (hx.congr rfl rfl rfl rfl)⟩

theorem renderChildren_mirror {env : RenderEnv} {rec below} {P : Html → Prop}
    (hP : ∀ c, P c → DistinctAliases env c ∧ LoopNameFresh c)
    (hrec : RecMirror (EveryNode env P) rec below) {bm} (hsc : RecScoped (EveryNode env P) rec bm)
    {h : Html} (hE : EveryNode env P h) {node : NodeId}
    (l : List Html) (hl : ∀ c ∈ l, c ∈ h.children) (cs : List NodeId) (σ : Render) (hcl : σ.tree.Clean)
    (hold : RegsOld σ) (hnode : node < σ.tree.next) {cs' σ'}
    (hok : renderChildren env rec node l cs σ = .ok (cs', σ')) :
    LoopStep node σ σ' ∧ ∃ own, Owns node σ σ' own ∧
      ∃ group : List NodeId, cs' = cs ++ group ∧ ∀ σ'', Later (node + 1) σ' σ'' →
      MirrorsChildren env (below σ'') σ.locals node cs.length l group own := by
  induction l generalizing cs σ with
  | nil =>
    simp only [renderChildren, Except.ok.injEq, Prod.mk.injEq] at hok
    obtain ⟨rfl, rfl⟩ := hok
    exact ⟨⟨Later.refl _ _, hcl, hold⟩, [], ⟨by simp, fun r hr _ => .inl hr⟩, [], by simp, fun _ _ => ⟨rfl, rfl⟩⟩
  | cons c l ih =>
    simp only [renderChildren] at hok
    split at hok
    · simp at hok
    · rename_i cs1 σ1 he
      obtain ⟨l1, -⟩ := renderChild_scoped hP hsc (hl c (by simp)) hE cs σ he
      obtain ⟨s1, o1, w1, g1, rfl, m1⟩ := renderChild_mirror hP hrec hsc (hl c (by simp)) hE cs σ hcl hold hnode he
      obtain ⟨s2, o2, w2, g2, rfl, m2⟩ := ih (fun d hd => hl d (by simp [hd])) _ σ1 s1.clean s1.old
        (Nat.lt_of_lt_of_le hnode s1.later.next) hok
      refine ⟨s1.trans s2, o1 ++ o2, ⟨?_, ?_⟩, g1 ++ g2, by simp, ?_⟩
      · intro r hr
        rcases List.mem_append.1 hr with hr | hr
        · exact s2.later.regs r (w1.mem r hr)
        · exact w2.mem r hr
      · intro r hr hrn
        rcases w2.all r hr hrn with hr | hr
        · rcases w1.all r hr hrn with hr | hr
          · exact .inl hr
          · exact .inr (List.mem_append_left _ hr)
        · exact .inr (List.mem_append_right _ hr)
      · intro σ'' hx
        refine ⟨g1, g2, o1, o2, rfl, rfl, m1 _ (s2.later.trans hx (Nat.le_refl _)), ?_⟩
        have := m2 σ'' hx
        rw [l1, List.length_append] at this
        exact this

theorem renderNode_mirror (env : RenderEnv) {P : Html → Prop}
    (hP : ∀ c, P c → DistinctAliases env c ∧ LoopNameFresh c) (fuel : Nat) :
    RecMirror (EveryNode env P) (renderNode env fuel)
      (fun σ'' => Mirrors env σ''.tree.ctx σ''.regs fuel) := by
  induction fuel with
  | zero => intro h σ n σ' _ _ _ hok; simp [renderNode] at hok
  | succ fuel ih =>
    intro h σ n σ' hE hcl hold hok
    have hg := renderNode_grew env (fuel + 1) h σ hcl
    rw [hok] at hg
    obtain ⟨hlater, hold'⟩ := grew_later hg hcl hold
    refine ⟨hlater, hg.forest.clean, hold', ?_⟩
    intro σ'' hx
    have htop : n = σ.tree.next := hg.top
    have hnlt : n < σ'.tree.next := (hg.forest.top n (by simp)).2.1
    have hsc := renderNode_scoped env hP fuel
    simp only [renderNode] at hok
    simp only [Mirrors]
    split at hok
    · rename_i spans ht
      simp only [Except.ok.injEq] at hok
      have e1 : (renderText env spans σ).1 = n := by rw [hok]
      have e2 : (renderText env spans σ).2 = σ' := by rw [hok]
      obtain ⟨h1, h2, h3, h4, h5⟩ := renderSpans_frame (fun i => .text σ.tree.newLeaf.1 i) env.translate spans 0
        { σ with tree := σ.tree.newLeaf.2 }
      have hn : σ.tree.newLeaf.1 = n := e1
      have hregs : σ'.regs = σ.regs ++ spanRegs (fun i => .text n i) σ.locals spans 0 := by
        rw [← e2, ← hn]; exact h5
      refine ⟨{ node := n, text := some ⟨(renderSpans (fun i => .text σ.tree.newLeaf.1 i) env.translate spans 0 { σ with tree := σ.tree.newLeaf.2 }).1⟩ }, hx.ctx n _ ?_, ?_, ?_⟩
      · rw [← e2, ← hn]; simp [renderText, Tree.setCtx]
      · rfl
      · simp only [ht]
        refine ⟨by rw [renderSpans_source], trivial, trivial, ?_, ?_⟩
        · intro i b hb
          apply hx.regs
          rw [hregs]
          apply List.mem_append_right
          have := mem_spanRegs (fun i => .text n i) σ.locals spans 0 i b hb
          simpa using this
        · intro r hr hrn
          have hr := hx.none (Nat.le_of_eq htop.symm) hnlt r hr hrn
          rw [hregs] at hr
          rcases List.mem_append.1 hr with hr | hr
          · have := hold r hr; rw [hrn, htop] at this; exact absurd this (Nat.lt_irrefl _)
          · exact spanRegs_denotes hr
    · rename_i ht
      unfold renderElement at hok
      simp only at hok
      have hb := renderBindings_step env σ.tree.newLeaf.1 h.bindings
        ({ node := σ.tree.newLeaf.1, tag := h.tag }, { σ with tree := σ.tree.newLeaf.2 })
      obtain ⟨v1, v2, v3, v4, v5⟩ := renderBindings_value env σ.tree.newLeaf.1 h.bindings
        ({ node := σ.tree.newLeaf.1, tag := h.tag }, { σ with tree := σ.tree.newLeaf.2 })
      generalize h.bindings.foldl (renderBinding env σ.tree.newLeaf.1)
        ({ node := σ.tree.newLeaf.1, tag := h.tag }, { σ with tree := σ.tree.newLeaf.2 }) = s at hb v1 v2 v3 v4 v5 hok
      have htree : s.2.tree = σ.tree.newLeaf.2 := hb.tree
      have hl0 : s.2.locals = σ.locals := hb.locals
      have htag : s.1.tag = h.tag := hb.tag
      have hcs : s.2.tree.Clean := by rw [htree]; exact clean_newLeaf hcl
      have hnode : σ.tree.newLeaf.1 < s.2.tree.next := by rw [htree]; exact Nat.lt_succ_self _
      have hown : ∀ r ∈ s.2.regs, r ∈ σ.regs ∨ ∃ b ∈ h.bindings, OwnRegistration σ.locals σ.tree.newLeaf.1 r b := v5
      have holds : RegsOld s.2 := by
        intro r hr
        rcases hown r hr with hr | ⟨b, -, hr⟩
        · rw [htree]; exact Nat.lt_succ_of_lt (hold r hr)
        · refine Nat.lt_of_le_of_lt (Nat.le_of_eq ?_) hnode
          cases b with
          | tag key b => rw [hr]; rfl
          | «attribute» key spans => obtain ⟨i, b, -, rfl⟩ := hr; rfl
          | _ => exact hr.elim
      have hlp := renderContent_loop (env := env) (renderNode_grew env fuel) (node := σ.tree.newLeaf.1) (e := s.1)
        h.children s.2 hcs
      split at hok
      · simp at hok
      · rename_i cs σ1 he
        rw [he] at hlp
        split at hok
        · simp at hok
        · rename_i t he2
          simp only [Except.ok.injEq, Prod.mk.injEq] at hok
          obtain ⟨rfl, rfl⟩ := hok
          have hF := hlp.1.forest
          rw [htree] at hF
          obtain ⟨-, hctx, -, hother⟩ := forest_close (e := s.1) hcl hF (by rw [hb.sameNode]; rfl)
            (fun hi => (hlp.2 hi).1) he2
          have hnone : σ1.tree.ctx σ.tree.next = none :=
            ((hF.old σ.tree.next (Nat.lt_succ_self _)).1).trans (hcl _ (Nat.le_refl _)).1
          have hnext : t.next = σ1.tree.next := by
            unfold Tree.setChildren at he2
            split at he2
            · simp at he2
            · simp only [Except.ok.injEq] at he2
              subst he2
              have aux : ∀ (l : List NodeId) (p : NodeId) (t : Tree), (l.foldl (Tree.adopt p) t).next = t.next := by
                intro l p
                induction l with
                | nil => intro t; rfl
                | cons c l ih => intro t; rw [List.foldl_cons, ih]; rfl
              exact aux _ _ _
          have hx1 : Later (σ.tree.next + 1) σ1 σ'' := by
            refine ⟨fun m e hm => hx.ctx m e ?_, fun r hr => hx.regs r hr, ?_, fun r hr => ?_⟩
            · have : m ≠ σ.tree.next := fun hh => by rw [hh, hnone] at hm; simp at hm
              rw [show ({ σ1 with tree := t } : Render).tree.ctx m = σ1.tree.ctx m from (hother m this).1]
              exact hm
            · rw [← hnext]; exact hx.next
            · rcases hx.added r hr with h | h | h
              · exact .inl h
              · exact .inr (.inl (Nat.lt_succ_of_lt h))
              · rw [← hnext]; exact .inr (.inr h)
          have hall : ∀ r ∈ σ''.regs, r.2.node = σ.tree.next → r ∈ σ1.regs := fun r hr hrn =>
            hx.none (Nat.le_refl _) hnlt r hr hrn
          have hfirst : ∀ r ∈ s.2.regs, r.2.node = σ.tree.next →
              ∃ b ∈ h.bindings, OwnRegistration σ.locals σ.tree.newLeaf.1 r b := by
            intro r hr hrn
            rcases hown r hr with hr | hr
            · have := hold r hr; rw [hrn] at this; exact absurd this (Nat.lt_irrefl _)
            · exact hr
          refine ⟨_, hx.ctx _ _ hctx, congrArg Prod.fst hb.sameNode, ?_⟩
          simp only [ht]
          refine ⟨hb.text, htag, ?_, ?_, ?_, ?_, ?_⟩
          · intro key; rw [v1]; simp
          · intro ev; rw [v2]; simp
          · intro key; rw [v4]; simp
          · intro b hbm
            refine (v3 b hbm).mono (fun r hr => hx1.regs r ?_)
            obtain ⟨added, ha, -⟩ := hlp.1.regs
            rw [ha]; exact List.mem_append_left _ hr
          · unfold renderContent at he
            rw [htag] at he
            split at he
            · rename_i hi
              simp only [if_pos hi]
              simp only [Except.ok.injEq, Prod.mk.injEq] at he
              obtain ⟨rfl, rfl⟩ := he
              refine ⟨[], by simp, fun r hr hrn => .inl (hfirst r (hall r hr hrn) hrn), rfl,
                _, { node := s.2.tree.newLeaf.1, backgrounds := [{ image := some ((s.1.attrs "src").getD ""), isSrc := true }] }, rfl, hx1.ctx _ _ ?_, ?_, rfl, rfl, rfl, rfl, fun _ => rfl, ?_⟩
              · simp [renderBgImage, Tree.setCtx]
              · simp
              · intro r hr hrn
                have hlt : s.2.tree.next < (renderBgImage ((s.1.attrs "src").getD "") s.2).2.tree.next :=
                  Nat.lt_succ_self _
                have := hx1.none (node := s.2.tree.next) (by rw [htree]; exact Nat.le_refl _) hlt r hr hrn
                have := holds r this
                rw [hrn] at this
                exact absurd this (Nat.lt_irrefl _)
            · rename_i hi
              simp only [if_neg hi]
              split at he
              · rename_i hv
                simp only [if_pos hv]
                simp only [Except.ok.injEq, Prod.mk.injEq] at he
                obtain ⟨rfl, rfl⟩ := he
                exact ⟨[], by simp, fun r hr hrn => .inl (hfirst r (hall r hr hrn) hrn), rfl, rfl⟩
              · rename_i hv
                simp only [if_neg hv]
                obtain ⟨s1, own, w1, group, g1, g2⟩ := renderChildren_mirror hP ih hsc hE h.children (fun _ => id) [] s.2 hcs
                  holds hnode he
                have := g2 σ'' hx1
                rw [hl0] at this
                simp only [List.nil_append] at g1
                subst g1
                refine ⟨own, fun r hr => hx1.regs r (w1.mem r hr), fun r hr hrn => ?_, this⟩
                rcases w1.all r (hall r hr hrn) hrn with hr | hr
                · exact .inl (hfirst r hr hrn)
                · exact .inr hr

end Verif
