import Verif.View.WholeLemmas
/-!
# What all rendered elements have in common (lemmas for C79-C81)
-/
namespace Verif

/-- What holds of a new element and is kept by everything rendering does to it. -/
structure Modest (P : NodeId → Element → Prop) : Prop where
  element : ∀ node tag, P node { node := node, tag := tag }
  text : ∀ node text, P node { node := node, text := some text }
  picture : ∀ node backgrounds, P node { node := node, backgrounds := backgrounds }
  style : ∀ n e style, P n e → P n { e with style := style }
  attrs : ∀ n e attrs, P n e → P n { e with attrs := attrs }
  hints : ∀ n e hints, P n e → P n { e with hints := hints }
  bindings : ∀ n e bs, P n e → P n { e with attrsBindings := bs }
  listeners : ∀ n e ls, P n e → P n { e with listeners := ls }
  children : ∀ n e cs, P n e → P n { e with children := cs }

variable {P : NodeId → Element → Prop}

/-- All elements of a tree. -/
def Tree.Every (P : NodeId → Element → Prop) (t : Tree) : Prop := ∀ n e, t.ctx n = some e → P n e

theorem Tree.Every.setCtx {t : Tree} (h : t.Every P) {n : NodeId} {e : Element} (he : P n e) : (t.setCtx n e).Every P := by
  intro m x hx
  by_cases hm : m = n
  · subst hm
    simp only [Tree.setCtx, upd_same, Option.some.injEq] at hx
    subst hx; exact he
  · simp only [Tree.setCtx, upd_other _ _ hm] at hx
    exact h m x hx

theorem Tree.Every.ctx {t t' : Tree} (h : t.Every P) (hc : t'.ctx = t.ctx) : t'.Every P := by
  intro m x hx; rw [hc] at hx; exact h m x hx

theorem renderBinding_modest (hP : Modest P) {env : RenderEnv} {node : NodeId} {s : Element × Render} {b : ElementBinding}
    (he : P node s.1) : P node (renderBinding env node s b).1 ∧ (renderBinding env node s b).2.tree = s.2.tree := by
  obtain ⟨e, σ⟩ := s
  have he : P node e := he
  cases b with
  | none key value =>
    simp only [renderBinding]
    refine ⟨?_, ?_⟩
    · split
      · exact hP.attrs _ _ _ (hP.style _ _ _ he)
      · exact hP.attrs _ _ _ he
    · split <;> rfl
  | tag key b => exact ⟨hP.hints _ _ _ he, rfl⟩
  | «attribute» key spans =>
    have hs := fun sp => (renderSpans_frame (fun i => .attribute node key i) id sp 0 σ).1
    have hh : ∀ h a b, P node { e with hints := h, attrs := a, attrsBindings := b } := fun h a b => hP.bindings _ { e with hints := h, attrs := a } b (hP.attrs _ { e with hints := h } a (hP.hints _ e h he))
    match spans, hs spans with
    | [.string value], _ => exact ⟨hP.attrs _ _ _ he, rfl⟩
    | [], h => exact ⟨hh _ _ _, h⟩
    | [.binder b], h => exact ⟨hh _ _ _, h⟩
    | .string a :: b :: l, h => exact ⟨hh _ _ _, h⟩
    | .binder a :: b :: l, h => exact ⟨hh _ _ _, h⟩
  | callback event arguments => exact ⟨hP.listeners _ _ _ he, (renderArguments_frame arguments σ).1⟩
  | «alias» _ _ => exact ⟨he, rfl⟩
  | «repeat» _ _ _ => exact ⟨he, rfl⟩
  | visibility _ _ => exact ⟨he, rfl⟩

theorem renderBindings_modest (hP : Modest P) {env : RenderEnv} {node : NodeId} (bs : List ElementBinding) {s : Element × Render}
    (he : P node s.1) : P node (bs.foldl (renderBinding env node) s).1 ∧ (bs.foldl (renderBinding env node) s).2.tree = s.2.tree := by
  induction bs generalizing s with
  | nil => exact ⟨he, rfl⟩
  | cons b bs ih =>
    obtain ⟨h1, h2⟩ := renderBinding_modest hP (env := env) (node := node) (b := b) he
    obtain ⟨h3, h4⟩ := ih (s := renderBinding env node s b) h1
    exact ⟨h3, h4.trans h2⟩

/-- What rendering a node keeps true of the tree. -/
def RecKeeps (J : Tree → Prop) (rec : RenderFn) : Prop :=
  ∀ h σ n σ', rec h σ = .ok (n, σ') → J σ.tree → J σ'.tree

variable {J : Tree → Prop}

theorem renderSlots_keeps {rec : RenderFn} (hrec : RecKeeps J rec) {child : Html} {name : String} {b : Binder}
    (ns : List Nat) : ∀ (cs : List NodeId) (σ : Render) {cs' σ'}, renderSlots rec name b child ns cs σ = .ok (cs', σ') → J σ.tree → J σ'.tree := by
  induction ns with
  | nil => intro cs σ cs' σ' h hc; simp only [renderSlots, Except.ok.injEq, Prod.mk.injEq] at h; rw [← h.2]; exact hc
  | cons n ns ih =>
    intro cs σ cs' σ' h hc
    simp only [renderSlots] at h
    split at h
    · cases h
    · rename_i c σ1 he
      exact ih _ _ h (hrec _ _ _ _ he hc)

theorem renderBody_keeps {rec : RenderFn} (hrec : RecKeeps J rec) {child : Html} {node : NodeId} (cs : List NodeId)
    (σ : Render) {cs' σ'} (h : renderBody rec node child cs σ = .ok (cs', σ')) (hc : J σ.tree) : J σ'.tree := by
  unfold renderBody at h
  split at h
  · simp only at h
    split at h
    · cases h
    · rename_i c σ1 he
      simp only [Except.ok.injEq, Prod.mk.injEq] at h
      obtain ⟨-, rfl⟩ := h
      have := hrec _ _ _ _ he hc
      exact this
  · split at h
    · simp only at h
      split at h
      · cases h
      · rename_i cs1 σ1 he
        simp only [Except.ok.injEq, Prod.mk.injEq] at h
        obtain ⟨-, rfl⟩ := h
        have := renderSlots_keeps hrec _ _ _ he hc
        exact this
    · split at h
      · cases h
      · rename_i c σ1 he
        simp only [Except.ok.injEq, Prod.mk.injEq] at h
        obtain ⟨-, rfl⟩ := h
        exact hrec _ _ _ _ he hc

theorem renderChild_keeps {env : RenderEnv} {rec : RenderFn} (hrec : RecKeeps J rec) {child : Html} {node : NodeId} (cs : List NodeId) (σ : Render) {cs' σ'}
    (hok : renderChild env rec node child cs σ = .ok (cs', σ')) (hc : J σ.tree) : J σ'.tree := by
  unfold renderChild at hok
  split at hok
  · cases hok
  · rename_i c hcr
    simp only at hok
    split at hok
    · cases hok
    · rename_i cs1 σ1 he
      simp only [Except.ok.injEq, Prod.mk.injEq] at hok
      obtain ⟨-, rfl⟩ := hok
      have hal : (renderAliases c.bindings (fun _ => none) σ).2.tree = σ.tree := (renderAliases_frame _ _ _).1
      have := renderBody_keeps hrec cs _ he (by rw [hal]; exact hc)
      exact this

theorem renderChildren_keeps {env : RenderEnv} {rec : RenderFn} (hrec : RecKeeps J rec) {node : NodeId} (l : List Html) :
    ∀ (cs : List NodeId) (σ : Render) {cs' σ'}, renderChildren env rec node l cs σ = .ok (cs', σ') → J σ.tree → J σ'.tree := by
  induction l with
  | nil => intro cs σ cs' σ' hok hc; simp only [renderChildren, Except.ok.injEq, Prod.mk.injEq] at hok; rw [← hok.2]; exact hc
  | cons c l ih =>
    intro cs σ cs' σ' hok hc
    simp only [renderChildren] at hok
    split at hok
    · cases hok
    · rename_i cs1 σ1 he
      exact ih cs1 σ1 hok (renderChild_keeps hrec cs σ he hc)

theorem renderNode_modest (hP : Modest P) (env : RenderEnv) (fuel : Nat) : RecKeeps (Tree.Every P) (renderNode env fuel) := by
  induction fuel with
  | zero => intro h σ n σ' hok; simp [renderNode] at hok
  | succ fuel ih =>
    intro h σ n σ' hok hc
    simp only [renderNode] at hok
    split at hok
    · rename_i spans ht
      simp only [Except.ok.injEq] at hok
      have e2 : (renderText env spans σ).2 = σ' := by rw [hok]
      rw [← e2]
      have hf := (renderSpans_frame (fun i => .text σ.tree.newLeaf.1 i) env.translate spans 0 { σ with tree := σ.tree.newLeaf.2 }).1
      refine Tree.Every.setCtx (hc.ctx ?_) (hP.text _ _)
      rw [hf]; rfl
    · unfold renderElement at hok
      simp only at hok
      obtain ⟨hs1, hs2⟩ := renderBindings_modest hP (env := env) (node := σ.tree.newLeaf.1) h.bindings
        (s := ({ node := σ.tree.newLeaf.1, tag := h.tag }, { σ with tree := σ.tree.newLeaf.2 })) (hP.element _ _)
      generalize h.bindings.foldl (renderBinding env σ.tree.newLeaf.1)
        ({ node := σ.tree.newLeaf.1, tag := h.tag }, { σ with tree := σ.tree.newLeaf.2 }) = s at hs1 hs2 hok
      have hst : s.2.tree.Every P := by rw [hs2]; exact hc.ctx rfl
      split at hok
      · cases hok
      · rename_i cs σ1 he
        split at hok
        · cases hok
        · rename_i t he2
          simp only [Except.ok.injEq, Prod.mk.injEq] at hok
          obtain ⟨-, rfl⟩ := hok
          have h1 : σ1.tree.Every P := by
            unfold renderContent at he
            split at he
            · simp only [Except.ok.injEq, Prod.mk.injEq] at he
              obtain ⟨-, rfl⟩ := he
              exact Tree.Every.setCtx (hst.ctx rfl) (hP.picture _ _)
            · split at he
              · simp only [Except.ok.injEq, Prod.mk.injEq] at he
                obtain ⟨-, rfl⟩ := he
                exact hst
              · exact renderChildren_keeps ih h.children [] s.2 he hst
          exact (Tree.Every.setCtx h1 (hP.children _ _ _ hs1)).ctx (setChildren_ctx he2)

/-- All elements of a rendered view. -/
theorem renderView_modest (hP : Modest P) {env : RenderEnv} {fuel : Nat} {h : Html} {root body : NodeId} {σ : Render}
    (hok : renderView env fuel h = .ok (root, body, σ)) : σ.tree.Every P := by
  unfold renderView at hok
  simp only at hok
  split at hok
  · cases hok
  · rename_i b σ1 he
    split at hok
    · cases hok
    · rename_i t ht
      simp only [Except.ok.injEq, Prod.mk.injEq] at hok
      obtain ⟨-, -, rfl⟩ := hok
      have h1 : σ1.tree.Every P := by
        refine renderNode_modest hP env fuel _ _ _ _ he ?_
        refine Tree.Every.setCtx (fun n e he => ?_) (hP.element _ _)
        cases he
      refine h1.ctx ?_
      unfold Tree.addChild at ht
      split at ht
      · simp only [Except.ok.injEq] at ht; subst ht; rfl
      · cases ht

end Verif
