import Verif.View.Calm
import Verif.View.Look
import Verif.Spec.Fonts
/-!
# The bound attributes an element knows of (lemmas for C82)
-/
namespace Verif

/-- An element only knows of bound attributes in `K`. -/
structure Element.Hinted (K : String → Prop) (e : Element) : Prop where
  keys : ∀ k ∈ e.hints.dynamicAttrs, K k
  classes : e.hints.hasDynamicClasses = true → K "class"
  ids : e.hints.hasDynamicId = true → K "id"

theorem Element.Hinted.fresh {K : String → Prop} {e : Element} (h : e.hints = {}) : e.Hinted K :=
  ⟨(by rw [h]; intro k hk; cases hk), (by rw [h]; intro h; cases h), (by rw [h]; intro h; cases h)⟩

def Tree.Hinted (K : String → Prop) (t : Tree) : Prop := ∀ n e, t.ctx n = some e → e.Hinted K

variable {K : String → Prop}

theorem Tree.Hinted.setCtx {t : Tree} (h : t.Hinted K) {n : NodeId} {e : Element} (he : e.Hinted K) : (t.setCtx n e).Hinted K := by
  intro m x hx
  by_cases hm : m = n
  · subst hm
    simp only [Tree.setCtx, upd_same, Option.some.injEq] at hx
    subst hx; exact he
  · simp only [Tree.setCtx, upd_other _ _ hm] at hx
    exact h m x hx

theorem Tree.Hinted.ctx {t t' : Tree} (h : t.Hinted K) (hc : t'.ctx = t.ctx) : t'.Hinted K := by
  intro m x hx; rw [hc] at hx; exact h m x hx

def HintedBinding (K : String → Prop) (b : ElementBinding) : Prop :=
  match b with
  | .tag key _ => K key
  | .attribute key _ => K key
  | _ => True

def HintedHtml (K : String → Prop) (h : Html) : Prop := ∀ b ∈ h.bindings, HintedBinding K b

theorem hints_add {hints : StyleHints} {key : String} (hk : K key) (h : ({ node := 0, hints := hints } : Element).Hinted K) :
    ({ node := 0, hints := (let hints := { hints with dynamicAttrs := hints.dynamicAttrs ++ [key] }
                 let hints := if key = "class" then { hints with hasDynamicClasses := true } else hints
                 if key = "id" then { hints with hasDynamicId := true } else hints) } : Element).Hinted K := by
  have hkeys : ∀ k ∈ hints.dynamicAttrs ++ [key], K k := by
    intro k hk'
    rcases List.mem_append.1 hk' with h1 | h1
    · exact h.keys k h1
    · rw [List.mem_singleton.1 h1]; exact hk
  by_cases h1 : key = "class"
  · have h2 : key ≠ "id" := by rw [h1]; decide
    simp only [if_pos h1, if_neg h2]
    exact ⟨hkeys, fun _ => h1 ▸ hk, h.ids⟩
  · by_cases h2 : key = "id"
    · simp only [if_neg h1, if_pos h2]
      exact ⟨hkeys, h.classes, fun _ => h2 ▸ hk⟩
    · simp only [if_neg h1, if_neg h2]
      exact ⟨hkeys, h.classes, h.ids⟩

theorem renderBinding_hinted {env : RenderEnv} {node : NodeId} {s : Element × Render} {b : ElementBinding} (hb : HintedBinding K b)
    (he : s.1.Hinted K) : (renderBinding env node s b).1.Hinted K ∧ (renderBinding env node s b).2.tree = s.2.tree := by
  obtain ⟨e, σ⟩ := s
  have he : e.Hinted K := he
  cases b with
  | none key value =>
    simp only [renderBinding]
    refine ⟨?_, ?_⟩
    · split <;> exact ⟨he.keys, he.classes, he.ids⟩
    · split <;> rfl
  | tag key b =>
    refine ⟨⟨?_, he.classes, he.ids⟩, rfl⟩
    intro k hk'
    rcases List.mem_append.1 hk' with h1 | h1
    · exact he.keys k h1
    · rw [List.mem_singleton.1 h1]; exact hb
  | «attribute» key spans =>
    have hk : K key := hb
    have hs := fun sp => (renderSpans_frame (fun i => .attribute node key i) id sp 0 σ).1
    have ha := hints_add hk (hints := e.hints) ⟨he.keys, he.classes, he.ids⟩
    match spans, hs spans with
    | [.string value], _ => exact ⟨⟨he.keys, he.classes, he.ids⟩, rfl⟩
    | [], h => exact ⟨⟨ha.keys, ha.classes, ha.ids⟩, h⟩
    | [.binder b], h => exact ⟨⟨ha.keys, ha.classes, ha.ids⟩, h⟩
    | .string a :: b :: l, h => exact ⟨⟨ha.keys, ha.classes, ha.ids⟩, h⟩
    | .binder a :: b :: l, h => exact ⟨⟨ha.keys, ha.classes, ha.ids⟩, h⟩
  | callback event arguments =>
    exact ⟨⟨he.keys, he.classes, he.ids⟩, (renderArguments_frame arguments σ).1⟩
  | «alias» _ _ => exact ⟨he, rfl⟩
  | «repeat» _ _ _ => exact ⟨he, rfl⟩
  | visibility _ _ => exact ⟨he, rfl⟩

theorem renderBindings_hinted {env : RenderEnv} {node : NodeId} (bs : List ElementBinding) {s : Element × Render} (hb : ∀ b ∈ bs, HintedBinding K b)
    (he : s.1.Hinted K) : (bs.foldl (renderBinding env node) s).1.Hinted K ∧ (bs.foldl (renderBinding env node) s).2.tree = s.2.tree := by
  induction bs generalizing s with
  | nil => exact ⟨he, rfl⟩
  | cons b bs ih =>
    obtain ⟨h1, h2⟩ := renderBinding_hinted (env := env) (node := node) (hb b (by simp)) he
    obtain ⟨h3, h4⟩ := ih (s := renderBinding env node s b) (fun b hb' => hb b (by simp [hb'])) h1
    exact ⟨h3, h4.trans h2⟩

/-- What rendering a node does. -/
def RecHinted (K : String → Prop) (Q : Html → Prop) (rec : RenderFn) : Prop :=
  ∀ h σ n σ', Q h → rec h σ = .ok (n, σ') → σ.tree.Hinted K → σ'.tree.Hinted K

theorem renderSlots_hinted {Q : Html → Prop} {rec : RenderFn} (hrec : RecHinted K Q rec) {child : Html} (hQ : Q child) {name : String} {b : Binder}
    (ns : List Nat) : ∀ (cs : List NodeId) (σ : Render) {cs' σ'}, renderSlots rec name b child ns cs σ = .ok (cs', σ') → σ.tree.Hinted K → σ'.tree.Hinted K := by
  induction ns with
  | nil => intro cs σ cs' σ' h hc; simp only [renderSlots, Except.ok.injEq, Prod.mk.injEq] at h; rw [← h.2]; exact hc
  | cons n ns ih =>
    intro cs σ cs' σ' h hc
    simp only [renderSlots] at h
    split at h
    · cases h
    · rename_i c σ1 he
      exact ih _ _ h (hrec _ _ _ _ hQ he hc)

theorem renderBody_hinted {Q : Html → Prop} {rec : RenderFn} (hrec : RecHinted K Q rec) {child : Html} (hQ : Q child) {node : NodeId} (cs : List NodeId)
    (σ : Render) {cs' σ'} (h : renderBody rec node child cs σ = .ok (cs', σ')) (hc : σ.tree.Hinted K) : σ'.tree.Hinted K := by
  unfold renderBody at h
  split at h
  · simp only at h
    split at h
    · cases h
    · rename_i c σ1 he
      simp only [Except.ok.injEq, Prod.mk.injEq] at h
      obtain ⟨-, rfl⟩ := h
      have := hrec _ _ _ _ hQ he hc
      exact this
  · split at h
    · simp only at h
      split at h
      · cases h
      · rename_i cs1 σ1 he
        simp only [Except.ok.injEq, Prod.mk.injEq] at h
        obtain ⟨-, rfl⟩ := h
        have := renderSlots_hinted hrec hQ _ _ _ he hc
        exact this
    · split at h
      · cases h
      · rename_i c σ1 he
        simp only [Except.ok.injEq, Prod.mk.injEq] at h
        obtain ⟨-, rfl⟩ := h
        exact hrec _ _ _ _ hQ he hc

theorem resolve_hinted {env : RenderEnv} {c c' : Html} (hr : resolveChild env c = .ok c') (hc : HintedHtml K c)
    (ht : ∀ id t, env.templates id = some t → HintedHtml K t) : HintedHtml K c' := by
  unfold resolveChild at hr
  split at hr
  · rename_i id bs hl
    split at hr
    · cases hr
    · rename_i t htt
      injection hr with hr; subst hr
      intro b hb
      rcases List.mem_append.1 hb with hb | hb
      · exact hc b (asLink_bindings hl b hb)
      · exact ht id t htt b hb
  · injection hr with hr; subst hr; exact hc

/-- A node that may be rendered. -/
def HintedNode (env : RenderEnv) (K : String → Prop) (h : Html) : Prop :=
  HintedHtml K h ∧ EveryNode env (HintedHtml K) h

theorem renderChild_hinted {env : RenderEnv} {rec : RenderFn} (hrec : RecHinted K (HintedNode env K) rec) {h child : Html} (hmem : child ∈ h.children)
    (hE : EveryNode env (HintedHtml K) h) {node : NodeId} (cs : List NodeId) (σ : Render) {cs' σ'}
    (hok : renderChild env rec node child cs σ = .ok (cs', σ')) (hc : σ.tree.Hinted K) : σ'.tree.Hinted K := by
  unfold renderChild at hok
  split at hok
  · cases hok
  · rename_i c hcr
    simp only at hok
    split at hok
    · cases hok
    · rename_i cs1 σ1 he
      simp only [Except.ok.injEq, Prod.mk.injEq] at hok
      obtain ⟨-, rfl⟩ := hok
      have hQ : HintedNode env K c := ⟨resolve_hinted hcr (hE.1 _ (.child hmem)) (fun id t ht => (hE.2 id t ht).1), resolve_below hmem hcr hE⟩
      have hal : (renderAliases c.bindings (fun _ => none) σ).2.tree = σ.tree := (renderAliases_frame _ _ _).1
      have := renderBody_hinted hrec hQ cs _ he (hc.ctx (by rw [hal]))
      exact this

theorem renderChildren_hinted {env : RenderEnv} {rec : RenderFn} (hrec : RecHinted K (HintedNode env K) rec) {h : Html}
    (hE : EveryNode env (HintedHtml K) h) {node : NodeId} (l : List Html) (hl : ∀ c ∈ l, c ∈ h.children) :
    ∀ (cs : List NodeId) (σ : Render) {cs' σ'}, renderChildren env rec node l cs σ = .ok (cs', σ') → σ.tree.Hinted K → σ'.tree.Hinted K := by
  induction l with
  | nil => intro cs σ cs' σ' hok hc; simp only [renderChildren, Except.ok.injEq, Prod.mk.injEq] at hok; rw [← hok.2]; exact hc
  | cons c l ih =>
    intro cs σ cs' σ' hok hc
    simp only [renderChildren] at hok
    split at hok
    · cases hok
    · rename_i cs1 σ1 he
      exact ih (fun d hd => hl d (by simp [hd])) cs1 σ1 hok (renderChild_hinted hrec (hl c (by simp)) hE cs σ he hc)

theorem newLeaf_hinted {t : Tree} (h : t.Hinted K) : t.newLeaf.2.Hinted K := h.ctx rfl

theorem renderNode_hinted (env : RenderEnv) (fuel : Nat) : RecHinted K (HintedNode env K) (renderNode env fuel) := by
  induction fuel with
  | zero => intro h σ n σ' _ hok; simp [renderNode] at hok
  | succ fuel ih =>
    intro h σ n σ' hE hok hc
    simp only [renderNode] at hok
    split at hok
    · rename_i spans ht
      simp only [Except.ok.injEq] at hok
      have e2 : (renderText env spans σ).2 = σ' := by rw [hok]
      rw [← e2]
      have hf := (renderSpans_frame (fun i => .text σ.tree.newLeaf.1 i) env.translate spans 0 { σ with tree := σ.tree.newLeaf.2 }).1
      refine Tree.Hinted.setCtx (hc.ctx ?_) (.fresh rfl)
      rw [hf]; rfl
    · unfold renderElement at hok
      simp only at hok
      obtain ⟨hs1, hs2⟩ := renderBindings_hinted (env := env) (node := σ.tree.newLeaf.1) (K := K) h.bindings
        (s := ({ node := σ.tree.newLeaf.1, tag := h.tag }, { σ with tree := σ.tree.newLeaf.2 })) hE.1 (.fresh rfl)
      generalize h.bindings.foldl (renderBinding env σ.tree.newLeaf.1)
        ({ node := σ.tree.newLeaf.1, tag := h.tag }, { σ with tree := σ.tree.newLeaf.2 }) = s at hs1 hs2 hok
      have hst : s.2.tree.Hinted K := by rw [hs2]; exact newLeaf_hinted hc
      split at hok
      · cases hok
      · rename_i cs σ1 he
        split at hok
        · cases hok
        · rename_i t he2
          simp only [Except.ok.injEq, Prod.mk.injEq] at hok
          obtain ⟨-, rfl⟩ := hok
          have h1 : σ1.tree.Hinted K := by
            unfold renderContent at he
            split at he
            · simp only [Except.ok.injEq, Prod.mk.injEq] at he
              obtain ⟨-, rfl⟩ := he
              exact Tree.Hinted.setCtx (newLeaf_hinted hst) (.fresh rfl)
            · split at he
              · simp only [Except.ok.injEq, Prod.mk.injEq] at he
                obtain ⟨-, rfl⟩ := he
                exact hst
              · exact renderChildren_hinted ih hE.2 h.children (fun _ => id) [] s.2 he hst
          refine (Tree.Hinted.setCtx h1 ?_).ctx (setChildren_ctx he2)
          exact ⟨hs1.keys, hs1.classes, hs1.ids⟩

theorem renderView_hinted {env : RenderEnv} {fuel : Nat} {h : Html} {root body : NodeId} {σ : Render} (hE : HintedNode env K h)
    (hok : renderView env fuel h = .ok (root, body, σ)) : σ.tree.Hinted K := by
  unfold renderView at hok
  simp only at hok
  split at hok
  · cases hok
  · rename_i b σ1 he
    split at hok
    · cases hok
    · rename_i t ht
      simp only [Except.ok.injEq, Prod.mk.injEq] at hok
      obtain ⟨-, -, rfl⟩ := hok
      have h1 : σ1.tree.Hinted K := by
        refine renderNode_hinted env fuel _ _ _ _ hE he ?_
        refine Tree.Hinted.setCtx (fun n e he => ?_) (.fresh rfl)
        cases he
      refine h1.ctx ?_
      unfold Tree.addChild at ht
      split at ht
      · simp only [Except.ok.injEq] at ht; subst ht; rfl
      · cases ht

end Verif
