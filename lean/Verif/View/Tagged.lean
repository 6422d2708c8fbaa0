import Verif.View.Calm
import Verif.Spec.Placement
/-!
# Where the bindings of tags come from (lemmas for C80)
-/
namespace Verif

variable {key : String}

/-- No binding of the tag `key`. -/
def Untagged (key : String) (regs : List (String × Binding)) : Prop := ∀ r ∈ regs, ∀ n, r.2.params ≠ .tag n key

theorem Untagged.register {σ : Render} (h : Untagged key σ.regs) {path : String} {b : Binding} (hb : ∀ n, b.params ≠ .tag n key) :
    Untagged key (σ.register path b).regs := by
  intro r hr
  rcases List.mem_append.1 hr with hr | hr
  · exact h r hr
  · simp only [List.mem_singleton] at hr
    subst hr; exact hb

theorem renderSpans_untagged {params : Nat → BindingParams} {st : String → String} (hp : ∀ i n, params i ≠ .tag n key) (ss : List TextSpan) :
    ∀ (i : Nat) (σ : Render), Untagged key σ.regs → Untagged key (renderSpans params st ss i σ).2.regs := by
  induction ss with
  | nil => intro i σ h; exact h
  | cons s ss ih =>
    intro i σ h
    cases s with
    | string s => exact ih (i + 1) σ h
    | binder b => exact ih (i + 1) _ (Untagged.register h (hp i))

theorem renderBinding_untagged {env : RenderEnv} {node : NodeId} {s : Element × Render} {b : ElementBinding} (hb : ∀ b', b ≠ .tag key b')
    (h : Untagged key s.2.regs) : Untagged key (renderBinding env node s b).2.regs := by
  obtain ⟨e, σ⟩ := s
  cases b with
  | none k v => simp only [renderBinding]; split <;> exact h
  | tag k b =>
    refine Untagged.register (σ := (σ.field b).2) h (fun n hn => ?_)
    simp only [BindingParams.tag.injEq] at hn
    exact hb b (by rw [hn.2])
  | «attribute» k spans =>
    have hs := fun sp => renderSpans_untagged (key := key) (params := fun i => .attribute node k i) (st := id) (fun i n hn => by cases hn) sp 0 σ h
    match spans, hs spans with
    | [.string value], _ => exact h
    | [], h => exact h
    | [.binder b], h => exact h
    | .string a :: b :: l, h => exact h
    | .binder a :: b :: l, h => exact h
  | callback event arguments =>
    have := (renderArguments_frame arguments σ).2.2.2
    simp only [renderBinding, this]
    exact h
  | «alias» _ _ => exact h
  | «repeat» _ _ _ => exact h
  | visibility _ _ => exact h

theorem renderBindings_untagged {env : RenderEnv} {node : NodeId} (bs : List ElementBinding) {s : Element × Render} (hb : ∀ b, .tag key b ∉ bs)
    (h : Untagged key s.2.regs) : Untagged key (bs.foldl (renderBinding env node) s).2.regs := by
  induction bs generalizing s with
  | nil => exact h
  | cons b bs ih =>
    exact ih (fun b' hb' => hb b' (by simp [hb'])) (renderBinding_untagged (fun b' hb' => hb b' (by simp [hb'])) h)

/-- What rendering a node does. -/
def RecUntagged (key : String) (Q : Html → Prop) (rec : RenderFn) : Prop :=
  ∀ h σ n σ', Q h → rec h σ = .ok (n, σ') → Untagged key σ.regs → Untagged key σ'.regs

theorem renderSlots_untagged {Q : Html → Prop} {rec : RenderFn} (hrec : RecUntagged key Q rec) {child : Html} (hQ : Q child) {name : String} {b : Binder}
    (ns : List Nat) : ∀ (cs : List NodeId) (σ : Render) {cs' σ'}, renderSlots rec name b child ns cs σ = .ok (cs', σ') → Untagged key σ.regs → Untagged key σ'.regs := by
  induction ns with
  | nil => intro cs σ cs' σ' h hc; simp only [renderSlots, Except.ok.injEq, Prod.mk.injEq] at h; rw [← h.2]; exact hc
  | cons n ns ih =>
    intro cs σ cs' σ' h hc
    simp only [renderSlots] at h
    split at h
    · cases h
    · rename_i c σ1 he
      exact ih _ _ h (hrec _ _ _ _ hQ he hc)

theorem renderBody_untagged {Q : Html → Prop} {rec : RenderFn} (hrec : RecUntagged key Q rec) {child : Html} (hQ : Q child) {node : NodeId} (cs : List NodeId)
    (σ : Render) {cs' σ'} (h : renderBody rec node child cs σ = .ok (cs', σ')) (hc : Untagged key σ.regs) : Untagged key σ'.regs := by
  unfold renderBody at h
  split at h
  · simp only at h
    split at h
    · cases h
    · rename_i c σ1 he
      simp only [Except.ok.injEq, Prod.mk.injEq] at h
      obtain ⟨-, rfl⟩ := h
      have := hrec _ _ _ _ hQ he hc
      exact Untagged.register this (fun n hn => by cases hn)
  · split at h
    · simp only at h
      split at h
      · cases h
      · rename_i cs1 σ1 he
        simp only [Except.ok.injEq, Prod.mk.injEq] at h
        obtain ⟨-, rfl⟩ := h
        rename_i name count binder _ _
        have := renderSlots_untagged hrec hQ _ _ _ he (Untagged.register (σ := (σ.field binder).2) hc (fun n hn => by cases hn))
        exact this
    · split at h
      · cases h
      · rename_i c σ1 he
        simp only [Except.ok.injEq, Prod.mk.injEq] at h
        obtain ⟨-, rfl⟩ := h
        exact hrec _ _ _ _ hQ he hc

theorem resolve_tagFree {env : RenderEnv} {c c' : Html} (hr : resolveChild env c = .ok c') (hc : TagFree key c)
    (ht : ∀ id t, env.templates id = some t → TagFree key t) : TagFree key c' := by
  unfold resolveChild at hr
  split at hr
  · rename_i id bs hl
    split at hr
    · cases hr
    · rename_i t htt
      injection hr with hr; subst hr
      intro b hb
      rcases List.mem_append.1 hb with hb | hb
      · exact hc b (asLink_bindings hl _ hb)
      · exact ht id t htt b hb
  · injection hr with hr; subst hr; exact hc

/-- A node that may be rendered. -/
def FreeNode (env : RenderEnv) (key : String) (h : Html) : Prop := TagFree key h ∧ EveryNode env (TagFree key) h

theorem renderChild_untagged {env : RenderEnv} {rec : RenderFn} (hrec : RecUntagged key (FreeNode env key) rec) {h child : Html} (hmem : child ∈ h.children)
    (hE : EveryNode env (TagFree key) h) {node : NodeId} (cs : List NodeId) (σ : Render) {cs' σ'}
    (hok : renderChild env rec node child cs σ = .ok (cs', σ')) (hc : Untagged key σ.regs) : Untagged key σ'.regs := by
  unfold renderChild at hok
  split at hok
  · cases hok
  · rename_i c hcr
    simp only at hok
    split at hok
    · cases hok
    · rename_i cs1 σ1 he
      simp only [Except.ok.injEq, Prod.mk.injEq] at hok
      obtain ⟨-, rfl⟩ := hok
      have hQ : FreeNode env key c := ⟨resolve_tagFree hcr (hE.1 _ (.child hmem)) (fun id t ht => (hE.2 id t ht).1), resolve_below hmem hcr hE⟩
      have hal : (renderAliases c.bindings (fun _ => none) σ).2.regs = σ.regs := (renderAliases_frame _ _ _).2.1
      have := renderBody_untagged hrec hQ cs _ he (by rw [hal]; exact hc)
      exact this

theorem renderChildren_untagged {env : RenderEnv} {rec : RenderFn} (hrec : RecUntagged key (FreeNode env key) rec) {h : Html}
    (hE : EveryNode env (TagFree key) h) {node : NodeId} (l : List Html) (hl : ∀ c ∈ l, c ∈ h.children) :
    ∀ (cs : List NodeId) (σ : Render) {cs' σ'}, renderChildren env rec node l cs σ = .ok (cs', σ') → Untagged key σ.regs → Untagged key σ'.regs := by
  induction l with
  | nil => intro cs σ cs' σ' hok hc; simp only [renderChildren, Except.ok.injEq, Prod.mk.injEq] at hok; rw [← hok.2]; exact hc
  | cons c l ih =>
    intro cs σ cs' σ' hok hc
    simp only [renderChildren] at hok
    split at hok
    · cases hok
    · rename_i cs1 σ1 he
      exact ih (fun d hd => hl d (by simp [hd])) cs1 σ1 hok (renderChild_untagged hrec (hl c (by simp)) hE cs σ he hc)

theorem renderNode_untagged (env : RenderEnv) (fuel : Nat) : RecUntagged key (FreeNode env key) (renderNode env fuel) := by
  induction fuel with
  | zero => intro h σ n σ' _ hok; simp [renderNode] at hok
  | succ fuel ih =>
    intro h σ n σ' hE hok hc
    simp only [renderNode] at hok
    split at hok
    · rename_i spans ht
      simp only [Except.ok.injEq] at hok
      have e2 : (renderText env spans σ).2 = σ' := by rw [hok]
      rw [← e2]
      exact renderSpans_untagged (fun i n hn => by cases hn) spans 0 { σ with tree := σ.tree.newLeaf.2 } hc
    · unfold renderElement at hok
      simp only at hok
      have hs := renderBindings_untagged (env := env) (node := σ.tree.newLeaf.1) (key := key) h.bindings
        (s := ({ node := σ.tree.newLeaf.1, tag := h.tag }, { σ with tree := σ.tree.newLeaf.2 })) hE.1 hc
      generalize h.bindings.foldl (renderBinding env σ.tree.newLeaf.1)
        ({ node := σ.tree.newLeaf.1, tag := h.tag }, { σ with tree := σ.tree.newLeaf.2 }) = s at hs hok
      split at hok
      · cases hok
      · rename_i cs σ1 he
        split at hok
        · cases hok
        · rename_i t he2
          simp only [Except.ok.injEq, Prod.mk.injEq] at hok
          obtain ⟨-, rfl⟩ := hok
          show Untagged key σ1.regs
          unfold renderContent at he
          split at he
          · simp only [Except.ok.injEq, Prod.mk.injEq] at he
            obtain ⟨-, rfl⟩ := he
            exact hs
          · split at he
            · simp only [Except.ok.injEq, Prod.mk.injEq] at he
              obtain ⟨-, rfl⟩ := he
              exact hs
            · exact renderChildren_untagged ih hE.2 h.children (fun _ => id) [] s.2 he hs

theorem renderView_untagged {env : RenderEnv} {fuel : Nat} {h : Html} {root body : NodeId} {σ : Render} (hE : FreeNode env key h)
    (hok : renderView env fuel h = .ok (root, body, σ)) : Untagged key σ.regs := by
  unfold renderView at hok
  simp only at hok
  split at hok
  · cases hok
  · rename_i b σ1 he
    split at hok
    · cases hok
    · rename_i t ht
      simp only [Except.ok.injEq, Prod.mk.injEq] at hok
      obtain ⟨-, -, rfl⟩ := hok
      have := renderNode_untagged env fuel _ _ _ _ hE he (by intro r hr; exact absurd hr (by simp))
      exact this

end Verif
