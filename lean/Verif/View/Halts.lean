import Verif.View.View
import Mathlib.Order.WellFounded
import Mathlib.Data.Fintype.Card
/-!
# Termination of rendering (lemmas for C26)
-/
namespace Verif

/-- A result that is not "out of fuel". -/
def Halted {α} (r : Except RenderFail α) : Prop := r ≠ .error .outOfFuel

theorem halted_error {α β} {e : RenderFail} (h : Halted (.error e : Except RenderFail α)) :
    Halted (.error e : Except RenderFail β) := by
  intro hh; injection hh with hh; subst hh; exact h rfl

theorem renderSlots_halts {rec : RenderFn} {child : Html} (h : ∀ σ, Halted (rec child σ)) (name b)
    (ns : List Nat) (cs σ) : Halted (renderSlots rec name b child ns cs σ) := by
  induction ns generalizing cs σ with
  | nil => simp [renderSlots, Halted]
  | cons n ns ih =>
    simp only [renderSlots]
    split
    · rename_i e he
      intro hh; injection hh with hh; subst hh; exact h _ he
    · exact ih _ _

theorem renderBody_halts {rec : RenderFn} {child : Html} (h : ∀ σ, Halted (rec child σ)) (node cs σ) :
    Halted (renderBody rec node child cs σ) := by
  have aux : ∀ {σ e}, rec child σ = .error e → e ≠ .outOfFuel := by
    intro σ e he hh; subst hh; exact h σ he
  unfold renderBody
  split
  · simp only
    split
    · rename_i e he
      intro hh; injection hh with hh; exact aux he hh
    · simp [Halted]
  · split
    · simp only
      rename_i name count binder _
      have hs := renderSlots_halts h name binder (List.range count) cs
      split
      · rename_i e he
        intro hh; injection hh with hh; subst hh; exact hs _ he
      · simp [Halted]
    · split
      · rename_i e he
        intro hh; injection hh with hh; exact aux he hh
      · simp [Halted]

theorem resolveChild_halts (env : RenderEnv) (c : Html) : Halted (resolveChild env c) := by
  unfold resolveChild
  split
  · split <;> simp [Halted]
  · simp [Halted]

theorem renderChild_halts {env : RenderEnv} {rec : RenderFn} {child : Html}
    (h : ∀ c', resolveChild env child = .ok c' → ∀ σ, Halted (rec c' σ)) (node cs σ) :
    Halted (renderChild env rec node child cs σ) := by
  unfold renderChild
  split
  · rename_i e he
    intro hh; injection hh with hh; subst hh; exact resolveChild_halts env child he
  · rename_i c' hc
    have hb := renderBody_halts (h c' hc) node cs (renderAliases c'.bindings (fun _ => none) σ).2
    simp only
    split
    · rename_i e he
      intro hh; injection hh with hh; subst hh; exact hb he
    · simp [Halted]

theorem renderChildren_halts {env : RenderEnv} {rec : RenderFn} (l : List Html)
    (h : ∀ c ∈ l, ∀ c', resolveChild env c = .ok c' → ∀ σ, Halted (rec c' σ)) (node cs σ) :
    Halted (renderChildren env rec node l cs σ) := by
  induction l generalizing cs σ with
  | nil => simp [renderChildren, Halted]
  | cons c l ih =>
    simp only [renderChildren]
    have hb := renderChild_halts (h c (by simp)) node cs σ
    split
    · rename_i e he
      intro hh; injection hh with hh; subst hh; exact hb he
    · exact ih (fun d hd => h d (by simp [hd])) _ _

theorem renderElement_halts {env : RenderEnv} {rec : RenderFn} (h : Html)
    (hc : ∀ c ∈ h.children, ∀ c', resolveChild env c = .ok c' → ∀ σ, Halted (rec c' σ)) (σ) :
    Halted (renderElement env rec h σ) := by
  unfold renderElement
  simp only
  have hr : ∀ node e σ, Halted (renderContent env rec node e h.children σ) := by
    intro node e σ
    unfold renderContent
    split
    · simp [Halted]
    · split
      · simp [Halted]
      · exact renderChildren_halts _ hc _ _ _
  split
  · rename_i e he
    intro hh; injection hh with hh; subst hh; exact hr _ _ _ he
  · split <;> simp [Halted]

/-- From some nesting depth on the node is rendered. -/
def Renders (env : RenderEnv) (h : Html) : Prop :=
  ∃ n, ∀ fuel, n ≤ fuel → ∀ σ, Halted (renderNode env fuel h σ)

theorem renders_of_children {env : RenderEnv} (h : Html)
    (hc : ∀ c ∈ h.children, ∀ c', resolveChild env c = .ok c' → Renders env c') : Renders env h := by
  have : ∀ l : List Html, (∀ c ∈ l, ∀ c', resolveChild env c = .ok c' → Renders env c') →
      ∃ n, ∀ fuel, n ≤ fuel → ∀ c ∈ l, ∀ c', resolveChild env c = .ok c' → ∀ σ, Halted (renderNode env fuel c' σ) := by
    intro l
    induction l with
    | nil => intro _; exact ⟨0, by simp⟩
    | cons c l ih =>
      intro hl
      obtain ⟨n, hn⟩ := ih (fun d hd => hl d (by simp [hd]))
      have hc := hl c (by simp)
      have : ∃ m, ∀ fuel, m ≤ fuel → ∀ c', resolveChild env c = .ok c' → ∀ σ, Halted (renderNode env fuel c' σ) := by
        cases hr : resolveChild env c with
        | error e => exact ⟨0, by simp⟩
        | ok c' =>
          obtain ⟨m, hm⟩ := hc c' hr
          refine ⟨m, fun fuel hf d hd => ?_⟩
          injection hd with hd; subst hd; exact hm fuel hf
      obtain ⟨m, hm⟩ := this
      refine ⟨max n m, fun fuel hf d hd => ?_⟩
      rcases List.mem_cons.1 hd with rfl | hd
      · exact hm fuel (by omega)
      · exact hn fuel (by omega) d hd
  obtain ⟨n, hn⟩ := this h.children hc
  refine ⟨n + 1, fun fuel hf σ => ?_⟩
  obtain ⟨k, rfl⟩ : ∃ k, fuel = k + 1 := ⟨fuel - 1, by omega⟩
  simp only [renderNode]
  split
  · simp [Halted]
  · exact renderElement_halts h (hn k (by omega)) σ

/-! ### More depth does not change the result -/

theorem renderSlots_mono {rec rec' : RenderFn} (hr : ∀ h σ, Halted (rec h σ) → rec' h σ = rec h σ)
    (name b child) (ns : List Nat) (cs σ) (h : Halted (renderSlots rec name b child ns cs σ)) :
    renderSlots rec' name b child ns cs σ = renderSlots rec name b child ns cs σ := by
  induction ns generalizing cs σ with
  | nil => rfl
  | cons n ns ih =>
    simp only [renderSlots] at h ⊢
    generalize hg : rec child _ = r at h ⊢
    have hh : Halted r := by
      cases r with
      | error e => exact halted_error h
      | ok p => simp [Halted]
    rw [hr _ _ (by rw [hg]; exact hh), hg]
    cases r with
    | error e => rfl
    | ok p => exact ih _ _ h

theorem renderBody_mono {rec rec' : RenderFn} (hr : ∀ h σ, Halted (rec h σ) → rec' h σ = rec h σ)
    (node child cs σ) (h : Halted (renderBody rec node child cs σ)) :
    renderBody rec' node child cs σ = renderBody rec node child cs σ := by
  unfold renderBody at h ⊢
  split
  · rename_i hv
    rw [hv] at h
    simp only at h ⊢
    generalize hg : rec child _ = r at h ⊢
    have hh : Halted r := by
      cases r with
      | error e => exact halted_error h
      | ok p => simp [Halted]
    rw [hr _ _ (by rw [hg]; exact hh), hg]
  · rename_i hv
    rw [hv] at h
    simp only at h
    split
    · rename_i hrep
      rw [hrep] at h
      simp only at h ⊢
      generalize hg : renderSlots rec _ _ child _ _ _ = r at h ⊢
      have hh : Halted r := by
        cases r with
        | error e => exact halted_error h
        | ok p => simp [Halted]
      rw [renderSlots_mono hr _ _ _ _ _ _ (by rw [hg]; exact hh), hg]
    · rename_i hrep
      rw [hrep] at h
      simp only at h
      generalize hg : rec child _ = r at h ⊢
      have hh : Halted r := by
        cases r with
        | error e => exact halted_error h
        | ok p => simp [Halted]
      rw [hr _ _ (by rw [hg]; exact hh), hg]

theorem renderChild_mono {env : RenderEnv} {rec rec' : RenderFn}
    (hr : ∀ h σ, Halted (rec h σ) → rec' h σ = rec h σ)
    (node child cs σ) (h : Halted (renderChild env rec node child cs σ)) :
    renderChild env rec' node child cs σ = renderChild env rec node child cs σ := by
  unfold renderChild at h ⊢
  split
  · rfl
  · rename_i c hc
    rw [hc] at h
    simp only at h ⊢
    generalize hg : renderBody rec node c cs _ = r at h ⊢
    have hh : Halted r := by
      cases r with
      | error e => exact halted_error h
      | ok p => simp [Halted]
    rw [renderBody_mono hr _ _ _ _ (by rw [hg]; exact hh), hg]

theorem renderChildren_mono {env : RenderEnv} {rec rec' : RenderFn}
    (hr : ∀ h σ, Halted (rec h σ) → rec' h σ = rec h σ)
    (node) (l : List Html) (cs σ) (h : Halted (renderChildren env rec node l cs σ)) :
    renderChildren env rec' node l cs σ = renderChildren env rec node l cs σ := by
  induction l generalizing cs σ with
  | nil => rfl
  | cons c l ih =>
    simp only [renderChildren] at h ⊢
    generalize hg : renderChild env rec node c cs σ = r at h ⊢
    have hh : Halted r := by
      cases r with
      | error e => exact halted_error h
      | ok p => simp [Halted]
    rw [renderChild_mono hr _ _ _ _ (by rw [hg]; exact hh), hg]
    cases r with
    | error e => rfl
    | ok p => exact ih _ _ h

theorem renderElement_mono {env : RenderEnv} {rec rec' : RenderFn}
    (hr : ∀ h σ, Halted (rec h σ) → rec' h σ = rec h σ)
    (h : Html) (σ) (hh : Halted (renderElement env rec h σ)) :
    renderElement env rec' h σ = renderElement env rec h σ := by
  unfold renderElement at hh ⊢
  simp only at hh ⊢
  generalize h.bindings.foldl (renderBinding env σ.tree.newLeaf.1) _ = s at hh ⊢
  have hc : Halted (renderContent env rec σ.tree.newLeaf.1 s.1 h.children s.2) := by
    intro hx; rw [hx] at hh; exact hh rfl
  have : renderContent env rec' σ.tree.newLeaf.1 s.1 h.children s.2
      = renderContent env rec σ.tree.newLeaf.1 s.1 h.children s.2 := by
    unfold renderContent at hc ⊢
    split
    · rfl
    · rename_i hi
      rw [if_neg hi] at hc
      split
      · rfl
      · rename_i hv
        rw [if_neg hv] at hc
        exact renderChildren_mono hr _ _ _ _ hc
  rw [this]

theorem renderNode_mono (env : RenderEnv) (fuel : Nat) : ∀ h σ, Halted (renderNode env fuel h σ) →
    renderNode env (fuel + 1) h σ = renderNode env fuel h σ := by
  induction fuel with
  | zero => intro h σ hh; exact absurd rfl hh
  | succ fuel ih =>
    intro h σ hh
    cases ht : h.text with
    | some spans => simp only [renderNode, ht]
    | none =>
      have e1 : ∀ k, renderNode env (k + 1) h σ = renderElement env (renderNode env k) h σ := by
        intro k; simp only [renderNode, ht]
      rw [e1, e1]
      rw [e1] at hh
      exact renderElement_mono ih h σ hh

theorem renderNode_mono_le (env : RenderEnv) {fuel fuel' : Nat} (hle : fuel ≤ fuel') (h σ)
    (hh : Halted (renderNode env fuel h σ)) : renderNode env fuel' h σ = renderNode env fuel h σ := by
  induction fuel', hle using Nat.le_induction with
  | base => rfl
  | succ k hk ih =>
    rw [← ih]
    exact renderNode_mono env k h σ (by rw [ih]; exact hh)

/-! ### Acyclic templates -/

theorem html_rec {P : Html → Prop} (h : ∀ t bs tx cs, (∀ c ∈ cs, P c) → P (.mk t bs tx cs)) : ∀ x, P x := by
  intro x
  refine Html.rec (motive_1 := P) (motive_2 := fun cs => ∀ c ∈ cs, P c) ?_ ?_ ?_ x
  · intro t bs tx cs ih; exact h t bs tx cs ih
  · intro c hc; simp at hc
  · intro c cs h1 h2 d hd
    rcases List.mem_cons.1 hd with rfl | hd
    · exact h1
    · exact h2 d hd

end Verif
