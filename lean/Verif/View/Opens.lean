import Verif.View.NoError
/-!
# Opening comes to an end (lemmas for C73)
-/
namespace Verif

variable {p : Platform}

theorem renderView_settles (translate : String → String) (inline : String → Option (List Declaration)) (document : Html)
    (hno : NoSelfReference (templateFor document.children)) :
    ∃ n, ∀ fuel, n ≤ fuel → renderView (docEnv translate inline document) fuel (docBody document) ≠ .error .outOfFuel ∧
      renderView (docEnv translate inline document) fuel (docBody document) = renderView (docEnv translate inline document) n (docBody document) := by
  have hfin : {id | ((docEnv translate inline document).templates id).isSome}.Finite := by
    have := collect_finite document.children
    rw [collect_doc] at this
    exact this
  obtain ⟨n, hn⟩ := body_renders hfin hno (docBody document)
  have heq : ∀ fuel, n ≤ fuel → renderView (docEnv translate inline document) fuel (docBody document) = renderView (docEnv translate inline document) n (docBody document) := by
    intro fuel hle
    unfold renderView
    simp only
    have := renderNode_mono_le (docEnv translate inline document) hle (docBody document) _ (hn n (Nat.le_refl _)
      { tree := (Tree.setCtx Tree.empty.newLeaf.2 Tree.empty.newLeaf.1 { node := Tree.empty.newLeaf.1 }) })
    rw [this]
  refine ⟨n, fun fuel hle => ⟨fun he => ?_, heq fuel hle⟩⟩
  have ho : openView translate inline (fun _ => none) fuel document = .error .outOfFuel := by
    unfold openView
    rw [collect_doc]
    simp only
    rw [show renderView ⟨templateFor document.children, translate, inline⟩ fuel (docBody document) = _ from he]
  rw [openView_error (by simp)] at ho
  exact hn fuel hle _ (ho _ rfl)

/-- Opening a document without circular templates with a stylesheet without `+` settles: with an error value, if a
template is missing, and otherwise with a view. -/
theorem openApp_settles (p : Platform) (document : Html) (css : Css) (hno : NoSelfReference (templateFor document.children)) (hp : ∀ s ∈ css.styles, s.NoPlus) :
    ∃ r F, (∀ fuel ≥ F, openApp p fuel document css = r) ∧ ((∃ a, r = .ok a) ∨ r = .error .error ∧ ¬ LinksDefined document) := by
  obtain ⟨n, hn⟩ := renderView_settles p.translate p.inline document hno
  have hend := (hn n le_rfl).1
  rcases openView_cases (inline := p.inline) p.translate p.transformers n document with ⟨v, σ, root, body, ho, hr, hop⟩ | ho | ⟨id, ho⟩
  · rw [collect_doc] at hr
    have hr' : renderView (docEnv p.translate p.inline document) n (docBody document) = .ok (root, body, σ) := hr
    have hv := renderView_ok hr'
    obtain ⟨-, -, hk, -⟩ := C27_fresh_tree hr'
    have hb : (σ.tree.ctx body).isSome := (hv.wf.slotsYounger root body (hv.wf.sub root body (by rw [hk]; simp))).2.2
    obtain ⟨kept, hkeep⟩ := keepRules_total (checks := p.checks) hp hv.wf σ.tree.next (n := body) (kept := fun _ => []) (by unfold NodeId at *; omega) hb
    obtain ⟨s', k1, -, -, -⟩ := updateTrees_steps (inline := p.inline) (defaultReactions (orderedBindings σ.regs)) ⟨σ.tree, σ.staticId⟩ hv.wf (defaultReactions_ok hr')
    refine ⟨.ok ⟨⟨⟨v.vm, s', root, body⟩, {}⟩, css, kept, freshLayouts σ.tree⟩, max n (σ.tree.next + 1), fun fuel hf => ?_, .inl ⟨_, rfl⟩⟩
    unfold openApp
    rw [collect_doc]
    simp only
    have e1 := (hn fuel (by omega)).2
    rw [hr'] at e1
    rw [show renderView ⟨templateFor document.children, p.translate, p.inline⟩ fuel (docBody document) = _ from e1]
    simp only
    rw [hop.created]
    simp only
    rw [hkeep fuel (by omega)]
    simp only
    rw [k1]
  · exfalso
    rw [openView_error (by simp)] at ho
    refine hend ?_
    unfold renderView
    simp only
    rw [ho _ rfl]
  · refine ⟨.error .error, n, fun fuel hf => ?_, .inr ⟨rfl, fun hl => ?_⟩⟩
    · have hx : renderView (docEnv p.translate p.inline document) n (docBody document) = .error (.templateNotFound id) := by
        rw [openView_error (by simp)] at ho
        unfold renderView
        simp only
        rw [ho _ rfl]
      unfold openApp
      rw [collect_doc]
      simp only
      have e1 := (hn fuel hf).2
      rw [hx] at e1
      rw [show renderView ⟨templateFor document.children, p.translate, p.inline⟩ fuel (docBody document) = _ from e1]
      rfl
    · obtain ⟨h1, c, h2, h3⟩ := C61_reported_template ho
      have := hl c h2 id h3
      rw [h1] at this
      cases this

theorem keepEach_more {σ : Type} {f g : σ → NodeId → Except Halt σ} (h : ∀ s c s', f s c = .ok s' → g s c = .ok s') (l : List NodeId) :
    ∀ {s s'}, keepEach f l s = .ok s' → keepEach g l s = .ok s' := by
  induction l with
  | nil => intro s s' h'; exact h'
  | cons c l ih =>
    intro s s' h'
    simp only [keepEach] at h' ⊢
    cases hc : f s c with
    | error e => rw [hc] at h'; cases h'
    | ok s1 => rw [hc] at h'; rw [h _ _ _ hc]; exact ih h'

theorem keepRules_more {checks : Bool} {styles : List Style} {t : Tree} (d : Nat) : ∀ {n kept k}, keepRules checks styles t d n kept = .ok k →
    keepRules checks styles t (d + 1) n kept = .ok k := by
  induction d with
  | zero => intro n kept k h; cases h
  | succ d ih =>
    intro n kept k h
    unfold keepRules at h ⊢
    split
    · rename_i hc; rw [hc] at h; cases h
    · rename_i e hc
      rw [hc] at h
      simp only at h ⊢
      split
      · rename_i hc; rw [hc] at h; cases h
      · rename_i l hc
        rw [hc] at h
        exact keepEach_more (fun s c s' hs => ih hs) _ h

/-- A view that has been opened would also have been opened with more time, and be the same. -/
theorem openApp_more {fuel fuel' : Nat} {document : Html} {css : Css} {a : App} (hf : fuel ≤ fuel') (h : openApp p fuel document css = .ok a) :
    openApp p fuel' document css = .ok a := by
  induction fuel', hf using Nat.le_induction with
  | base => exact h
  | succ m hm ih =>
    unfold openApp at ih ⊢
    simp only at ih ⊢
    generalize collect document.children (fun _ => none) = ts at ih
    have hmono : ∀ x, renderView ⟨ts.1, p.translate, p.inline⟩ m ts.2 = .ok x → renderView ⟨ts.1, p.translate, p.inline⟩ (m + 1) ts.2 = .ok x := by
      intro x hx
      unfold renderView at hx ⊢
      simp only at hx ⊢
      split at hx
      · cases hx
      · rename_i hr
        rw [renderNode_mono_le _ (Nat.le_succ m) _ _ (by rw [hr]; simp [Halted]), hr]
        exact hx
    split at ih
    · cases ih
    · rename_i root body σ hr
      rw [hmono _ hr]
      simp only
      split at ih
      · cases ih
      · rename_i vm hvm
        split at ih
        · cases ih
        · rename_i kept hk
          rw [keepRules_more _ hk]
          exact ih

end Verif
