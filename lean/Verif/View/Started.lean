import Verif.View.Smooth
/-!
# Views that have just been opened (lemmas for C73, C74)
-/
namespace Verif

variable {p : Platform}

/-! ## Opening -/

theorem defaultReactions_ok {env : RenderEnv} {fuel : Nat} {h : Html} {root body : NodeId} {σ : Render} (hr : renderView env fuel h = .ok (root, body, σ)) :
    ∀ r ∈ defaultReactions (orderedBindings σ.regs), ReactionOk σ.tree root body r := by
  have hv := renderView_ok hr
  intro r hr
  unfold defaultReactions at hr
  rw [List.mem_filterMap] at hr
  obtain ⟨b, hb, hk⟩ := hr
  obtain ⟨p, hp⟩ := mem_orderedBindings.1 hb
  cases hpar : b.params with
  | visibility q n vis =>
    rw [hpar] at hk
    simp only [Option.some.injEq] at hk
    subst hk
    have h1 := (hv.bindings _ hp).1
    have h2 := (hv.bindings _ hp).2
    have := bindOk_reactionOk (root := root) (body := body) h1 h2 (.bool (!vis))
    simp only [Binding.react, hpar] at this
    cases vis <;> simpa [Json.evalBoolean] using this
  | _ => rw [hpar] at hk; simp at hk

/-- What is known of a view that was opened. -/
structure OpenedApp (p : Platform) (fuel : Nat) (document : Html) (css : Css) (a : App) (σ : Render) : Prop where
  view : openView p.translate p.inline p.transformers fuel document = .ok a.screen.view
  ui : a.screen.ui = {}
  sheet : a.css = css
  rendered : renderView (docEnv p.translate p.inline document) fuel (docBody document) = .ok (a.screen.view.root, a.screen.view.body, σ)
  kept : keepRules p.checks css.styles σ.tree fuel a.screen.view.body (fun _ => []) = .ok a.kept
  layouts : a.layouts = freshLayouts σ.tree
  stage : updateTrees p.inline ⟨σ.tree, σ.staticId⟩ (defaultReactions (orderedBindings σ.regs)) = .ok a.screen.view.stage

theorem openApp_opened {fuel : Nat} {document : Html} {css : Css} {a : App} (h : openApp p fuel document css = .ok a) :
    ∃ σ, OpenedApp p fuel document css a σ := by
  obtain ⟨h1, h2, h3, σ, h4, h5, h6⟩ := openApp_parts h
  refine ⟨σ, h1, h2, h3, h4, h5, h6, ?_⟩
  unfold openApp at h
  rw [collect_doc] at h
  simp only at h
  rw [show renderView ⟨templateFor document.children, p.translate, p.inline⟩ fuel (docBody document) = _ from h4] at h
  simp only at h
  split at h
  · cases h
  · split at h
    · cases h
    · split at h
      · cases h
      · rename_i stage hs
        injection h with h
        rw [← h]
        exact hs

theorem updateTree_rootKids {inline} {s s' : Stage} {root body : NodeId} (hw : s.tree.Wf root body) {r : Reaction} (hr : ReactionOk s.tree root body r)
    (hu : updateTree inline s r = .ok s') : s'.tree.kids root = s.tree.kids root := by
  cases r with
  | type m i x =>
    obtain ⟨em, hem, ht⟩ := hr
    obtain ⟨tx, htx⟩ := Option.isSome_iff_exists.1 ht
    simp only [updateTree, hem, htx, Except.ok.injEq] at hu
    subst hu; rfl
  | reattach p m v =>
    obtain ⟨K, par', h1, -⟩ := reattach_effect hw hr
    simp only [updateTree, h1, bind, Except.bind, Except.ok.injEq] at hu
    subst hu
    exact upd_other _ _ (Ne.symm hr.1)
  | «repeat» p i k j =>
    obtain ⟨par', h1, -⟩ := repeat_effect hw hr
    simp only [updateTree, h1, bind, Except.bind, Except.ok.injEq] at hu
    subst hu
    exact upd_other _ _ (Ne.symm hr.1)
  | tag m k b =>
    obtain ⟨em, hem⟩ := Option.isSome_iff_exists.1 hr
    simp only [updateTree, Tree.elem, hem, bind, Except.bind, Except.ok.injEq] at hu
    subst hu; rfl
  | bind m k i x =>
    obtain ⟨hmr, em, hem, ha⟩ := hr
    obtain ⟨att, hatt⟩ := Option.isSome_iff_exists.1 ha
    obtain ⟨s1, h1, -, h2, -⟩ := bindReact_ok (inline := inline) (span := i) (text := x) hw hmr hem hatt
    rw [updateTree, h1] at hu
    injection hu with hu; subst hu
    rw [h2]

theorem updateTrees_rootKids {inline} {root body : NodeId} (rs : List Reaction) {s s' : Stage} (hw : s.tree.Wf root body)
    (hrs : ∀ r ∈ rs, ReactionOk s.tree root body r) (hu : updateTrees inline s rs = .ok s') : s'.tree.kids root = s.tree.kids root := by
  induction rs generalizing s with
  | nil => simp only [updateTrees, Except.ok.injEq] at hu; subst hu; rfl
  | cons r rs ih =>
    simp only [updateTrees, bind, Except.bind] at hu
    split at hu
    · cases hu
    · rename_i s1 h1
      have c2 := updateTree_rootKids hw (hrs r (by simp)) h1
      obtain ⟨s1', a1, a2, a3⟩ := C16_tree_stays_tree (inline := inline) s [r] hw (by simpa using hrs r (by simp))
      simp only [updateTrees, bind, Except.bind, h1, Except.ok.injEq] at a1
      subst a1
      exact (ih a2 (fun x hx => a3 x (hrs x (by simp [hx]))) hu).trans c2

theorem openApp_kids {fuel : Nat} {document : Html} {css : Css} {a : App} {σ : Render} (h : OpenedApp p fuel document css a σ) :
    a.screen.view.stage.tree.kids a.screen.view.root = [a.screen.view.body] := by
  have hv := renderView_ok h.rendered
  obtain ⟨-, -, hk, -⟩ := C27_fresh_tree h.rendered
  rw [← hk]
  exact updateTrees_rootKids (inline := p.inline) _ (s := ⟨σ.tree, σ.staticId⟩) hv.wf (defaultReactions_ok h.rendered) h.stage

theorem openApp_rules {fuel : Nat} {document : Html} {css : Css} {a : App} {σ : Render} (h : OpenedApp p fuel document css a σ) :
    ∀ n, ∀ r ∈ a.kept n, r.rule ∈ css.styles := by
  intro n r hr
  have hv := renderView_ok h.rendered
  rcases (keepRules_spec hv.wf _ h.kept).1 n with hn | ⟨e, -, hc⟩
  · rw [hn] at hr; cases hr
  · exact classify_mem hc r hr

end Verif
