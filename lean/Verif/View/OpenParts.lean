import Verif.View.Live
import Verif.View.Mirror
import Verif.View.Templates
/-!
# What opening a document consists of (lemmas for C23-C27, C61)
-/
namespace Verif

/-- The templates of a document. -/
def docEnv (translate : String → String) (inline : String → Option (List Declaration)) (document : Html) :
    RenderEnv := ⟨templateFor document.children, translate, inline⟩

/-- The body of a document: the first one, or nothing. -/
def docBody (document : Html) : Html := (document.children.find? (fun h => h.tag = "body")).getD .empty

theorem collect_doc (document : Html) :
    collect document.children (fun _ => none) = (templateFor document.children, docBody document) := by
  obtain ⟨h1, h2⟩ := collect_spec document.children (fun _ => none)
  refine Prod.ext ?_ h2
  funext id
  rw [h1]; simp

theorem renderView_parts {env : RenderEnv} {fuel : Nat} {h : Html} {root body : NodeId} {σ : Render}
    (hok : renderView env fuel h = .ok (root, body, σ)) :
    ∃ σ0 σ1 : Render, σ0.locals = (fun _ => none) ∧ σ0.schema = .obj [] ∧ σ0.regs = [] ∧ σ0.tree.Clean ∧
      σ0.tree.next = 1 ∧ renderNode env fuel h σ0 = .ok (body, σ1) ∧
      σ.schema = σ1.schema ∧ σ.regs = σ1.regs ∧ σ.tree.ctx = σ1.tree.ctx ∧ σ.locals = σ1.locals ∧
      ∀ m e, σ0.tree.ctx m = some e → ∀ ev, e.listeners ev = none := by
  unfold renderView at hok
  simp only at hok
  generalize hσ0 : ({ tree := (Tree.setCtx Tree.empty.newLeaf.2 Tree.empty.newLeaf.1 { node := Tree.empty.newLeaf.1 }) } : Render) = σ0 at hok
  have hc0 : σ0.tree.Clean := by
    subst hσ0
    intro m hm
    exact ⟨upd_other _ _ (Nat.ne_of_gt hm), rfl, rfl⟩
  split at hok
  · simp at hok
  · rename_i b σ1 he
    unfold Tree.addChild at hok
    split at hok
    · simp at hok
    · rename_i t hadd
      split at hadd
      · injection hadd with hadd
        simp only [Except.ok.injEq, Prod.mk.injEq] at hok
        obtain ⟨rfl, rfl, rfl⟩ := hok
        subst hadd
        refine ⟨σ0, σ1, by subst hσ0; rfl, by subst hσ0; rfl, by subst hσ0; rfl, hc0, by subst hσ0; rfl, he,
          rfl, rfl, rfl, rfl, ?_⟩
        intro m e hm ev
        subst hσ0
        simp only [Tree.setCtx] at hm
        by_cases hmn : m = Tree.empty.newLeaf.1
        · subst hmn; simp only [upd_same, Option.some.injEq] at hm; subst hm; rfl
        · rw [upd_other _ _ hmn] at hm; simp [Tree.newLeaf, Tree.empty] at hm
      · simp at hadd

theorem reattach_ctx {t t' : Tree} {p n : NodeId} {v : Bool} (h : reattach t p n v = .ok t') :
    t'.ctx = t.ctx ∧ t'.next = t.next := by
  unfold reattach at h
  simp only [bind, Except.bind] at h
  split at h
  · simp at h
  · split at h
    · simp at h
    · split at h
      · split at h
        · injection h with h; subst h; exact ⟨rfl, rfl⟩
        · split at h
          · simp at h
          · unfold Tree.insertChild at h
            split at h
            · simp at h
            · split at h
              · simp at h
              · injection h with h; subst h; exact ⟨rfl, rfl⟩
      · split at h
        · unfold Tree.removeChildAt at h
          split at h
          · simp at h
          · injection h with h; subst h; exact ⟨rfl, rfl⟩
        · injection h with h; subst h; exact ⟨rfl, rfl⟩

theorem updateTrees_reattach_ctx {inline} (rs : List Reaction) (h : ∀ r ∈ rs, ∃ p n v, r = .reattach p n v)
    {s s' : Stage} (hu : updateTrees inline s rs = .ok s') :
    s'.tree.ctx = s.tree.ctx ∧ s'.tree.next = s.tree.next := by
  induction rs generalizing s with
  | nil => simp only [updateTrees, Except.ok.injEq] at hu; subst hu; exact ⟨rfl, rfl⟩
  | cons r rs ih =>
    obtain ⟨p, n, v, rfl⟩ := h r (by simp)
    simp only [updateTrees, updateTree, bind, Except.bind] at hu
    split at hu
    · simp at hu
    · rename_i s1 h1
      split at h1
      · simp at h1
      · rename_i t ht
        injection h1 with h1; subst h1
        obtain ⟨a1, a2⟩ := ih (fun r hr => h r (by simp [hr])) hu
        obtain ⟨b1, b2⟩ := reattach_ctx ht
        exact ⟨a1.trans b1, a2.trans b2⟩

theorem openView_parts {translate inline tr fuel document} {v : View}
    (h : openView translate inline tr fuel document = .ok v) :
    ∃ σ : Render, renderView (docEnv translate inline document) fuel (docBody document) = .ok (v.root, v.body, σ) ∧
      v.vm.bindings = lookupRegs σ.regs ∧ v.vm.model = σ.schema ∧ v.stage.tree.ctx = σ.tree.ctx ∧
      v.stage.tree.next = σ.tree.next := by
  unfold openView at h
  rw [collect_doc] at h
  simp only at h
  split at h
  · simp at h
  · rename_i root body σ hr
    split at h
    · simp at h
    · rename_i vm hvm
      split at h
      · simp at h
      · rename_i stage hs
        injection h with h; subst h
        obtain ⟨a1, a2⟩ := updateTrees_reattach_ctx _ (by
          intro r hr
          unfold defaultReactions at hr
          rw [List.mem_filterMap] at hr
          obtain ⟨b, hb, hk⟩ := hr
          cases hpar : b.params with
          | visibility q n vis =>
            rw [hpar] at hk
            simp only [Option.some.injEq] at hk
            exact ⟨q, n, false, hk.symm⟩
          | _ => rw [hpar] at hk; simp at hk) hs
        refine ⟨σ, hr, ?_, ?_, a1, a2⟩
        · unfold ViewModel.create at hvm
          rw [Option.map_eq_some_iff] at hvm
          obtain ⟨d, -, rfl⟩ := hvm; rfl
        · unfold ViewModel.create at hvm
          rw [Option.map_eq_some_iff] at hvm
          obtain ⟨d, -, rfl⟩ := hvm; rfl

/-- Which error opening gives. -/
theorem openView_error {translate inline tr fuel document} {e : RenderFail} (he : ∀ f, e ≠ .tree f) :
    openView translate inline tr fuel document = .error e ↔
    ∀ σ0 : Render, σ0 = { tree := (Tree.setCtx Tree.empty.newLeaf.2 Tree.empty.newLeaf.1 { node := Tree.empty.newLeaf.1 }) } →
      renderNode (docEnv translate inline document) fuel (docBody document) σ0 = .error e := by
  have h1 : openView translate inline tr fuel document = .error e ↔
      renderView (docEnv translate inline document) fuel (docBody document) = .error e := by
    unfold openView
    rw [collect_doc]
    simp only [docEnv]
    cases renderView ⟨templateFor document.children, translate, inline⟩ fuel (docBody document) with
    | error e' => simp
    | ok r =>
      obtain ⟨root, body, σ⟩ := r
      simp only [reduceCtorEq, iff_false]
      intro h
      split at h
      · injection h with h; exact he _ h.symm
      · split at h
        · injection h with h; exact he _ h.symm
        · simp at h
  rw [h1]
  unfold renderView
  simp only [forall_eq]
  cases renderNode (docEnv translate inline document) fuel (docBody document)
    { tree := (Tree.setCtx Tree.empty.newLeaf.2 Tree.empty.newLeaf.1 { node := Tree.empty.newLeaf.1 }) } with
  | error e' => simp
  | ok r =>
    simp only [reduceCtorEq, iff_false]
    intro h
    split at h
    · injection h with h; exact he _ h.symm
    · simp at h

end Verif
