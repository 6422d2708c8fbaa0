import Verif.View.DisplayPaths
import Verif.View.OpenParts
import Verif.View.RenderLocals
import Verif.Props.Render
/-!
# A view right after opening (lemmas for C65)
-/
namespace Verif
open Json

variable {translate : String → String} {inline : String → Option (List Declaration)} {tr : Transformers}

theorem openView_stage {fuel document} {v : View} (h : openView translate inline tr fuel document = .ok v) :
    ∃ σ : Render, renderView (docEnv translate inline document) fuel (docBody document) = .ok (v.root, v.body, σ) ∧
      updateTrees inline ⟨σ.tree, σ.staticId⟩ (defaultReactions (orderedBindings σ.regs)) = .ok v.stage := by
  unfold openView at h
  rw [collect_doc] at h
  simp only at h
  split at h
  · simp at h
  · rename_i root body σ hr
    split at h
    · simp at h
    · split at h
      · simp at h
      · rename_i stage hs
        injection h with h; subst h
        exact ⟨σ, hr, hs⟩

/-- What is known of a view after opening. -/
structure Setup (env : RenderEnv) (s : Shape) (σ : Render) (tr : Transformers) (fuel : Nat) (h : Html) (v : View) : Prop where
  follows : Follows s σ tr [] v
  shape : HasShape s σ.schema
  model : v.vm.model = σ.schema
  mirrors : Mirrors env v.stage.tree.ctx σ.regs fuel (fun _ => none) h v.body
  mentioned : ∀ p ∈ mentionedPaths (mentions env fuel (fun _ => none) h), Mentioned σ.schema p
  bodyNotRoot : v.body ≠ v.root
  rootZero : v.root = 0
  shown : ∀ p, p ≠ v.root → ∀ c ∈ v.stage.tree.slots v.root v.body p,
    (∀ r ∈ σ.regs, ∀ want, r.2.params ≠ .visibility p c want) → c ∈ v.stage.tree.kids p
  ordered : ∀ p start, p ≠ v.root → (∀ r ∈ σ.regs, ∀ c want, r.2.params = .visibility p c want →
    c ∈ (v.stage.tree.slots v.root v.body p).take start) → OrderedFrom v.root v.body p start v.stage.tree

theorem default_mem {regs : List (String × Binding)} {r : Reaction} (h : r ∈ defaultReactions (orderedBindings regs)) :
    ∃ g ∈ regs, ∃ p c want, g.2.params = .visibility p c want ∧ r = .reattach p c false := by
  unfold defaultReactions at h
  rw [List.mem_filterMap] at h
  obtain ⟨b, hb, hk⟩ := h
  obtain ⟨p, hp⟩ := mem_orderedBindings.1 hb
  cases hpar : b.params with
  | visibility q n vis =>
    rw [hpar] at hk
    simp only [Option.some.injEq] at hk
    exact ⟨_, hp, q, n, vis, hpar, hk.symm⟩
  | _ => rw [hpar] at hk; simp at hk

theorem setup_of {fuel document s} {v : View} (ho : openView translate inline tr fuel document = .ok v)
    (hok : s.Ok) (hno : s.NoArrArr) (hs : HasShape s v.vm.model)
    (hd : EveryNode (docEnv translate inline document)
      (fun c => DistinctAliases (docEnv translate inline document) c ∧ LoopNameFresh c) (docBody document))
    (hc : Consistent (mentionedPaths
      (mentions (docEnv translate inline document) fuel (fun _ => none) (docBody document)))) :
    ∃ σ, Setup (docEnv translate inline document) s σ tr fuel (docBody document) v := by
  obtain ⟨σ, hr, hst⟩ := openView_stage ho
  have hopened : Opened v σ tr := by
    rcases openView_cases (inline := inline) translate tr fuel document with ⟨v', σ', root, body, h1, h2, h3⟩ | h | ⟨id, h⟩
    · rw [ho] at h1; injection h1 with h1; subst h1
      rw [collect_doc] at h2
      have h2 : renderView (docEnv translate inline document) fuel (docBody document) = .ok (root, body, σ') := h2
      rw [hr] at h2
      simp only [Except.ok.injEq, Prod.mk.injEq] at h2
      rw [h2.2.2]; exact h3
    · rw [ho] at h; simp at h
    · rw [ho] at h; simp at h
  have hv := renderView_ok hr
  obtain ⟨σ0, σ1, hl, hs0, hr0, hc0, -, hn, hs1, hregs, hctx1, -, -⟩ := renderView_parts hr
  have hrs : ∀ r ∈ defaultReactions (orderedBindings σ.regs), ReactionOk σ.tree v.root v.body r := by
    intro r hrm
    obtain ⟨g, hg, p, c, want, hp, rfl⟩ := default_mem hrm
    have := bindOk_reactionOk (root := v.root) (body := v.body) (hv.bindings _ hg).1 (hv.bindings _ hg).2 (.bool (!want))
    simp only [Binding.react, hp] at this
    cases want <;> simpa [Json.evalBoolean] using this
  have hctx : v.stage.tree.ctx = σ.tree.ctx := (updateTrees_reattach_ctx _ (by
    intro r hrm
    obtain ⟨g, hg, p, c, want, hp, rfl⟩ := default_mem hrm
    exact ⟨_, _, _, rfl⟩) hst).1
  obtain ⟨s', k1, -, k3, k4⟩ := updateTrees_steps (inline := inline)
    (defaultReactions (orderedBindings σ.regs)) ⟨σ.tree, σ.staticId⟩ hv.wf hrs
  rw [hst] at k1; injection k1 with k1; subst k1
  refine ⟨σ, follows_open hopened hok hno hs, hopened.model ▸ hs, hopened.model, ?_, ?_, ?_, hv.rootIs, ?_, ?_⟩
  · obtain ⟨-, -, -, hm⟩ := renderNode_mirror _ (fun c h => h) fuel _ _ _ _ hd hc0
      (by intro r h; rw [hr0] at h; simp at h) hn
    have := hm σ1 (Later.refl _ _)
    rw [hl] at this
    rw [hctx, hctx1, hregs]; exact this
  · obtain ⟨-, hu, -⟩ := renderNode_scoped _ (fun c h => h) fuel _ _ _ _ hd hn
    rw [hl] at hu
    intro p hp
    refine ⟨hc.plain p hp, ?_⟩
    rw [hs1, hu]
    exact defineAll_strict _ hc [] _ rfl _ (by simp) p hp
  · rw [hv.rootIs, hv.bodyIs]; decide
  · intro p hp c hcs hnv
    rw [hopened.slots] at hcs
    rw [k4 p hp c]
    refine ⟨hcs, ?_⟩
    rw [showAll_other]
    · simp only [decide_eq_true_eq]; rw [hv.allShown p hp]; exact hcs
    · intro w hw
      obtain ⟨g, hg, p', c', want, hpar, e⟩ := default_mem hw
      simp only [Reaction.reattach.injEq] at e
      obtain ⟨rfl, rfl, -⟩ := e
      exact hnv g hg want hpar
    · intro i k j hw
      obtain ⟨g, hg, p', c', want, hpar, e⟩ := default_mem hw
      simp at e
  · intro p start hp hvis
    rw [hopened.slots] at hvis
    obtain ⟨s2, sh, a, g1, g2⟩ := C15_order_partial (inline := inline) (p := p) start ⟨σ.tree, σ.staticId⟩ _ hv.wf hrs hp
      (by
        intro r hrm
        obtain ⟨g, hg, p', c', want, hpar, rfl⟩ := default_mem hrm
        constructor
        · intro i k j e; simp at e
        · intro n w e
          simp only [Reaction.reattach.injEq] at e
          obtain ⟨rfl, rfl, -⟩ := e
          exact hvis g hg c' want hpar)
      (fun _ => true) (σ.tree.slots v.root v.body p).length
      (by
        have e : ((σ.tree.slots v.root v.body p).drop start).take (σ.tree.slots v.root v.body p).length
            = (σ.tree.slots v.root v.body p).drop start := List.take_of_length_le (by rw [List.length_drop]; omega)
        simp only [e, List.filter_true, List.take_append_drop]
        exact hv.allShown p hp)
    rw [hst] at g1; injection g1 with g1; subst g1
    exact ⟨sh, a, by rw [hopened.slots]; exact g2⟩

end Verif
