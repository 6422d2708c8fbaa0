import Verif.Spec.Stands
import Verif.View.Mirror
import Verif.View.Templates
/-!
# Every node stands for its template node (lemmas for C27)
-/
namespace Verif

def RecStands (rec : RenderFn) (below : Render → Html → NodeId → Prop) : Prop :=
  ∀ h σ n σ', σ.tree.Clean → rec h σ = .ok (n, σ') →
    Ext σ σ' ∧ σ'.tree.Clean ∧ ∀ σ'', Ext σ' σ'' → below σ'' h n

theorem renderSlots_stands {rec below} (hrec : RecStands rec below) {child : Html} {name : String} {b : Binder}
    (ns : List Nat) (cs : List NodeId) (σ : Render) (hc : σ.tree.Clean) {cs' σ'}
    (h : renderSlots rec name b child ns cs σ = .ok (cs', σ')) :
    MirrorStep σ σ' ∧ ∃ group : List NodeId, cs' = cs ++ group ∧ group.length = ns.length ∧ ∀ σ'', Ext σ' σ'' →
      ∀ m ∈ group, below σ'' child m := by
  induction ns generalizing cs σ with
  | nil =>
    simp only [renderSlots, Except.ok.injEq, Prod.mk.injEq] at h
    obtain ⟨rfl, rfl⟩ := h
    exact ⟨⟨Ext.refl _, hc⟩, [], by simp, rfl, by simp⟩
  | cons n ns ih =>
    simp only [renderSlots] at h
    split at h
    · simp at h
    · rename_i c σ1 he
      obtain ⟨e1, c1, m1⟩ := hrec _ _ _ _ (by exact hc) he
      obtain ⟨⟨e2, c2⟩, group, g1, g2, g3⟩ := ih (cs ++ [c]) σ1 c1 h
      refine ⟨⟨⟨(Ext.trans e1 e2).ctx, (Ext.trans e1 e2).regs⟩, c2⟩, c :: group, by simp [g1], by simp [g2], ?_⟩
      intro σ'' hx m hm
      rcases List.mem_cons.1 hm with rfl | hm
      · exact m1 _ (e2.trans hx)
      · exact g3 σ'' hx m hm

theorem renderBody_stands {rec below} (hrec : RecStands rec below) {child : Html}
    {node : NodeId} (cs : List NodeId) (σ : Render) (hc : σ.tree.Clean) {cs' σ'}
    (h : renderBody rec node child cs σ = .ok (cs', σ')) :
    MirrorStep σ σ' ∧ ∃ group : List NodeId, cs' = cs ++ group ∧ group.length = copies child ∧
      ∀ σ'', Ext σ' σ'' → ∀ m ∈ group, below σ'' child m := by
  unfold renderBody at h
  unfold copies
  split at h
  · rename_i v b hv
    simp only at h
    split at h
    · simp at h
    · rename_i c σ1 he
      simp only [Except.ok.injEq, Prod.mk.injEq] at h
      obtain ⟨rfl, rfl⟩ := h
      obtain ⟨e1, c1, m1⟩ := hrec _ _ _ _ (by exact hc) he
      have e2 : Ext σ1 (σ1.register (σ.field b).1 ⟨.visibility node c v, b.pipe⟩) :=
        ⟨fun _ _ => id, fun r hr => List.mem_append_left _ hr⟩
      refine ⟨⟨((Ext.same rfl rfl : Ext σ (σ.field b).2).trans e1).trans e2, c1⟩, [c], rfl, by simp [hv], ?_⟩
      intro σ'' hx m hm
      rw [List.mem_singleton.1 hm]
      exact m1 _ (e2.trans hx)
  · rename_i hv
    split at h
    · rename_i name count b hr
      simp only at h
      split at h
      · simp at h
      · rename_i cs1 σ1 he
        simp only [Except.ok.injEq, Prod.mk.injEq] at h
        obtain ⟨rfl, rfl⟩ := h
        obtain ⟨⟨e1, c1⟩, group, g1, g2, g3⟩ := renderSlots_stands hrec _ cs _ (by exact hc) he
        have e0 : Ext σ ((σ.field b).2.register (σ.field b).1 ⟨.repeat node cs.length count, b.pipe⟩) :=
          ⟨fun _ _ => id, fun r hr => List.mem_append_left _ hr⟩
        have e1' : Ext ((σ.field b).2.register (σ.field b).1 ⟨.repeat node cs.length count, b.pipe⟩) σ1 :=
          ⟨e1.ctx, e1.regs⟩
        refine ⟨⟨⟨(e0.trans e1').ctx, (e0.trans e1').regs⟩, c1⟩, group, g1, ?_, ?_⟩
        · simp [hv, hr, g2]
        · intro σ'' hx
          exact g3 σ'' ⟨hx.ctx, hx.regs⟩
    · rename_i hr
      split at h
      · simp at h
      · rename_i c σ1 he
        simp only [Except.ok.injEq, Prod.mk.injEq] at h
        obtain ⟨rfl, rfl⟩ := h
        obtain ⟨e1, c1, m1⟩ := hrec _ _ _ _ hc he
        refine ⟨⟨e1, c1⟩, [c], rfl, by simp [hv, hr], ?_⟩
        intro σ'' hx m hm
        rw [List.mem_singleton.1 hm]
        exact m1 _ hx

theorem renderChildren_stands {env : RenderEnv} {rec below} (hrec : RecStands rec below) {node : NodeId}
    (l : List Html) (cs : List NodeId) (σ : Render) (hcl : σ.tree.Clean) {cs' σ'}
    (hok : renderChildren env rec node l cs σ = .ok (cs', σ')) :
    MirrorStep σ σ' ∧ ∃ group : List NodeId, cs' = cs ++ group ∧ ∀ σ'', Ext σ' σ'' →
      StandsChildren env.templates (below σ'') l group := by
  induction l generalizing cs σ with
  | nil =>
    simp only [renderChildren, Except.ok.injEq, Prod.mk.injEq] at hok
    obtain ⟨rfl, rfl⟩ := hok
    exact ⟨⟨Ext.refl _, hcl⟩, [], by simp, fun _ _ => rfl⟩
  | cons c l ih =>
    simp only [renderChildren] at hok
    split at hok
    · simp at hok
    · rename_i cs1 σ1 he
      unfold renderChild at he
      split at he
      · simp at he
      · rename_i c' hc
        simp only at he
        split at he
        · simp at he
        · rename_i cs2 σ2 he2
          simp only [Except.ok.injEq, Prod.mk.injEq] at he
          obtain ⟨rfl, rfl⟩ := he
          obtain ⟨t1, t2, -⟩ := renderAliases_frame c'.bindings (fun _ => none) σ
          obtain ⟨⟨e1, c1⟩, g1, rfl, g3, g4⟩ := renderBody_stands hrec cs _ (by rw [t1]; exact hcl) he2
          obtain ⟨⟨e2, c2⟩, g2, rfl, m2⟩ := ih _ _ (by exact c1) hok
          have e0 := (Ext.same t1 t2).trans e1
          have e2' : Ext σ2 σ' := ⟨e2.ctx, e2.regs⟩
          refine ⟨⟨e0.trans e2', c2⟩, g1 ++ g2, by simp, ?_⟩
          intro σ'' hx
          refine ⟨c', g1, g2, ?_, rfl, g3, g4 _ (e2'.trans hx), m2 _ hx⟩
          rw [← resolveChild_spec]; exact hc

theorem renderNode_stands (env : RenderEnv) (fuel : Nat) :
    RecStands (renderNode env fuel) (fun σ'' => Stands env.translate env.templates σ''.tree.ctx fuel) := by
  induction fuel with
  | zero => intro h σ n σ' _ hok; simp [renderNode] at hok
  | succ fuel ih =>
    intro h σ n σ' hcl hok
    have hg := renderNode_grew env (fuel + 1) h σ hcl
    rw [hok] at hg
    refine ⟨grew_ext hg hcl, hg.forest.clean, ?_⟩
    intro σ'' hx
    simp only [renderNode] at hok
    simp only [Stands]
    split at hok
    · rename_i spans ht
      simp only [Except.ok.injEq] at hok
      have e1 : (renderText env spans σ).1 = n := by rw [hok]
      have e2 : (renderText env spans σ).2 = σ' := by rw [hok]
      have hn : σ.tree.newLeaf.1 = n := e1
      refine ⟨{ node := n, text := some ⟨(renderSpans (fun i => .text σ.tree.newLeaf.1 i) env.translate spans 0 { σ with tree := σ.tree.newLeaf.2 }).1⟩ }, hx.ctx n _ ?_, ?_, ?_⟩
      · rw [← e2, ← hn]; simp [renderText, Tree.setCtx]
      · rfl
      · simp only [ht]
        exact ⟨by rw [renderSpans_source], trivial, trivial⟩
    · rename_i ht
      unfold renderElement at hok
      simp only at hok
      have hb := renderBindings_step env σ.tree.newLeaf.1 h.bindings
        ({ node := σ.tree.newLeaf.1, tag := h.tag }, { σ with tree := σ.tree.newLeaf.2 })
      obtain ⟨v1, v2, v3⟩ := renderBindings_value env σ.tree.newLeaf.1 h.bindings
        ({ node := σ.tree.newLeaf.1, tag := h.tag }, { σ with tree := σ.tree.newLeaf.2 })
      generalize h.bindings.foldl (renderBinding env σ.tree.newLeaf.1)
        ({ node := σ.tree.newLeaf.1, tag := h.tag }, { σ with tree := σ.tree.newLeaf.2 }) = s at hb v1 v2 v3 hok
      have htree : s.2.tree = σ.tree.newLeaf.2 := hb.tree
      have htag : s.1.tag = h.tag := hb.tag
      have hcs : s.2.tree.Clean := by rw [htree]; exact clean_newLeaf hcl
      have hlp := renderContent_loop (env := env) (renderNode_grew env fuel) (node := σ.tree.newLeaf.1) (e := s.1)
        h.children s.2 hcs
      split at hok
      · simp at hok
      · rename_i cs σ1 he
        rw [he] at hlp
        split at hok
        · simp at hok
        · rename_i t he2
          simp only [Except.ok.injEq, Prod.mk.injEq] at hok
          obtain ⟨rfl, rfl⟩ := hok
          have hF := hlp.1.forest
          rw [htree] at hF
          obtain ⟨-, hctx, -, hother⟩ := forest_close (e := s.1) hcl hF (by rw [hb.sameNode]; rfl)
            (fun hi => (hlp.2 hi).1) he2
          have hnone : σ1.tree.ctx σ.tree.next = none :=
            ((hF.old σ.tree.next (Nat.lt_succ_self _)).1).trans (hcl _ (Nat.le_refl _)).1
          have hx1 : Ext σ1 σ'' := by
            refine ⟨fun m e hm => hx.ctx m e ?_, fun r hr => hx.regs r hr⟩
            have : m ≠ σ.tree.next := fun hh => by rw [hh, hnone] at hm; simp at hm
            rw [show ({ σ1 with tree := t } : Render).tree.ctx m = σ1.tree.ctx m from (hother m this).1]
            exact hm
          refine ⟨_, hx.ctx _ _ hctx, congrArg Prod.fst hb.sameNode, ?_⟩
          simp only [ht]
          refine ⟨hb.text, htag, ?_, ?_⟩
          · intro key; rw [v1]; simp
          · unfold renderContent at he
            rw [htag] at he
            split at he
            · rename_i hi
              rw [if_pos hi]
              simp only [Except.ok.injEq, Prod.mk.injEq] at he
              obtain ⟨rfl, rfl⟩ := he
              refine ⟨_, { node := s.2.tree.newLeaf.1, backgrounds := [{ image := some ((s.1.attrs "src").getD ""), isSrc := true }] }, rfl, hx1.ctx _ _ ?_, ?_, rfl⟩
              · simp [renderBgImage, Tree.setCtx]
              · simp
            · rename_i hi
              rw [if_neg hi]
              split at he
              · rename_i hv
                rw [if_pos hv]
                simp only [Except.ok.injEq, Prod.mk.injEq] at he
                exact he.1.symm
              · rename_i hv
                rw [if_neg hv]
                obtain ⟨-, group, g1, g2⟩ := renderChildren_stands ih h.children [] s.2 hcs he
                simp only [List.nil_append] at g1
                subst g1
                exact g2 σ'' hx1

end Verif
