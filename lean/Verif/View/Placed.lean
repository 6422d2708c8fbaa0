import Verif.Spec.Layout
import Verif.View.StyledAt
/-!
# What placing the elements does to a tree
-/
namespace Verif

/-- The layout of a node with its location made absolute. -/
def absolute (boxes : NodeId → Layout) (n : NodeId) (location : Rat × Rat) : Layout :=
  { boxes n with x := (boxes n).x + location.1, y := (boxes n).y + location.2 }

/-- In `t'` the displayed nodes from `n` on are the placed nodes of `t`. -/
inductive PlacedFrom (boxes : NodeId → Layout) (t t' : Tree) : NodeId → Rat × Rat → Rat → Option Layout → Prop
  | mk {n location opacity clipping e} : t.ctx n = some e → t'.ctx n = some (e.placed (absolute boxes n location) opacity clipping) →
      (∀ c ∈ t.kids n, PlacedFrom boxes t t' c
        ((e.placed (absolute boxes n location) opacity clipping).inner (absolute boxes n location) clipping).1
        (e.placed (absolute boxes n location) opacity clipping).opacity
        ((e.placed (absolute boxes n location) opacity clipping).inner (absolute boxes n location) clipping).2) →
      PlacedFrom boxes t t' n location opacity clipping

theorem PlacedFrom.keep {boxes : NodeId → Layout} {t t1 t2 : Tree} (hl : Linked t) {n : NodeId} {location : Rat × Rat} {opacity : Rat} {clipping : Option Layout}
    (h : PlacedFrom boxes t t1 n location opacity clipping) (hk : ∀ m, InSubtree t n m → t2.ctx m = t1.ctx m) :
    PlacedFrom boxes t t2 n location opacity clipping := by
  induction h with
  | mk h1 h2 _ ih =>
    refine .mk h1 ((hk _ .here).trans h2) ?_
    intro c hc
    exact ih c hc (fun m hm => hk m ((InSubtree.deeper (hl.link _ _ hc) .here).trans hm))

/-- The same nodes and links. -/
structure SameLinks (t t' : Tree) : Prop where
  kids : t'.kids = t.kids
  par : t'.par = t.par
  next : t'.next = t.next

theorem placeTree_spec {boxes : NodeId → Layout} {t0 : Tree} (hl : Linked t0) (depth : Nat) :
    ∀ {n : NodeId} {location : Rat × Rat} {opacity : Rat} {clipping : Option Layout} {t t' : Tree}, SameLinks t0 t →
      (∀ m, InSubtree t0 n m → t.ctx m = t0.ctx m) → placeTree boxes depth n location opacity clipping t = .ok t' →
      SameLinks t0 t' ∧ (∀ m, ¬ InSubtree t0 n m → t'.ctx m = t.ctx m) ∧ PlacedFrom boxes t0 t' n location opacity clipping := by
  induction depth with
  | zero => intro n location opacity clipping t t' _ _ h; cases h
  | succ depth ih =>
    intro n location opacity clipping t t' hs hsame h
    rw [placeTree] at h
    simp only at h
    cases he : t.ctx n with
    | none => rw [he] at h; cases h
    | some e =>
      rw [he] at h
      simp only at h
      rw [show ({ boxes n with x := (boxes n).x + location.1, y := (boxes n).y + location.2 } : Layout) = absolute boxes n location from rfl] at h
      generalize hE : e.placed (absolute boxes n location) opacity clipping = e' at h
      have loop : ∀ (cs : List NodeId) (t1 t2 : Tree), cs.Nodup → (∀ c ∈ cs, c ∈ t0.kids n) → SameLinks t0 t1 →
          (∀ c ∈ cs, ∀ m, InSubtree t0 c m → t1.ctx m = t0.ctx m) →
          forEach (fun t c => placeTree boxes depth c (e'.inner (absolute boxes n location) clipping).1 e'.opacity (e'.inner (absolute boxes n location) clipping).2 t) cs t1 = .ok t2 →
          SameLinks t0 t2 ∧ (∀ c ∈ cs, PlacedFrom boxes t0 t2 c (e'.inner (absolute boxes n location) clipping).1 e'.opacity (e'.inner (absolute boxes n location) clipping).2) ∧
            (∀ m, (∀ c ∈ cs, ¬ InSubtree t0 c m) → t2.ctx m = t1.ctx m) := by
        intro cs
        induction cs with
        | nil =>
          intro t1 t2 _ _ h1 _ hfe
          injection hfe with hfe; subst hfe
          exact ⟨h1, by simp, fun m _ => rfl⟩
        | cons c cs ihc =>
          intro t1 t2 hnd hmem h1 hs1 hfe
          rw [forEach] at hfe
          cases hst : placeTree boxes depth c (e'.inner (absolute boxes n location) clipping).1 e'.opacity (e'.inner (absolute boxes n location) clipping).2 t1 with
          | error x => rw [hst] at hfe; cases hfe
          | ok t3 =>
            rw [hst] at hfe
            simp only at hfe
            have hcp := hl.link _ _ (hmem c List.mem_cons_self)
            obtain ⟨g1, g2, g3⟩ := ih h1 (hs1 c List.mem_cons_self) hst
            have hdis : ∀ c' ∈ cs, ∀ m, InSubtree t0 c' m → ¬ InSubtree t0 c m := by
              intro c' hc' m hm hm'
              have := InSubtree.siblings hl hcp (hl.link _ _ (hmem c' (List.mem_cons_of_mem _ hc'))) hm' hm
              subst this
              exact (List.nodup_cons.1 hnd).1 hc'
            obtain ⟨k1, k2, k3⟩ := ihc t3 t2 (List.nodup_cons.1 hnd).2 (fun c' hc' => hmem c' (List.mem_cons_of_mem _ hc')) g1
              (fun c' hc' m hm => by rw [g2 m (hdis c' hc' m hm), hs1 c' (List.mem_cons_of_mem _ hc') m hm]) hfe
            refine ⟨k1, ?_, ?_⟩
            · intro c' hc'
              rcases List.mem_cons.1 hc' with rfl | hc'
              · exact g3.keep hl (fun m hm => k3 m (fun d hd hu => hdis d hd m hu hm))
              · exact k2 c' hc'
            · intro m hm
              rw [k3 m (fun d hd => hm d (List.mem_cons_of_mem _ hd)), g2 m (hm c List.mem_cons_self)]
      rw [hs.kids] at h
      obtain ⟨k1, k2, k3⟩ := loop (t0.kids n) (t.setCtx n e') t' (hl.nodup n) (fun _ h => h) ⟨hs.kids, hs.par, hs.next⟩
        (fun c hc m hm => by
          have h1 := hm.le hl
          have h2 := hl.older _ _ (hl.link _ _ hc)
          have hne : m ≠ n := by unfold NodeId at *; omega
          simp only [Tree.setCtx, upd_other _ _ hne]
          exact hsame m ((InSubtree.deeper (hl.link _ _ hc) .here).trans hm)) h
      have hself : t'.ctx n = some e' := by
        rw [k3 n (fun c hc hu => by
          have h1 := hu.le hl
          have h2 := hl.older _ _ (hl.link _ _ hc)
          unfold NodeId at *; omega)]
        simp [Tree.setCtx]
      refine ⟨k1, ?_, .mk ((hsame n .here).symm.trans he) (hE ▸ hself) (hE ▸ k2)⟩
      intro m hm
      rw [k3 m (fun c hc hu => hm ((InSubtree.deeper (hl.link _ _ hc) .here).trans hu))]
      have hne : m ≠ n := fun h => hm (h ▸ .here)
      simp only [Tree.setCtx, upd_other _ _ hne]

/-- With enough depth, placing succeeds. -/
theorem placeTree_total {boxes : NodeId → Layout} {t0 : Tree} {root body : NodeId} (hw : t0.Wf root body) (d : Nat) :
    ∀ {n : NodeId} {location : Rat × Rat} {opacity : Rat} {clipping : Option Layout} {t : Tree}, t0.next ≤ n + d → SameLinks t0 t →
      (∀ m, InSubtree t0 n m → t.ctx m = t0.ctx m) → (t0.ctx n).isSome → ∃ t', ∀ depth ≥ d + 1, placeTree boxes depth n location opacity clipping t = .ok t' := by
  have hl := linked_of_wf hw
  induction d with
  | zero =>
    intro n location opacity clipping t hnext _ _ hn
    have := hw.exist n hn
    unfold NodeId at *
    omega
  | succ d ih =>
    intro n location opacity clipping t hnext hs hsame hn
    obtain ⟨e, he⟩ := Option.isSome_iff_exists.1 hn
    have het : t.ctx n = some e := (hsame n .here).trans he
    generalize hE : e.placed (absolute boxes n location) opacity clipping = e'
    have loop : ∀ (cs : List NodeId) (t1 : Tree), cs.Nodup → (∀ c ∈ cs, c ∈ t0.kids n) → SameLinks t0 t1 →
        (∀ c ∈ cs, ∀ m, InSubtree t0 c m → t1.ctx m = t0.ctx m) →
        ∃ t2, ∀ depth ≥ d + 1, forEach (fun t c => placeTree boxes depth c (e'.inner (absolute boxes n location) clipping).1 e'.opacity (e'.inner (absolute boxes n location) clipping).2 t) cs t1 = .ok t2 := by
      intro cs
      induction cs with
      | nil => intro t1 _ _ _ _; exact ⟨t1, fun _ _ => rfl⟩
      | cons c cs ihc =>
        intro t1 hnd hmem h1 hs1
        have hcp := hl.link _ _ (hmem c List.mem_cons_self)
        have hlt := hl.older _ _ hcp
        have hcs := (hw.slotsYounger n c (hw.sub n c (hmem c List.mem_cons_self))).2.2
        obtain ⟨t3, h3⟩ := ih (n := c) (location := (e'.inner (absolute boxes n location) clipping).1) (opacity := e'.opacity)
          (clipping := (e'.inner (absolute boxes n location) clipping).2) (by unfold NodeId at *; omega) h1 (hs1 c List.mem_cons_self) hcs
        obtain ⟨g1, g2, -⟩ := placeTree_spec hl (d + 1) h1 (hs1 c List.mem_cons_self) (h3 (d + 1) le_rfl)
        obtain ⟨t2, h2⟩ := ihc t3 (List.nodup_cons.1 hnd).2 (fun c' hc' => hmem c' (List.mem_cons_of_mem _ hc')) g1 (by
          intro c' hc' m hm
          rw [g2 m, hs1 c' (List.mem_cons_of_mem _ hc') m hm]
          intro hm'
          have := InSubtree.siblings hl hcp (hl.link _ _ (hmem c' (List.mem_cons_of_mem _ hc'))) hm' hm
          subst this
          exact (List.nodup_cons.1 hnd).1 hc')
        refine ⟨t2, fun depth hd => ?_⟩
        rw [forEach, h3 depth hd]
        exact h2 depth hd
    obtain ⟨t2, h2⟩ := loop (t0.kids n) (t.setCtx n e') (hl.nodup n) (fun _ h => h) ⟨hs.kids, hs.par, hs.next⟩
      (fun c hc m hm => by
        have h1 := hm.le hl
        have h2 := hl.older _ _ (hl.link _ _ hc)
        have hne : m ≠ n := by unfold NodeId at *; omega
        simp only [Tree.setCtx, upd_other _ _ hne]
        exact hsame m ((InSubtree.deeper (hl.link _ _ hc) .here).trans hm))
    refine ⟨t2, fun depth hd => ?_⟩
    obtain ⟨k, rfl⟩ : ∃ k, depth = k + 1 := ⟨depth - 1, by omega⟩
    rw [placeTree, het]
    simp only
    rw [show ({ boxes n with x := (boxes n).x + location.1, y := (boxes n).y + location.2 } : Layout) = absolute boxes n location from rfl, hE, hs.kids]
    exact h2 k (by omega)

end Verif
