import Verif.View.RenderView
/-!
# Bindings of a rendered view do not interfere (lemmas for C18-C20)

Every text span has at most one binding, every conditional child has exactly one visibility binding and
lies in no repeated block.
-/
namespace Verif

def Binding.textKey (b : Binding) : Option (NodeId × Nat) :=
  match b.params with
  | .text n i => some (n, i)
  | _ => none

def Binding.visKey (b : Binding) : Option NodeId :=
  match b.params with
  | .visibility _ c _ => some c
  | _ => none

/-- The template children of a node while the children of `node` are being collected. -/
def childrenOf (node : Option NodeId) (children : List NodeId) (t : Tree) (p : NodeId) : List NodeId :=
  if node = some p then children else
  match t.ctx p with
  | some e => e.children
  | none => []

/-- Some bindings of the nodes `lo..hi` that do not interfere. -/
structure Seg (ch : NodeId → List NodeId) (lo hi : Nat) (bs : List Binding) : Prop where
  textNodup : (bs.filterMap Binding.textKey).Nodup
  textRange : ∀ n i, (n, i) ∈ bs.filterMap Binding.textKey → lo ≤ n ∧ n < hi
  visNodup : (bs.filterMap Binding.visKey).Nodup
  visRange : ∀ c ∈ bs.filterMap Binding.visKey, lo ≤ c ∧ c < hi
  apart : ∀ b1 ∈ bs, ∀ b2 ∈ bs, ∀ p c v s k, b1.params = .visibility p c v → b2.params = .repeat p s k →
    ∃ i : Nat, (ch p)[i]? = some c ∧ (i < s ∨ s + k ≤ i)

theorem Seg.nil (ch lo hi) : Seg ch lo hi [] := ⟨by simp, by simp, by simp, by simp, by simp⟩

theorem Seg.append {ch lo mid hi a b} (h1 : Seg ch lo mid a) (h2 : Seg ch mid hi b) (l1 : lo ≤ mid)
    (l2 : mid ≤ hi)
    (hx : ∀ b1 ∈ a, ∀ b2 ∈ b, ∀ p c v s k, b1.params = .visibility p c v → b2.params = .repeat p s k →
      ∃ i : Nat, (ch p)[i]? = some c ∧ (i < s ∨ s + k ≤ i))
    (hy : ∀ b1 ∈ b, ∀ b2 ∈ a, ∀ p c v s k, b1.params = .visibility p c v → b2.params = .repeat p s k →
      ∃ i : Nat, (ch p)[i]? = some c ∧ (i < s ∨ s + k ≤ i)) : Seg ch lo hi (a ++ b) where
  textNodup := by
    rw [List.filterMap_append, List.nodup_append]
    refine ⟨h1.textNodup, h2.textNodup, ?_⟩
    rintro ⟨n, i⟩ hx y hy rfl
    have := (h1.textRange n i hx).2
    have := (h2.textRange n i hy).1
    unfold NodeId at *; omega
  textRange := by
    intro n i hm
    rw [List.filterMap_append, List.mem_append] at hm
    rcases hm with hm | hm
    · have := h1.textRange n i hm; unfold NodeId at *; omega
    · have := h2.textRange n i hm; unfold NodeId at *; omega
  visNodup := by
    rw [List.filterMap_append, List.nodup_append]
    refine ⟨h1.visNodup, h2.visNodup, ?_⟩
    rintro c hx y hy rfl
    have := (h1.visRange c hx).2
    have := (h2.visRange c hy).1
    unfold NodeId at *; omega
  visRange := by
    intro c hm
    rw [List.filterMap_append, List.mem_append] at hm
    rcases hm with hm | hm
    · have := h1.visRange c hm; unfold NodeId at *; omega
    · have := h2.visRange c hm; unfold NodeId at *; omega
  apart := by
    intro b1 hb1 b2 hb2
    rw [List.mem_append] at hb1 hb2
    rcases hb1 with hb1 | hb1 <;> rcases hb2 with hb2 | hb2
    · exact h1.apart b1 hb1 b2 hb2
    · exact hx b1 hb1 b2 hb2
    · exact hy b1 hb1 b2 hb2
    · exact h2.apart b1 hb1 b2 hb2

/-- Positions of known children do not change. -/
theorem Seg.mono {ch ch' lo hi hi' bs} (h : Seg ch lo hi bs) (l : hi ≤ hi')
    (hc : ∀ p, (∃ b1 ∈ bs, ∃ c v, b1.params = .visibility p c v) → ∀ (i : Nat) c, (ch p)[i]? = some c →
      (ch' p)[i]? = some c) : Seg ch' lo hi' bs where
  textNodup := h.textNodup
  textRange n i hm := ⟨(h.textRange n i hm).1, Nat.lt_of_lt_of_le (h.textRange n i hm).2 l⟩
  visNodup := h.visNodup
  visRange c hm := ⟨(h.visRange c hm).1, Nat.lt_of_lt_of_le (h.visRange c hm).2 l⟩
  apart := by
    intro b1 hb1 b2 hb2 p c v s k e1 e2
    obtain ⟨i, i1, i2⟩ := h.apart b1 hb1 b2 hb2 p c v s k e1 e2
    exact ⟨i, hc p ⟨b1, hb1, c, v, e1⟩ i c i1, i2⟩

theorem Seg.lower {ch lo lo' hi bs} (h : Seg ch lo hi bs) (l : lo' ≤ lo) : Seg ch lo' hi bs where
  textNodup := h.textNodup
  textRange n i hm := ⟨Nat.le_trans l (h.textRange n i hm).1, (h.textRange n i hm).2⟩
  visNodup := h.visNodup
  visRange c hm := ⟨Nat.le_trans l (h.visRange c hm).1, (h.visRange c hm).2⟩
  apart := h.apart

/-- Rendering a node, with no interference. -/
def Grew2 (σ σ' : Render) : Prop :=
  ∀ added, σ'.regs = σ.regs ++ added →
    Seg (childrenOf none [] σ'.tree) σ.tree.next σ'.tree.next (added.map Prod.snd)

/-- Rendering the children of `node`, with no interference. -/
def Loop2 (node : NodeId) (σ0 : Render) (children : List NodeId) (σ : Render) : Prop :=
  ∀ added, σ.regs = σ0.regs ++ added →
    Seg (childrenOf (some node) children σ.tree) σ0.tree.next σ.tree.next (added.map Prod.snd)

def RecOk2 (rec : RenderFn) : Prop :=
  ∀ h σ n σ', σ.tree.Clean → rec h σ = .ok (n, σ') → Grew2 σ σ'

theorem append_left_eq {α} {a b c : List α} (h : a ++ b = a ++ c) : b = c := List.append_cancel_left h

theorem Loop2.other {node σ0 children σ} (h : Loop2 node σ0 children σ) {σ' : Render}
    (ht : σ'.tree = σ.tree) (hr : σ'.regs = σ.regs) : Loop2 node σ0 children σ' := by
  intro added ha
  rw [ht]; rw [hr] at ha; exact h added ha

theorem getElem?_append_some {α} {l : List α} {i : Nat} {c : α} (h : l[i]? = some c) (x : List α) :
    (l ++ x)[i]? = some c := by
  have := (List.getElem?_eq_some_iff.1 h).1
  rw [List.getElem?_append_left this]; exact h

/-- A node of a segment that is still in progress: the node under construction, or an allocated one. -/
theorem Loop.nodes {node σ0 children k σ} (h : Loop node σ0 children k σ) {added}
    (ha : σ.regs = σ0.regs ++ added) {b : Binding} (hb : b ∈ added.map Prod.snd) :
    (b.node = node ∧ Pending node children k b) ∨ (Fine σ0.tree.next σ.tree b) := by
  obtain ⟨-, added', e, hr⟩ := h
  have : added = added' := append_left_eq (ha.symm.trans e)
  subst this
  obtain ⟨r, hr1, rfl⟩ := List.mem_map.1 hb
  rcases hr r hr1 with x | x
  · exact .inr x
  · left
    refine ⟨?_, x⟩
    unfold Pending at x
    unfold Binding.node
    cases hp : r.2.params <;> simp only [hp] at x ⊢
    · exact x.1
    · exact x.1

theorem vis_node {b : Binding} {p c v} (h : b.params = .visibility p c v) : b.node = p := by
  simp [Binding.node, h]
theorem rep_node {b : Binding} {p s k} (h : b.params = .repeat p s k) : b.node = p := by
  simp [Binding.node, h]

theorem Loop2.child {node σ0 children k σ σ' n} (h2 : Loop2 node σ0 children σ)
    (h : Loop node σ0 children k σ) (hnode : node < σ0.tree.next) (g : Grew σ σ' n) (g2 : Grew2 σ σ') :
    Loop2 node σ0 (children ++ [n]) σ' := by
  intro added ha
  obtain ⟨-, hf, a2, ea2, hfine⟩ := g
  obtain ⟨hF, a1, ea1, -⟩ := id h
  have e : added = a1 ++ a2 := by
    rw [ea2, ea1, List.append_assoc] at ha
    exact (append_left_eq ha).symm
  subst e
  rw [List.map_append]
  have s1 := h2 a1 ea1
  have s2 := g2 a2 ea2
  have hnodes := fun b hb => h.nodes ea1 (b := b) hb
  have hfine' : ∀ b ∈ a2.map Prod.snd, σ.tree.next ≤ b.node ∧ b.node < σ'.tree.next := by
    intro b hb
    obtain ⟨r, hr1, rfl⟩ := List.mem_map.1 hb
    exact (hfine r hr1).2
  have hle : σ0.tree.next ≤ σ.tree.next := hF.le
  have s1' : Seg (childrenOf (some node) (children ++ [n]) σ'.tree) σ0.tree.next σ.tree.next
      (a1.map Prod.snd) := by
    refine s1.mono (Nat.le_refl _) ?_
    rintro p ⟨b1, hb1, c, v, e1⟩ i c' hi
    have := hnodes b1 hb1
    rw [vis_node e1] at this
    unfold childrenOf at hi ⊢
    by_cases hp : node = p
    · simp only [hp, if_true] at hi ⊢; exact getElem?_append_some hi _
    · rw [if_neg (by simpa using hp)] at hi ⊢
      rcases this with ⟨h0, -⟩ | hfi
      · exact absurd h0.symm hp
      · have : p < σ.tree.next := by have := hfi.2.2; rwa [vis_node e1] at this
        rw [(hf.old p this).1]; exact hi
  have s2' : Seg (childrenOf (some node) (children ++ [n]) σ'.tree) σ.tree.next σ'.tree.next
      (a2.map Prod.snd) := by
    refine s2.mono (Nat.le_refl _) ?_
    rintro p ⟨b1, hb1, c, v, e1⟩ i c' hi
    have hp := (hfine' b1 hb1).1
    rw [vis_node e1] at hp
    unfold childrenOf at hi ⊢
    rw [if_neg (by simp)] at hi
    rw [if_neg]
    · exact hi
    · intro hh; injection hh with hh; unfold NodeId at *; omega
  have sep : ∀ b1 ∈ a1.map Prod.snd, ∀ b2 ∈ a2.map Prod.snd, b1.node ≠ b2.node := by
    intro b1 hb1 b2 hb2 he
    have := (hfine' b2 hb2).1
    rcases hnodes b1 hb1 with ⟨h0, -⟩ | hfi
    · unfold NodeId at *; omega
    · have := hfi.2.2; unfold NodeId at *; omega
  refine s1'.append s2' hle hf.le ?_ ?_
  · intro b1 hb1 b2 hb2 p c v s k e1 e2
    exact absurd ((vis_node e1).trans (rep_node e2).symm) (sep b1 hb1 b2 hb2)
  · intro b1 hb1 b2 hb2 p c v s k e1 e2
    exact absurd ((rep_node e2).trans (vis_node e1).symm) (sep b2 hb2 b1 hb1)

/-- A repeat binding for the block that starts here. -/
theorem Loop2.registerRepeat {node σ0 children σ} (h2 : Loop2 node σ0 children σ)
    (h : Loop node σ0 children children.length σ) {path : String} {k : Nat} {pipe : List String}
    (hnode : node < σ0.tree.next) :
    Loop2 node σ0 children (σ.register path ⟨.repeat node children.length k, pipe⟩) := by
  intro added ha
  obtain ⟨hF, a1, ea1, -⟩ := id h
  have e : added = a1 ++ [(path, ⟨.repeat node children.length k, pipe⟩)] := by
    simp only [Render.register] at ha
    rw [ea1, List.append_assoc] at ha
    exact (append_left_eq ha).symm
  subst e
  rw [List.map_append]
  have s1 := h2 a1 ea1
  refine s1.append (mid := σ.tree.next) ⟨?_, ?_, ?_, ?_, ?_⟩ hF.le (Nat.le_refl _) ?_ ?_
  · simp [List.filterMap_cons, Binding.textKey]
  · simp [List.filterMap_cons, Binding.textKey]
  · simp [List.filterMap_cons, Binding.visKey]
  · simp [List.filterMap_cons, Binding.visKey]
  · intro b1 hb1 b2 hb2 p c v s k e1 e2
    simp at hb1; subst hb1; simp at e1
  · intro b1 hb1 b2 hb2 p c v s k' e1 e2
    simp at hb2; subst hb2
    simp only [BindingParams.repeat.injEq] at e2
    obtain ⟨rfl, rfl, rfl⟩ := e2
    rcases h.nodes ea1 hb1 with ⟨h0, hpend⟩ | hfi
    · unfold Pending at hpend
      simp only [e1] at hpend
      obtain ⟨i, hi⟩ := List.mem_iff_getElem?.1 hpend.2
      refine ⟨i, by simpa [childrenOf, Render.register] using hi, .inl (List.getElem?_eq_some_iff.1 hi).1⟩
    · have := hfi.2.1; rw [vis_node e1] at this; unfold NodeId at *; omega
  · intro b1 hb1 b2 hb2 p c v s k' e1 e2
    simp at hb1; subst hb1; simp at e1

/-- The visibility binding of the child just rendered. -/
theorem Loop2.registerVis {node σ0 children σ n} (h2 : Loop2 node σ0 (children ++ [n]) σ)
    (h : Loop node σ0 (children ++ [n]) children.length σ) {path : String} {v : Bool}
    {pipe : List String} (hnode : node < σ0.tree.next)
    (hfresh : ∀ added, σ.regs = σ0.regs ++ added → n ∉ (added.map Prod.snd).filterMap Binding.visKey) :
    Loop2 node σ0 (children ++ [n]) (σ.register path ⟨.visibility node n v, pipe⟩) := by
  intro added ha
  obtain ⟨hF, a1, ea1, -⟩ := id h
  have e : added = a1 ++ [(path, ⟨.visibility node n v, pipe⟩)] := by
    simp only [Render.register] at ha
    rw [ea1, List.append_assoc] at ha
    exact (append_left_eq ha).symm
  subst e
  have hfr := hfresh a1 ea1
  have htop := hF.top n (by simp)
  rw [List.map_append]
  have s1 := h2 a1 ea1
  have ht : ([(path, (⟨.visibility node n v, pipe⟩ : Binding))].map Prod.snd).filterMap Binding.textKey = [] := rfl
  constructor
  · rw [List.filterMap_append, ht, List.append_nil]; exact s1.textNodup
  · rw [List.filterMap_append, ht, List.append_nil]; exact s1.textRange
  · rw [List.filterMap_append, List.nodup_append]
    refine ⟨s1.visNodup, by simp [List.filterMap_cons, Binding.visKey], ?_⟩
    intro x hx y hy e
    simp [List.filterMap_cons, Binding.visKey] at hy
    subst hy; subst e; exact hfr hx
  · intro c hc
    rw [List.filterMap_append, List.mem_append] at hc
    rcases hc with hc | hc
    · exact s1.visRange c hc
    · simp [List.filterMap_cons, Binding.visKey] at hc; subst hc; exact ⟨htop.1, htop.2.1⟩
  · intro b1 hb1 b2 hb2 p c v' s k e1 e2
    rw [List.mem_append] at hb1 hb2
    have hb2' : b2 ∈ a1.map Prod.snd := by
      rcases hb2 with hb2 | hb2
      · exact hb2
      · simp at hb2; subst hb2; simp at e2
    rcases hb1 with hb1 | hb1
    · exact s1.apart b1 hb1 b2 hb2' p c v' s k e1 e2
    · simp at hb1; subst hb1
      simp only [BindingParams.visibility.injEq] at e1
      obtain ⟨rfl, rfl, rfl⟩ := e1
      refine ⟨children.length, by simp [childrenOf], ?_⟩
      rcases h.nodes ea1 hb2' with ⟨h0, hpend⟩ | hfi
      · unfold Pending at hpend
        simp only [e2] at hpend
        exact .inr hpend.2
      · have := hfi.2.1; rw [rep_node e2] at this; unfold NodeId at *; omega

theorem renderSlots_loop2 {rec : RenderFn} (hrec : RecOk rec) (hrec2 : RecOk2 rec) {name binder child node σ0}
    {bound : Nat} (hnode : node < σ0.tree.next)
    (ns : List Nat) (children : List NodeId) (σ : Render) (h : Loop node σ0 children bound σ)
    (h2 : Loop2 node σ0 children σ) {cs σ'}
    (hok : renderSlots rec name binder child ns children σ = .ok (cs, σ')) : Loop2 node σ0 cs σ' := by
  induction ns generalizing children σ with
  | nil =>
    simp only [renderSlots, Except.ok.injEq, Prod.mk.injEq] at hok
    obtain ⟨rfl, rfl⟩ := hok; exact h2
  | cons n ns ih =>
    simp only [renderSlots] at hok
    have h1 : Loop node σ0 children bound
        { (σ.index binder n).2 with locals := (σ.index binder n).2.locals.set name (σ.index binder n).1 } :=
      h.other rfl rfl
    have h12 : Loop2 node σ0 children
        { (σ.index binder n).2 with locals := (σ.index binder n).2.locals.set name (σ.index binder n).1 } :=
      h2.other rfl rfl
    have hg := hrec child _ h1.forest.clean
    split at hok
    · simp at hok
    · rename_i c σ1 he
      rw [he] at hg
      exact ih (children ++ [c]) σ1 (h1.child hg)
        (h12.child h1 hnode hg (hrec2 _ _ _ _ h1.forest.clean he)) hok

theorem renderBody_loop2 {rec : RenderFn} (hrec : RecOk rec) (hrec2 : RecOk2 rec) {child node σ0}
    (hnode : node < σ0.tree.next) (children : List NodeId)
    (σ : Render) (h : Loop node σ0 children children.length σ) (h2 : Loop2 node σ0 children σ) {cs σ'}
    (hok : renderBody rec node child children σ = .ok (cs, σ')) : Loop2 node σ0 cs σ' := by
  unfold renderBody at hok
  split at hok
  · rename_i visible binder _
    have h1 : Loop node σ0 children children.length (σ.field binder).2 := h.other rfl rfl
    have h12 : Loop2 node σ0 children (σ.field binder).2 := h2.other rfl rfl
    have hg := hrec child _ h1.forest.clean
    simp only at hok
    split at hok
    · simp at hok
    · rename_i c σ1 he
      rw [he] at hg
      simp only [Except.ok.injEq, Prod.mk.injEq] at hok
      obtain ⟨rfl, rfl⟩ := hok
      have hg2 := hrec2 _ _ _ _ h1.forest.clean he
      refine (h12.child h1 hnode hg hg2).registerVis (h1.child hg) hnode ?_
      intro added ha hm
      obtain ⟨a1, ea1, -⟩ := h1.regs
      obtain ⟨htop, hf, a2, ea2, hfine⟩ := id hg
      have e : added = a1 ++ a2 := by
        rw [ea2, ea1, List.append_assoc] at ha
        exact (append_left_eq ha).symm
      subst e
      rw [List.map_append, List.filterMap_append, List.mem_append] at hm
      rcases hm with hm | hm
      · have := ((h12 a1 ea1).visRange c hm).2
        rw [htop] at this
        exact absurd this (Nat.lt_irrefl _)
      · -- a visibility child inside the new subtree has a parent, the top has none
        rw [List.mem_filterMap] at hm
        obtain ⟨b, hb, hkey⟩ := hm
        obtain ⟨r, hr1, rfl⟩ := List.mem_map.1 hb
        obtain ⟨f1, f2, f3⟩ := hfine r hr1
        unfold Binding.visKey at hkey
        cases hp : r.2.params <;> simp only [hp] at hkey <;> try simp at hkey
        rename_i p c' v
        subst hkey
        unfold BindOk at f1
        simp only [hp] at f1
        obtain ⟨e, e1, e2, -⟩ := f1
        rw [vis_node hp] at f2 f3
        obtain ⟨e', e1', -, e3, -, e5, -⟩ := hf.node p f2 f3
        rw [e1] at e1'; injection e1' with e1'; subst e1'
        rw [← e3] at e2
        have := (e5 _ e2).2.2
        rw [(hf.top _ (by simp)).2.2] at this
        simp at this
  · split at hok
    · rename_i name count binder _
      simp only at hok
      have h1' : Loop node σ0 children children.length (σ.field binder).2 := h.other rfl rfl
      have h12' : Loop2 node σ0 children (σ.field binder).2 := h2.other rfl rfl
      have h1 : Loop node σ0 children (children.length + count)
          ((σ.field binder).2.register (σ.field binder).1 ⟨.repeat node children.length count, binder.pipe⟩) := by
        apply Loop.register
        · exact Loop.mono (k := children.length) (h.other rfl rfl) (by omega)
        · simp [Pending]
      have h12 := h12'.registerRepeat h1' (path := (σ.field binder).1) (k := count) (pipe := binder.pipe) hnode
      split at hok
      · simp at hok
      · rename_i cs1 σ1 he
        simp only [Except.ok.injEq, Prod.mk.injEq] at hok
        obtain ⟨rfl, rfl⟩ := hok
        have h3 := renderSlots_loop2 hrec hrec2 (name := name) (binder := binder) (child := child) hnode
          (List.range count) children
          { ((σ.field binder).2.register (σ.field binder).1 ⟨.repeat node children.length count, binder.pipe⟩) with
            locals := (((σ.field binder).2.register (σ.field binder).1
              ⟨.repeat node children.length count, binder.pipe⟩)).locals.del name }
          (h1.other rfl rfl) (h12.other rfl rfl) he
        exact h3.other rfl rfl
    · have hg := hrec child _ h.forest.clean
      split at hok
      · simp at hok
      · rename_i c σ1 he
        rw [he] at hg
        simp only [Except.ok.injEq, Prod.mk.injEq] at hok
        obtain ⟨rfl, rfl⟩ := hok
        exact h2.child h hnode hg (hrec2 _ _ _ _ h.forest.clean he)

theorem renderChild_loop2 {env : RenderEnv} {rec : RenderFn} (hrec : RecOk rec) (hrec2 : RecOk2 rec)
    {child node σ0} (hnode : node < σ0.tree.next)
    (children : List NodeId) (σ : Render) (h : Loop node σ0 children children.length σ)
    (h2 : Loop2 node σ0 children σ) {cs σ'}
    (hok : renderChild env rec node child children σ = .ok (cs, σ')) : Loop2 node σ0 cs σ' := by
  unfold renderChild at hok
  split at hok
  · simp at hok
  · rename_i child' he
    simp only at hok
    obtain ⟨a1, a2, -⟩ := renderAliases_frame child'.bindings (fun _ => none) σ
    split at hok
    · simp at hok
    · rename_i cs1 σ1 he
      simp only [Except.ok.injEq, Prod.mk.injEq] at hok
      obtain ⟨rfl, rfl⟩ := hok
      exact (renderBody_loop2 hrec hrec2 hnode children _ (h.other a1 a2) (h2.other a1 a2) he).other rfl rfl

theorem renderChildren_loop2 {env : RenderEnv} {rec : RenderFn} (hrec : RecOk rec) (hrec2 : RecOk2 rec)
    {node σ0} (hnode : node < σ0.tree.next)
    (hs : List Html) (children : List NodeId) (σ : Render) (h : Loop node σ0 children children.length σ)
    (h2 : Loop2 node σ0 children σ) {cs σ'}
    (hok : renderChildren env rec node hs children σ = .ok (cs, σ')) : Loop2 node σ0 cs σ' := by
  induction hs generalizing children σ with
  | nil =>
    simp only [renderChildren, Except.ok.injEq, Prod.mk.injEq] at hok
    obtain ⟨rfl, rfl⟩ := hok; exact h2
  | cons c hs ih =>
    simp only [renderChildren] at hok
    have h1 := renderChild_loop (env := env) hrec (child := c) children σ h
    split at hok
    · simp at hok
    · rename_i cs1 σ1 he
      rw [he] at h1
      exact ih cs1 σ1 h1 (renderChild_loop2 hrec hrec2 hnode children σ h h2 he) hok

theorem spanRegs_textKeys (node : NodeId) (locals : SMap String) (ss : List TextSpan) (i : Nat) :
    (((spanRegs (fun i => .text node i) locals ss i).map Prod.snd).filterMap Binding.textKey).Nodup ∧
    ∀ n j, (n, j) ∈ ((spanRegs (fun i => .text node i) locals ss i).map Prod.snd).filterMap Binding.textKey →
      n = node ∧ i ≤ j := by
  induction ss generalizing i with
  | nil => simp [spanRegs]
  | cons s ss ih =>
    obtain ⟨h1, h2⟩ := ih (i + 1)
    cases s with
    | string s =>
      exact ⟨h1, fun n j hm => ⟨(h2 n j hm).1, by have := (h2 n j hm).2; omega⟩⟩
    | binder b =>
      simp only [spanRegs, List.map_cons, List.filterMap_cons, Binding.textKey]
      refine ⟨List.nodup_cons.2 ⟨?_, h1⟩, ?_⟩
      · intro hm
        have := (h2 node i hm).2
        omega
      · intro n j hm
        rcases List.mem_cons.1 hm with hm | hm
        · simp only [Prod.mk.injEq] at hm; exact ⟨hm.1, Nat.le_of_eq hm.2.symm⟩
        · exact ⟨(h2 n j hm).1, by have := (h2 n j hm).2; omega⟩

theorem renderText_grew2 (env : RenderEnv) (spans : List TextSpan) (σ : Render) :
    Grew2 σ (renderText env spans σ).2 := by
  intro added ha
  have h := renderSpans_frame (fun i => .text σ.tree.newLeaf.1 i) env.translate spans 0
    { σ with tree := σ.tree.newLeaf.2 }
  obtain ⟨h1, h2, h3, h4, h5⟩ := h
  have hadd : added = spanRegs (fun i => .text σ.tree.newLeaf.1 i) σ.locals spans 0 := by
    simp only [renderText] at ha
    rw [h5] at ha
    exact (append_left_eq ha).symm
  subst hadd
  obtain ⟨k1, k2⟩ := spanRegs_textKeys σ.tree.newLeaf.1 σ.locals spans 0
  have hvis : ((spanRegs (fun i => .text σ.tree.newLeaf.1 i) σ.locals spans 0).map Prod.snd).filterMap
      Binding.visKey = [] := by
    rw [List.filterMap_eq_nil_iff]
    intro b hb
    obtain ⟨r, hr, rfl⟩ := List.mem_map.1 hb
    obtain ⟨j, b, -, rfl⟩ := spanRegs_mem hr
    rfl
  refine ⟨k1, ?_, by simp [hvis], by simp [hvis], ?_⟩
  · intro n i hm
    have := (k2 n i hm).1
    subst this
    simp only [renderText, h1]
    exact ⟨Nat.le_refl _, Nat.lt_succ_self _⟩
  · intro b1 hb1 b2 hb2 p c v s k e1 e2
    obtain ⟨r, hr, rfl⟩ := List.mem_map.1 hb1
    obtain ⟨j, b, -, rfl⟩ := spanRegs_mem hr
    simp at e1

theorem renderElement_grew2 {env : RenderEnv} {rec : RenderFn} (hrec : RecOk rec) (hrec2 : RecOk2 rec)
    (h : Html) (σ : Render) {n σ'} (hc : σ.tree.Clean) (hok : renderElement env rec h σ = .ok (n, σ')) :
    Grew2 σ σ' := by
  unfold renderElement at hok
  simp only at hok
  have hb := renderBindings_step env σ.tree.newLeaf.1 h.bindings
    ({ node := σ.tree.newLeaf.1, tag := h.tag }, { σ with tree := σ.tree.newLeaf.2 })
  generalize h.bindings.foldl (renderBinding env σ.tree.newLeaf.1)
    ({ node := σ.tree.newLeaf.1, tag := h.tag }, { σ with tree := σ.tree.newLeaf.2 }) = s at hb hok
  have ht : s.2.tree = σ.tree.newLeaf.2 := hb.tree
  have hclean : s.2.tree.Clean := by rw [ht]; exact clean_newLeaf hc
  have hl := renderContent_loop (env := env) hrec (node := σ.tree.newLeaf.1) (e := s.1) h.children s.2 hclean
  have hnode : σ.tree.newLeaf.1 < s.2.tree.next := by rw [ht]; exact Nat.lt_succ_self _
  split at hok
  · simp at hok
  · rename_i cs σ1 he
    rw [he] at hl
    have hl2 : Loop2 σ.tree.newLeaf.1 s.2 cs σ1 := by
      unfold renderContent at he
      have h0 : Loop σ.tree.newLeaf.1 s.2 [] 0 s.2 := ⟨.refl hclean, [], by simp, by simp⟩
      have h02 : Loop2 σ.tree.newLeaf.1 s.2 [] s.2 := by
        intro added ha
        have : added = [] := by simpa using ha
        subst this; exact Seg.nil _ _ _
      split at he
      · simp only [Except.ok.injEq, Prod.mk.injEq] at he
        obtain ⟨rfl, rfl⟩ := he
        intro added ha
        have : added = [] := by simpa [renderBgImage] using ha
        subst this; exact Seg.nil _ _ _
      · split at he
        · simp only [Except.ok.injEq, Prod.mk.injEq] at he
          obtain ⟨rfl, rfl⟩ := he
          exact h02
        · exact renderChildren_loop2 hrec hrec2 hnode h.children [] s.2 h0 h02 he
    obtain ⟨⟨hf, added, he2, hadd⟩, himg⟩ := hl
    rw [ht] at hf
    obtain ⟨t2, hokt⟩ := close_ok (e := { s.1 with children := cs }) hc hf
    have hok' : (σ1.tree.setCtx σ.tree.newLeaf.1 { s.1 with children := cs }).setChildren
        σ.tree.newLeaf.1 cs = .ok t2 := hokt
    rw [hok'] at hok
    simp only [Except.ok.injEq, Prod.mk.injEq] at hok
    obtain ⟨rfl, rfl⟩ := hok
    obtain ⟨hF, hctx, hnext, hother⟩ := forest_close (e := s.1) hc hf (by rw [hb.sameNode]; rfl)
      (fun hi => (himg hi).1) hokt
    obtain ⟨own, eown, hown⟩ := hb.regs
    intro all hall
    have e : all = own ++ added := by
      simp only at hall
      rw [he2, eown, List.append_assoc] at hall
      exact (append_left_eq hall).symm
    subst e
    rw [List.map_append]
    have hownText : (own.map Prod.snd).filterMap Binding.textKey = [] := by
      rw [List.filterMap_eq_nil_iff]
      intro b hb
      obtain ⟨r, hr, rfl⟩ := List.mem_map.1 hb
      have := hown r hr
      unfold OwnBinding at this
      unfold Binding.textKey
      cases hp : r.2.params <;> simp only [hp] at this ⊢
    have hownVis : (own.map Prod.snd).filterMap Binding.visKey = [] := by
      rw [List.filterMap_eq_nil_iff]
      intro b hb
      obtain ⟨r, hr, rfl⟩ := List.mem_map.1 hb
      have := hown r hr
      unfold OwnBinding at this
      unfold Binding.visKey
      cases hp : r.2.params <;> simp only [hp] at this ⊢
    have hownP : ∀ b ∈ own.map Prod.snd, (∀ p c v, b.params ≠ .visibility p c v) ∧
        (∀ p s k, b.params ≠ .repeat p s k) := by
      intro b hb
      obtain ⟨r, hr, rfl⟩ := List.mem_map.1 hb
      have := hown r hr
      unfold OwnBinding at this
      cases hp : r.2.params <;> simp only [hp] at this <;> simp
    have s2 := hl2 added he2
    simp only at *
    refine Seg.append (mid := σ.tree.next + 1) ⟨by simp [hownText], by simp [hownText], by simp [hownVis],
      by simp [hownVis], ?_⟩ ?_ (Nat.le_succ _) ?_ ?_ ?_
    · intro b1 hb1 b2 _ p c v s k e1
      exact absurd e1 ((hownP b1 hb1).1 p c v)
    · have s2' := s2
      rw [ht] at s2'
      refine s2'.mono (by rw [hnext]; exact Nat.le_refl _) ?_
      rintro p ⟨b1, hb1, c, v, e1⟩ i c' hi
      unfold childrenOf at hi ⊢
      rw [if_neg (by simp)]
      by_cases hp : p = σ.tree.next
      · subst hp
        rw [hctx]
        simpa [Tree.newLeaf] using hi
      · rw [if_neg (by simpa [Tree.newLeaf] using Ne.symm hp)] at hi
        rw [(hother p hp).1]
        exact hi
    · rw [hnext]; exact hf.le
    · intro b1 hb1 b2 _ p c v s k e1
      exact absurd e1 ((hownP b1 hb1).1 p c v)
    · intro b1 _ b2 hb2 p c v s k _ e2
      exact absurd e2 ((hownP b2 hb2).2 p s k)

theorem renderNode_grew2 (env : RenderEnv) (fuel : Nat) : RecOk2 (renderNode env fuel) := by
  induction fuel with
  | zero => intro h σ n σ' _ hok; simp [renderNode] at hok
  | succ fuel ih =>
    intro h σ n σ' hc hok
    simp only [renderNode] at hok
    split at hok
    · rename_i spans _
      simp only [Except.ok.injEq] at hok
      have := renderText_grew2 env spans σ
      rw [hok] at this; exact this
    · exact renderElement_grew2 (renderNode_grew env fuel) ih h σ hc hok

/-- The bindings of a view do not interfere. -/
structure ViewUnique (σ : Render) (root body : NodeId) : Prop where
  text : ((σ.regs.map Prod.snd).filterMap Binding.textKey).Nodup
  vis : ((σ.regs.map Prod.snd).filterMap Binding.visKey).Nodup
  apart : ∀ r1 ∈ σ.regs, ∀ r2 ∈ σ.regs, ∀ p c v s k, r1.2.params = .visibility p c v →
    r2.2.params = .repeat p s k → ∃ i : Nat, (σ.tree.slots root body p)[i]? = some c ∧ (i < s ∨ s + k ≤ i)

theorem renderView_unique {env : RenderEnv} {fuel : Nat} {h : Html} {root body : NodeId} {σ : Render}
    (hok : renderView env fuel h = .ok (root, body, σ)) : ViewUnique σ root body := by
  have hv := renderView_ok hok
  unfold renderView at hok
  simp only at hok
  generalize hσ0 : ({ tree := (Tree.setCtx Tree.empty.newLeaf.2 Tree.empty.newLeaf.1 { node := Tree.empty.newLeaf.1 }) } : Render) = σ0 at hok
  have hc0 : σ0.tree.Clean := by
    subst hσ0
    intro m hm
    refine ⟨?_, rfl, rfl⟩
    exact upd_other _ _ (Nat.ne_of_gt hm)
  have hr0 : σ0.regs = [] := by subst hσ0; rfl
  split at hok
  · simp at hok
  · rename_i b σ1 he
    have hg := renderNode_grew2 env fuel _ _ _ _ hc0 he σ1.regs (by simp [hr0])
    split at hok
    · simp at hok
    · rename_i t ht
      simp only [Except.ok.injEq, Prod.mk.injEq] at hok
      obtain ⟨rfl, rfl, rfl⟩ := hok
      have hctx : t.ctx = σ1.tree.ctx := by
        unfold Tree.addChild at ht
        split at ht
        · injection ht with ht; rw [← ht]
        · simp at ht
      refine ⟨hg.textNodup, hg.visNodup, ?_⟩
      intro r1 h1 r2 h2 p c v s k e1 e2
      obtain ⟨i, i1, i2⟩ := hg.apart r1.2 (List.mem_map.2 ⟨r1, h1, rfl⟩) r2.2 (List.mem_map.2 ⟨r2, h2, rfl⟩)
        p c v s k e1 e2
      refine ⟨i, ?_, i2⟩
      have hp := (hv.bindings r1 h1).2
      rw [vis_node e1] at hp
      unfold childrenOf at i1
      rw [if_neg (by simp)] at i1
      unfold Tree.slots
      rw [if_neg hp]
      simp only [hctx]
      exact i1

end Verif
