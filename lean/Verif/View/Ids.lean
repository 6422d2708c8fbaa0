import Verif.Spec.Ids
import Verif.View.Pictures
/-!
# Where the table of ids comes from (lemmas for C22)
-/
namespace Verif

variable {p : Platform}

/-- What is known of the id of an element that is being rendered. -/
inductive IdKind where
  | plain (id : Option String)
  | bound

/-- What holds while a document is rendered; `S` are the elements whose content is being rendered. -/
structure Registering (S : NodeId → Option IdKind) (σ : Render) : Prop where
  sound : ∀ x n, σ.staticId x = some n → (∃ e, σ.tree.ctx n = some e ∧ (e.BindsId ∨ e.attrs "id" = some x)) ∨ S n = some (.plain (some x)) ∨ S n = some .bound
  complete : ∀ n e x, σ.tree.ctx n = some e → ¬ e.BindsId → e.attrs "id" = some x → (σ.staticId x).isSome
  pending : ∀ n k, S n = some k → n < σ.tree.next ∧ σ.tree.ctx n = none ∧ ∀ x, k = .plain (some x) → (σ.staticId x).isSome
  fresh : ∀ n, σ.tree.next ≤ n → σ.tree.ctx n = none
  tags : ∀ r ∈ σ.regs, ∀ n, r.2.params = .tag n "id" → (∃ e, σ.tree.ctx n = some e ∧ e.BindsId) ∨ S n = some .bound
  spans : ∀ n e, σ.tree.ctx n = some e → (e.attrsBindings "id").isSome → e.BindsId

theorem Registering.congr {S : NodeId → Option IdKind} {σ σ' : Render} (h : Registering S σ) (hc : σ'.tree.ctx = σ.tree.ctx) (hn : σ'.tree.next = σ.tree.next)
    (hi : σ'.staticId = σ.staticId) (hr : ∀ r ∈ σ'.regs, r ∈ σ.regs ∨ ∀ n, r.2.params ≠ .tag n "id") : Registering S σ' := by
  refine ⟨?_, ?_, ?_, ?_, ?_, ?_⟩
  · rw [hc, hi]; exact h.sound
  · rw [hc, hi]; exact h.complete
  · rw [hc, hn, hi]; exact h.pending
  · rw [hc, hn]; exact h.fresh
  · intro r hr' n hp
    rw [hc]
    rcases hr r hr' with h1 | h1
    · exact h.tags r h1 n hp
    · exact absurd hp (h1 n)
  · rw [hc]; exact h.spans

theorem Registering.field {S : NodeId → Option IdKind} {σ : Render} (h : Registering S σ) (b : Binder) : Registering S (σ.field b).2 :=
  h.congr rfl rfl rfl fun r hr => .inl hr

theorem Registering.register {S : NodeId → Option IdKind} {σ : Render} (h : Registering S σ) {path : String} {b : Binding} (hb : ∀ n, b.params ≠ .tag n "id") :
    Registering S (σ.register path b) := by
  refine h.congr rfl rfl rfl fun r hr => ?_
  rcases List.mem_append.1 hr with hr | hr
  · exact .inl hr
  · simp only [List.mem_singleton] at hr
    subst hr; exact .inr hb

theorem Registering.spans' {S : NodeId → Option IdKind} {σ : Render} (h : Registering S σ) {params : Nat → BindingParams} (hp : ∀ i n, params i ≠ .tag n "id") (st : String → String)
    (ss : List TextSpan) (i : Nat) : Registering S (renderSpans params st ss i σ).2 := by
  obtain ⟨h1, h2, h3, h4, h5⟩ := renderSpans_frame params st ss i σ
  refine h.congr (by rw [h1]) (by rw [h1]) h3 fun r hr => ?_
  rw [h5] at hr
  rcases List.mem_append.1 hr with hr | hr
  · exact .inl hr
  · obtain ⟨j, b, -, rfl⟩ := spanRegs_mem hr
    exact .inr (fun n => hp _ n)

/-- A new node without element, of which nothing is known. -/
theorem Registering.leaf {S : NodeId → Option IdKind} {σ : Render} (h : Registering S σ) :
    Registering (upd S σ.tree.next (some (.plain none))) { σ with tree := σ.tree.newLeaf.2 } := by
  have hS : S σ.tree.next = none := by
    cases hs : S σ.tree.next with
    | none => rfl
    | some k => exact absurd (h.pending _ _ hs).1 (Nat.lt_irrefl _)
  have hne : ∀ n, n ≠ σ.tree.next → upd S σ.tree.next (some (.plain none)) n = S n := fun n hn => upd_other _ _ hn
  refine ⟨?_, h.complete, ?_, ?_, ?_, h.spans⟩
  · intro x n hx
    rcases h.sound x n hx with h1 | h1
    · exact .inl h1
    · refine .inr ?_
      rw [hne n (by rintro rfl; rw [hS] at h1; rcases h1 with h1 | h1 <;> cases h1)]
      exact h1
  · intro n k hk
    by_cases hn : n = σ.tree.next
    · subst hn
      rw [upd_same] at hk; injection hk with hk; subst hk
      exact ⟨Nat.lt_succ_self _, h.fresh _ (Nat.le_refl _), fun x hx => by cases hx⟩
    · rw [hne n hn] at hk
      obtain ⟨h1, h2, h3⟩ := h.pending n k hk
      exact ⟨Nat.lt_succ_of_lt h1, h2, h3⟩
  · intro n hn; exact h.fresh n (Nat.le_of_succ_le hn)
  · intro r hr n hp
    rcases h.tags r hr n hp with h1 | h1
    · exact .inl h1
    · refine .inr ?_
      rw [hne n (by rintro rfl; rw [hS] at h1; cases h1)]; exact h1

/-- What an element that is ready has to do with what is known of it. -/
def IdKind.Fits (k : IdKind) (e : Element) : Prop :=
  ((e.attrsBindings "id").isSome → e.BindsId) ∧
  match k with
  | .bound => e.BindsId
  | .plain id => ¬ e.BindsId ∧ e.attrs "id" = id

theorem IdKind.fits_fresh {e : Element} (h1 : e.hints = {}) (h2 : e.attrs "id" = none) (h3 : e.attrsBindings "id" = none) : (IdKind.plain none).Fits e := by
  refine ⟨fun h => ?_, fun h => ?_, h2⟩
  · rw [h3] at h; cases h
  · unfold Element.BindsId at h; rw [h1] at h; cases h

/-- The element of a node is ready. -/
theorem Registering.ready {S : NodeId → Option IdKind} {σ : Render} {n : NodeId} {k : IdKind} {e : Element} (hS : S n = none)
    (h : Registering (upd S n (some k)) σ) (hk : k.Fits e) : Registering S { σ with tree := σ.tree.setCtx n e } := by
  obtain ⟨hlt, hctx, hsome⟩ := h.pending n k (upd_same _ _ _)
  have hne : ∀ m, m ≠ n → upd S n (some k) m = S m := fun m hm => upd_other _ _ hm
  have hself : (σ.tree.setCtx n e).ctx n = some e := upd_same _ _ _
  have hother : ∀ m, m ≠ n → (σ.tree.setCtx n e).ctx m = σ.tree.ctx m := fun m hm => upd_other _ _ hm
  refine ⟨?_, ?_, ?_, ?_, ?_, ?_⟩
  · intro x m hx
    by_cases hm : m = n
    · subst hm
      refine .inl ⟨e, hself, ?_⟩
      rcases h.sound x m hx with ⟨e0, h0, -⟩ | h1 | h1
      · rw [hctx] at h0; cases h0
      · rw [upd_same] at h1; injection h1 with h1; subst h1; exact .inr hk.2.2
      · rw [upd_same] at h1; injection h1 with h1; subst h1; exact .inl hk.2
    · have := h.sound x m hx
      rw [hne m hm] at this
      rwa [show (σ.tree.setCtx n e).ctx m = σ.tree.ctx m from hother m hm]
  · intro m x' x hm hb ha
    by_cases hmn : m = n
    · subst hmn
      rw [hself] at hm; injection hm with hm; subst hm
      cases k with
      | bound => exact absurd hk.2 hb
      | plain id => exact hsome x (by rw [← ha, hk.2.2])
    · rw [hother m hmn] at hm
      exact h.complete m x' x hm hb ha
  · intro m k' hk'
    have hmn : m ≠ n := by rintro rfl; rw [hS] at hk'; cases hk'
    have := h.pending m k' (by rw [hne m hmn]; exact hk')
    exact ⟨this.1, by rw [hother m hmn]; exact this.2.1, this.2.2⟩
  · intro m hm
    have hmn : m ≠ n := by rintro rfl; exact absurd hlt (Nat.not_lt.2 hm)
    rw [hother m hmn]; exact h.fresh m hm
  · intro r hr m hp
    by_cases hmn : m = n
    · subst hmn
      refine .inl ⟨e, hself, ?_⟩
      rcases h.tags r hr m hp with ⟨e0, h0, -⟩ | h1
      · rw [hctx] at h0; cases h0
      · rw [upd_same] at h1; injection h1 with h1; subst h1; exact hk.2
    · have := h.tags r hr m hp
      rw [hne m hmn] at this
      rwa [show (σ.tree.setCtx n e).ctx m = σ.tree.ctx m from hother m hmn]
  · intro m x hm hs
    by_cases hmn : m = n
    · subst hmn
      rw [hself] at hm; injection hm with hm; subst hm
      exact hk.1 hs
    · rw [hother m hmn] at hm; exact h.spans m x hm hs

/-! ## The bindings of an element -/

/-- A binding that has nothing to do with ids. -/
theorem renderBinding_idless {S : NodeId → Option IdKind} {env : RenderEnv} {node : NodeId} {s : Element × Render} {b : ElementBinding} (hb : b.givesId = false)
    (h : Registering S s.2) {k : IdKind} (hk : k.Fits s.1) : Registering S (renderBinding env node s b).2 ∧ k.Fits (renderBinding env node s b).1 := by
  obtain ⟨e, σ⟩ := s
  have hk : k.Fits e := hk
  have fits : ∀ (e' : Element), (e'.BindsId ↔ e.BindsId) → e'.attrs "id" = e.attrs "id" → e'.attrsBindings "id" = e.attrsBindings "id" → k.Fits e' := by
    intro e' h1 h2 h3
    refine ⟨by rw [h3, h1]; exact hk.1, ?_⟩
    cases k with
    | bound => exact h1.2 hk.2
    | plain id => exact ⟨fun hx => hk.2.1 (h1.1 hx), h2.trans hk.2.2⟩
  cases b with
  | none key value =>
    have hkey : key ≠ "id" := by simpa [ElementBinding.givesId] using hb
    simp only [renderBinding, if_neg hkey]
    refine ⟨h, fits _ ?_ ?_ ?_⟩
    · split <;> exact Iff.rfl
    · split <;> simp [SMap.set_other _ _ (Ne.symm hkey)]
    · split <;> rfl
  | tag key b =>
    have hkey : key ≠ "id" := by simpa [ElementBinding.givesId] using hb
    refine ⟨(h.field b).register (fun n hn => ?_), fits _ ?_ rfl rfl⟩
    · simp only [BindingParams.tag.injEq] at hn; exact hkey hn.2
    · simp only [renderBinding, Element.BindsId, List.mem_append, List.mem_singleton]
      exact ⟨fun h => h.resolve_right (Ne.symm hkey), .inl⟩
  | «attribute» key spans =>
    have hkey : key ≠ "id" := by simpa [ElementBinding.givesId] using hb
    have hs := fun sp => h.spans' (params := fun i => .attribute node key i) (fun i n hn => by cases hn) id sp 0
    have hd : ∀ (a : SMap String) (b : SMap TextContent), k.Fits { e with
        hints := (let hints := { e.hints with dynamicAttrs := e.hints.dynamicAttrs ++ [key] }
                 let hints := if key = "class" then { hints with hasDynamicClasses := true } else hints
                 if key = "id" then { hints with hasDynamicId := true } else hints),
        attrs := e.attrs.set key (a key |>.getD ""), attrsBindings := e.attrsBindings.set key ((b key).getD ⟨[]⟩) } := by
      intro a b
      refine fits _ ?_ (by simp [SMap.set_other _ _ (Ne.symm hkey)]) (by simp [SMap.set_other _ _ (Ne.symm hkey)])
      simp only [if_neg hkey, Element.BindsId]
      split <;> simp only [List.mem_append, List.mem_singleton] <;> exact ⟨fun h => h.resolve_right (Ne.symm hkey), .inl⟩
    have hd' : ∀ (t : TextContent), k.Fits { e with
        hints := (let hints := { e.hints with dynamicAttrs := e.hints.dynamicAttrs ++ [key] }
                 let hints := if key = "class" then { hints with hasDynamicClasses := true } else hints
                 if key = "id" then { hints with hasDynamicId := true } else hints),
        attrs := e.attrs.set key t.toString, attrsBindings := e.attrsBindings.set key t } :=
      fun t => hd (fun _ => some t.toString) (fun _ => some t)
    match spans, hs spans with
    | [.string value], _ => exact ⟨h, fits _ Iff.rfl (by simp [renderBinding, SMap.set_other _ _ (Ne.symm hkey)]) rfl⟩
    | [], h => exact ⟨h, hd' _⟩
    | [.binder b], h => exact ⟨h, hd' _⟩
    | .string a :: b :: l, h => exact ⟨h, hd' _⟩
    | .binder a :: b :: l, h => exact ⟨h, hd' _⟩
  | callback event arguments =>
    obtain ⟨h1, h2, h3, h4⟩ := renderArguments_frame arguments σ
    exact ⟨h.congr (by simp only [renderBinding, h1]) (by simp only [renderBinding, h1]) h3 (by intro r hr; simp only [renderBinding, h4] at hr; exact .inl hr), hk⟩
  | «alias» _ _ => exact ⟨h, hk⟩
  | «repeat» _ _ _ => exact ⟨h, hk⟩
  | visibility _ _ => exact ⟨h, hk⟩

theorem renderBindings_idless {S : NodeId → Option IdKind} {env : RenderEnv} {node : NodeId} (bs : List ElementBinding) {s : Element × Render} (hb : ∀ b ∈ bs, b.givesId = false)
    (h : Registering S s.2) {k : IdKind} (hk : k.Fits s.1) : Registering S (bs.foldl (renderBinding env node) s).2 ∧ k.Fits (bs.foldl (renderBinding env node) s).1 := by
  induction bs generalizing s with
  | nil => exact ⟨h, hk⟩
  | cons b bs ih =>
    obtain ⟨h1, h2⟩ := renderBinding_idless (env := env) (node := node) (hb b (by simp)) h hk
    exact ih (fun b' hb' => hb b' (by simp [hb'])) h1 h2

/-- The element comes to be known as one with a bound id. -/
theorem Registering.bind {S : NodeId → Option IdKind} {σ σ' : Render} {n : NodeId} (h : Registering (upd S n (some (.plain none))) σ) (hc : σ'.tree = σ.tree)
    (hi : σ'.staticId = σ.staticId) (hr : ∀ r ∈ σ'.regs, r ∈ σ.regs ∨ ∀ m, r.2.params = .tag m "id" → m = n) : Registering (upd S n (some .bound)) σ' := by
  have hne : ∀ (k : IdKind) m, m ≠ n → upd S n (some k) m = S m := fun k m hm => upd_other _ _ hm
  refine ⟨?_, ?_, ?_, ?_, ?_, ?_⟩
  · intro x m hx
    rw [hi] at hx; rw [hc]
    by_cases hm : m = n
    · subst hm; exact .inr (.inr (upd_same _ _ _))
    · have := h.sound x m hx
      rw [hne _ m hm] at this ⊢; exact this
  · rw [hc, hi]; exact h.complete
  · intro m k hk
    rw [hc, hi]
    by_cases hm : m = n
    · subst hm
      rw [upd_same] at hk; injection hk with hk; subst hk
      have := h.pending m _ (upd_same _ _ _)
      exact ⟨this.1, this.2.1, fun x hx => by cases hx⟩
    · rw [hne _ m hm] at hk
      exact h.pending m k (by rw [hne _ m hm]; exact hk)
  · rw [hc]; exact h.fresh
  · intro r hr' m hp
    rw [hc]
    by_cases hm : m = n
    · subst hm; exact .inr (upd_same _ _ _)
    · rcases hr r hr' with h1 | h1
      · have := h.tags r h1 m hp
        rw [hne _ m hm] at this ⊢; exact this
      · exact absurd (h1 m hp) hm
  · rw [hc]; exact h.spans

/-- The binding that gives the id. -/
theorem renderBinding_id {S : NodeId → Option IdKind} {env : RenderEnv} {node : NodeId} {s : Element × Render} {b : ElementBinding} (hb : b.givesId = true)
    (hp : ∀ text, b ≠ .attribute "id" [.string text]) (h : Registering (upd S node (some (.plain none))) s.2) (hk : (IdKind.plain none).Fits s.1) :
    ∃ k : IdKind, Registering (upd S node (some k)) (renderBinding env node s b).2 ∧ k.Fits (renderBinding env node s b).1 := by
  obtain ⟨e, σ⟩ := s
  have hk : (IdKind.plain none).Fits e := hk
  have h : Registering (upd S node (some (.plain none))) σ := h
  cases b with
  | none key value =>
    have hkey : key = "id" := by simpa [ElementBinding.givesId] using hb
    subst hkey
    have hne : ∀ (k : IdKind) m, m ≠ node → upd S node (some k) m = S m := fun k m hm => upd_other _ _ hm
    refine ⟨.plain (some value), ?_, ?_⟩
    · simp only [renderBinding, if_pos]
      refine ⟨?_, ?_, ?_, h.fresh, ?_, h.spans⟩
      · intro x m hx
        by_cases hx' : x = value
        · subst hx'
          replace hx : (σ.staticId.set x node) x = some m := hx
          rw [SMap.set_same] at hx
          injection hx with hx; subst hx
          exact .inr (.inl (upd_same _ _ _))
        · replace hx : (σ.staticId.set value node) x = some m := hx
          rw [SMap.set_other _ _ hx'] at hx
          by_cases hm : m = node
          · subst hm
            rcases h.sound x m hx with h1 | h1 | h1
            · exact .inl h1
            · rw [upd_same] at h1; cases h1
            · rw [upd_same] at h1; cases h1
          · have := h.sound x m hx
            rw [hne _ m hm] at this ⊢; exact this
      · intro m x y hm hb ha
        by_cases hy : y = value
        · subst hy; show ((σ.staticId.set y node) y).isSome; rw [SMap.set_same]; rfl
        · show ((σ.staticId.set value node) y).isSome; rw [SMap.set_other _ _ hy]; exact h.complete m x y hm hb ha
      · intro m k hk'
        by_cases hm : m = node
        · subst hm
          rw [upd_same] at hk'; injection hk' with hk'; subst hk'
          have := h.pending m _ (upd_same _ _ _)
          refine ⟨this.1, this.2.1, fun x hx => ?_⟩
          injection hx with hx; injection hx with hx; subst hx
          show ((σ.staticId.set value m) value).isSome; rw [SMap.set_same]; rfl
        · rw [hne _ m hm] at hk'
          obtain ⟨p1, p2, p3⟩ := h.pending m k (by rw [hne _ m hm]; exact hk')
          refine ⟨p1, p2, fun x hx => ?_⟩
          by_cases hxv : x = value
          · subst hxv; show ((σ.staticId.set x node) x).isSome; rw [SMap.set_same]; rfl
          · show ((σ.staticId.set value node) x).isSome; rw [SMap.set_other _ _ hxv]; exact p3 x hx
      · intro r hr m hp
        by_cases hm : m = node
        · subst hm
          rcases h.tags r hr m hp with h1 | h1
          · exact .inl h1
          · rw [upd_same] at h1; cases h1
        · have := h.tags r hr m hp
          rw [hne _ m hm] at this ⊢; exact this
    · refine ⟨hk.1, hk.2.1, ?_⟩
      simp [renderBinding, SMap.set_same]
  | tag key b =>
    have hkey : key = "id" := by simpa [ElementBinding.givesId] using hb
    subst hkey
    refine ⟨.bound, h.bind rfl rfl ?_, ?_, ?_⟩
    · intro r hr
      rcases List.mem_append.1 hr with hr | hr
      · exact .inl hr
      · simp only [List.mem_singleton] at hr
        subst hr
        refine .inr fun m hm => ?_
        simp only [BindingParams.tag.injEq] at hm; exact hm.1.symm
    · intro _; simp [renderBinding, Element.BindsId]
    · simp [renderBinding, Element.BindsId]
  | «attribute» key spans =>
    have hkey : key = "id" := by simpa [ElementBinding.givesId] using hb
    subst hkey
    have hs := fun sp => h.spans' (params := fun i => .attribute node "id" i) (fun i n hn => by cases hn) id sp 0
    have hsb : ∀ sp, Registering (upd S node (some .bound)) (renderSpans (fun i => .attribute node "id" i) id sp 0 σ).2 := fun sp => (hs sp).bind rfl rfl fun r hr => .inl hr
    have hd : ∀ (e' : Element), e'.BindsId → IdKind.bound.Fits e' := fun e' h => ⟨fun _ => h, h⟩
    match spans, hsb spans with
    | [.string value], _ => exact absurd rfl (hp value)
    | [], h => exact ⟨.bound, h, hd _ (by simp [renderBinding, Element.BindsId])⟩
    | [.binder b], h => exact ⟨.bound, h, hd _ (by simp [renderBinding, Element.BindsId])⟩
    | .string a :: b :: l, h => exact ⟨.bound, h, hd _ (by simp [renderBinding, Element.BindsId])⟩
    | .binder a :: b :: l, h => exact ⟨.bound, h, hd _ (by simp [renderBinding, Element.BindsId])⟩
  | _ => simp [ElementBinding.givesId] at hb

theorem renderBindings_id {S : NodeId → Option IdKind} {env : RenderEnv} {node : NodeId} (bs : List ElementBinding) {s : Element × Render}
    (hb : (bs.filter (·.givesId)).length ≤ 1) (hp : ∀ text, .attribute "id" [.string text] ∉ bs)
    (h : Registering (upd S node (some (.plain none))) s.2) (hk : (IdKind.plain none).Fits s.1) :
    ∃ k : IdKind, Registering (upd S node (some k)) (bs.foldl (renderBinding env node) s).2 ∧ k.Fits (bs.foldl (renderBinding env node) s).1 := by
  induction bs generalizing s with
  | nil => exact ⟨_, h, hk⟩
  | cons b bs ih =>
    cases hg : b.givesId with
    | false =>
      obtain ⟨h1, h2⟩ := renderBinding_idless (env := env) (node := node) hg h hk
      exact ih (by simpa [List.filter_cons, hg] using hb) (fun t ht => hp t (by simp [ht])) h1 h2
    | true =>
      obtain ⟨k, h1, h2⟩ := renderBinding_id (env := env) hg (fun t ht => hp t (by simp [ht])) h hk
      refine ⟨k, renderBindings_idless bs ?_ h1 h2⟩
      intro b' hb'
      cases hg' : b'.givesId with
      | false => rfl
      | true =>
        exfalso
        rw [List.filter_cons, if_pos (by exact hg)] at hb
        have : 0 < (bs.filter (·.givesId)).length := List.length_pos_of_mem (List.mem_filter.2 ⟨hb', hg'⟩)
        simp only [List.length_cons] at hb
        omega

/-! ## Rendering -/

/-- What rendering a node does. -/
def RecIds (Q : Html → Prop) (rec : RenderFn) : Prop :=
  ∀ S h σ n σ', Q h → rec h σ = .ok (n, σ') → Registering S σ → Registering S σ'

theorem renderSlots_ids {Q : Html → Prop} {rec : RenderFn} (hrec : RecIds Q rec) {child : Html} (hQ : Q child) {name : String} {b : Binder} {S : NodeId → Option IdKind}
    (ns : List Nat) : ∀ (cs : List NodeId) (σ : Render) {cs' σ'}, renderSlots rec name b child ns cs σ = .ok (cs', σ') → Registering S σ → Registering S σ' := by
  induction ns with
  | nil => intro cs σ cs' σ' h hc; simp only [renderSlots, Except.ok.injEq, Prod.mk.injEq] at h; rw [← h.2]; exact hc
  | cons n ns ih =>
    intro cs σ cs' σ' h hc
    simp only [renderSlots] at h
    split at h
    · cases h
    · rename_i c σ1 he
      exact ih _ _ h (hrec S _ _ _ _ hQ he (hc.congr rfl rfl rfl fun r hr => .inl hr))

theorem renderBody_ids {Q : Html → Prop} {rec : RenderFn} (hrec : RecIds Q rec) {child : Html} (hQ : Q child) {node : NodeId} {S : NodeId → Option IdKind} (cs : List NodeId)
    (σ : Render) {cs' σ'} (h : renderBody rec node child cs σ = .ok (cs', σ')) (hc : Registering S σ) : Registering S σ' := by
  unfold renderBody at h
  split at h
  · simp only at h
    split at h
    · cases h
    · rename_i c σ1 he
      simp only [Except.ok.injEq, Prod.mk.injEq] at h
      obtain ⟨-, rfl⟩ := h
      exact Registering.register (hrec S _ _ _ _ hQ he (hc.field _)) (fun n hn => by cases hn)
  · split at h
    · simp only at h
      split at h
      · cases h
      · rename_i cs1 σ1 he
        simp only [Except.ok.injEq, Prod.mk.injEq] at h
        obtain ⟨-, rfl⟩ := h
        have h1 := renderSlots_ids hrec hQ (S := S) _ _ _ he
          ((Registering.register (hc.field _) (fun n hn => by cases hn)).congr rfl rfl rfl fun r hr => .inl hr)
        exact h1.congr rfl rfl rfl fun r hr => .inl hr
    · split at h
      · cases h
      · rename_i c σ1 he
        simp only [Except.ok.injEq, Prod.mk.injEq] at h
        obtain ⟨-, rfl⟩ := h
        exact hrec S _ _ _ _ hQ he hc

/-- The bindings of an element as far as ids go. -/
def IdBindings (bs : List ElementBinding) : Prop := (bs.filter (·.givesId)).length ≤ 1 ∧ ∀ text, .attribute "id" [.string text] ∉ bs

/-- A node that may be rendered. -/
def IdNode (env : RenderEnv) (h : Html) : Prop := IdBindings h.bindings ∧ EveryNode env Html.OneId h

theorem resolve_ids {env : RenderEnv} {c c' : Html} (hr : resolveChild env c = .ok c') (hc : c.OneId)
    (ht : ∀ id t, env.templates id = some t → t.OneId) : IdBindings c'.bindings := by
  unfold resolveChild at hr
  split at hr
  · rename_i id bs hl
    split at hr
    · cases hr
    · rename_i t htt
      injection hr with hr; subst hr
      have h1 := hc.links id bs hl
      have h2 := ht id t htt
      refine ⟨?_, fun text hm => ?_⟩
      · show ((bs ++ t.bindings).filter (·.givesId)).length ≤ 1
        rw [List.filter_append, List.filter_eq_nil_iff.2 (fun b hb => by rw [h1 b hb]; decide)]
        exact h2.once
      · rcases List.mem_append.1 hm with hm | hm
        · exact absurd (h1 _ hm) (by simp [ElementBinding.givesId])
        · exact h2.proper text hm
  · injection hr with hr; subst hr; exact ⟨hc.once, hc.proper⟩

theorem renderChild_ids {env : RenderEnv} {rec : RenderFn} (hrec : RecIds (IdNode env) rec) {h child : Html} (hmem : child ∈ h.children)
    (hE : EveryNode env Html.OneId h) {node : NodeId} {S : NodeId → Option IdKind} (cs : List NodeId) (σ : Render) {cs' σ'}
    (hok : renderChild env rec node child cs σ = .ok (cs', σ')) (hc : Registering S σ) : Registering S σ' := by
  unfold renderChild at hok
  split at hok
  · cases hok
  · rename_i c hcr
    simp only at hok
    split at hok
    · cases hok
    · rename_i cs1 σ1 he
      simp only [Except.ok.injEq, Prod.mk.injEq] at hok
      obtain ⟨-, rfl⟩ := hok
      have hQ : IdNode env c := ⟨resolve_ids hcr (hE.1 _ (.child hmem)) (fun id t ht => (hE.2 id t ht).1), resolve_below hmem hcr hE⟩
      obtain ⟨a1, a2, a3⟩ := renderAliases_frame c.bindings (fun _ => none) σ
      have := renderBody_ids hrec hQ (S := S) cs _ he (hc.congr (by rw [a1]) (by rw [a1]) a3 (by intro r hr; rw [a2] at hr; exact .inl hr))
      exact this.congr rfl rfl rfl fun r hr => .inl hr

theorem renderChildren_ids {env : RenderEnv} {rec : RenderFn} (hrec : RecIds (IdNode env) rec) {h : Html}
    (hE : EveryNode env Html.OneId h) {node : NodeId} {S : NodeId → Option IdKind} (l : List Html) (hl : ∀ c ∈ l, c ∈ h.children) :
    ∀ (cs : List NodeId) (σ : Render) {cs' σ'}, renderChildren env rec node l cs σ = .ok (cs', σ') → Registering S σ → Registering S σ' := by
  induction l with
  | nil => intro cs σ cs' σ' hok hc; simp only [renderChildren, Except.ok.injEq, Prod.mk.injEq] at hok; rw [← hok.2]; exact hc
  | cons c l ih =>
    intro cs σ cs' σ' hok hc
    simp only [renderChildren] at hok
    split at hok
    · cases hok
    · rename_i cs1 σ1 he
      exact ih (fun d hd => hl d (by simp [hd])) cs1 σ1 hok (renderChild_ids hrec (hl c (by simp)) hE cs σ he hc)

theorem Registering.unknown {S : NodeId → Option IdKind} {σ : Render} (h : Registering S σ) : S σ.tree.next = none := by
  cases hs : S σ.tree.next with
  | none => rfl
  | some k => exact absurd (h.pending _ _ hs).1 (Nat.lt_irrefl _)

theorem setChildren_next {t t' : Tree} {p : NodeId} {cs : List NodeId} (h : t.setChildren p cs = .ok t') : t'.next = t.next := by
  unfold Tree.setChildren at h
  split at h
  · cases h
  · simp only [Except.ok.injEq] at h
    subst h
    have aux : ∀ (l : List NodeId) (t : Tree), (l.foldl (Tree.adopt p) t).next = t.next := by
      intro l
      induction l with
      | nil => intro t; rfl
      | cons c l ih => intro t; rw [List.foldl_cons, ih]; rfl
    exact aux _ _

theorem renderNode_ids (env : RenderEnv) (fuel : Nat) : RecIds (IdNode env) (renderNode env fuel) := by
  induction fuel with
  | zero => intro S h σ n σ' _ hok; simp [renderNode] at hok
  | succ fuel ih =>
    intro S h σ n σ' hE hok hc
    have hS := hc.unknown
    have hleaf := hc.leaf
    simp only [renderNode] at hok
    split at hok
    · rename_i spans ht
      simp only [Except.ok.injEq] at hok
      have e2 : (renderText env spans σ).2 = σ' := by rw [hok]
      rw [← e2]
      have hs := hleaf.spans' (params := fun i => .text σ.tree.newLeaf.1 i) (fun i n hn => by cases hn) env.translate spans 0
      refine Registering.ready hS hs (IdKind.fits_fresh rfl rfl rfl)
    · unfold renderElement at hok
      simp only at hok
      obtain ⟨k, hs1, hs2⟩ := renderBindings_id (env := env) (S := S) (node := σ.tree.newLeaf.1) h.bindings
        (s := ({ node := σ.tree.newLeaf.1, tag := h.tag }, { σ with tree := σ.tree.newLeaf.2 })) hE.1.1 hE.1.2 hleaf (IdKind.fits_fresh rfl rfl rfl)
      generalize h.bindings.foldl (renderBinding env σ.tree.newLeaf.1)
        ({ node := σ.tree.newLeaf.1, tag := h.tag }, { σ with tree := σ.tree.newLeaf.2 }) = s at hs1 hs2 hok
      split at hok
      · cases hok
      · rename_i cs σ1 he
        split at hok
        · cases hok
        · rename_i t he2
          simp only [Except.ok.injEq, Prod.mk.injEq] at hok
          obtain ⟨-, rfl⟩ := hok
          have h1 : Registering (upd S σ.tree.newLeaf.1 (some k)) σ1 := by
            unfold renderContent at he
            split at he
            · simp only [Except.ok.injEq, Prod.mk.injEq] at he
              obtain ⟨-, rfl⟩ := he
              exact Registering.ready hs1.unknown hs1.leaf (IdKind.fits_fresh rfl rfl rfl)
            · split at he
              · simp only [Except.ok.injEq, Prod.mk.injEq] at he
                obtain ⟨-, rfl⟩ := he
                exact hs1
              · exact renderChildren_ids ih hE.2 h.children (fun _ => id) [] s.2 he hs1
          have h2 := Registering.ready (e := { s.1 with children := cs }) hS h1 hs2
          exact h2.congr (setChildren_ctx he2) (setChildren_next he2) rfl fun r hr => .inl hr

theorem renderView_ids {env : RenderEnv} {fuel : Nat} {h : Html} {root body : NodeId} {σ : Render} (hE : IdNode env h)
    (hok : renderView env fuel h = .ok (root, body, σ)) : Registering (fun _ => none) σ := by
  unfold renderView at hok
  simp only at hok
  split at hok
  · cases hok
  · rename_i b σ1 he
    split at hok
    · cases hok
    · rename_i t ht
      simp only [Except.ok.injEq, Prod.mk.injEq] at hok
      obtain ⟨-, -, rfl⟩ := hok
      have h0 : Registering (fun _ => none) ({} : Render) :=
        ⟨(by intro x n h; cases h), (by intro n e x h; cases h), (by intro n k h; cases h), (by intro n _; rfl), (by intro r hr; cases hr), (by intro n e h; cases h)⟩
      have h1 := Registering.ready (e := { node := 0 }) h0.unknown h0.leaf (IdKind.fits_fresh rfl rfl rfl)
      have h2 := renderNode_ids env fuel _ _ _ _ _ hE he h1
      unfold Tree.addChild at ht
      split at ht
      · simp only [Except.ok.injEq] at ht; subst ht; exact h2.congr rfl rfl rfl fun r hr => .inl hr
      · cases ht

/-! ## Runs -/

/-- What holds of the ids of a view. -/
structure IdsKept (t : Tree) (identified : SMap NodeId) : Prop where
  sound : ∀ x n, identified x = some n → ∃ e, t.ctx n = some e ∧ (e.BindsId ∨ e.attrs "id" = some x)
  complete : ∀ n e x, t.ctx n = some e → ¬ e.BindsId → e.attrs "id" = some x → (identified x).isSome
  spans : ∀ n e, t.ctx n = some e → (e.attrsBindings "id").isSome → e.BindsId

theorem IdsKept.related {R : Element → Element → Prop} {t t' : Tree} {identified : SMap NodeId} (h : IdsKept t identified) (hr : CtxRel R t t')
    (hR : ∀ e e', R e e' → e'.hints = e.hints ∧ e'.attrs = e.attrs ∧ e'.attrsBindings = e.attrsBindings) : IdsKept t' identified := by
  refine ⟨fun x n hx => ?_, fun n e x he hb ha => ?_, fun n e he hs => ?_⟩
  · obtain ⟨e, he, h1⟩ := h.sound x n hx
    obtain ⟨e', he', hr'⟩ := hr.there n e he
    obtain ⟨r1, r2, r3⟩ := hR _ _ hr'
    refine ⟨e', he', ?_⟩
    unfold Element.BindsId; rw [r1, r2]; exact h1
  · obtain ⟨e0, h0, hr'⟩ := hr.back he
    obtain ⟨r1, r2, r3⟩ := hR _ _ hr'
    unfold Element.BindsId at hb
    rw [r1] at hb; rw [r2] at ha
    exact h.complete n e0 x h0 hb ha
  · obtain ⟨e0, h0, hr'⟩ := hr.back he
    obtain ⟨r1, r2, r3⟩ := hR _ _ hr'
    unfold Element.BindsId; rw [r1]
    rw [r3] at hs
    exact h.spans n e0 h0 hs

theorem updateTree_idsKept {inline} {s s' : Stage} {root body : NodeId} (hw : s.tree.Wf root body) {r : Reaction} (hr : ReactionOk s.tree root body r)
    (hu : updateTree inline s r = .ok s') (ht : ∀ n b, r = .tag n "id" b → ∃ e, s.tree.ctx n = some e ∧ e.BindsId) (h : IdsKept s.tree s.identified) :
    IdsKept s'.tree s'.identified := by
  have hreb := updateTree_rebound hw hr hu
  have hhints : ∀ n e e', s.tree.ctx n = some e → s'.tree.ctx n = some e' → e'.hints = e.hints := by
    intro n e e' he he'
    obtain ⟨e1, h1, h2⟩ := hreb.there n e he
    rw [he'] at h1; injection h1 with h1; subst h1
    rw [h2]
  -- the id attribute of an element without bound id stays
  have hattr : ∀ n e e', s.tree.ctx n = some e → s'.tree.ctx n = some e' → ¬ e.BindsId → e'.attrs "id" = e.attrs "id" := by
    intro n e e' he he' hb
    obtain ⟨e1, h1, -, -, ha, -⟩ := updateTree_elem hw hr hu he
    rw [he'] at h1; injection h1 with h1; subst h1
    rw [ha]
    cases r with
    | bind m k i x =>
      by_cases hm : m = n
      · subst hm
        by_cases hk : "id" = k
        · exfalso
          subst hk
          obtain ⟨-, em, hem, hatt⟩ := hr
          rw [he] at hem; injection hem with hem; subst hem
          exact hb (h.spans m e he hatt)
        · simp [attrStep, hk]
      · simp [attrStep, hm]
    | tag m k v =>
      by_cases hm : m = n
      · subst hm
        by_cases hk : "id" = k
        · exfalso
          subst hk
          obtain ⟨e2, h2, h3⟩ := ht m v rfl
          rw [he] at h2; injection h2 with h2; subst h2
          exact hb h3
        · cases v <;> simp [attrStep, SMap.set_other _ _ hk, SMap.del_other _ hk]
      · simp [attrStep, hm]
    | _ => rfl
  have hbinds : ∀ n e e', s.tree.ctx n = some e → s'.tree.ctx n = some e' → (e'.BindsId ↔ e.BindsId) := by
    intro n e e' he he'
    unfold Element.BindsId; rw [hhints n e e' he he']
  have hid := updateTree_identified hw hr hu
  refine ⟨fun x n hx => ?_, fun n e' x he' hb ha => ?_, fun n e' he' hs => ?_⟩
  · have old : s.identified x = some n → ∃ e, s'.tree.ctx n = some e ∧ (e.BindsId ∨ e.attrs "id" = some x) := by
      intro hx
      obtain ⟨e, he, h1⟩ := h.sound x n hx
      obtain ⟨e', he', -⟩ := hreb.there n e he
      refine ⟨e', he', ?_⟩
      by_cases hb : e.BindsId
      · exact .inl ((hbinds n e e' he he').2 hb)
      · exact .inr ((hattr n e e' he he' hb).trans (h1.resolve_left hb))
    rcases hid with ⟨m, i, y, e, att, rfl, hm, hatt, hid⟩ | ⟨-, hid⟩
    · rw [hid] at hx
      by_cases hxy : x = (att.set i y).toString
      · subst hxy
        rw [SMap.set_same] at hx; injection hx with hx; subst hx
        obtain ⟨e', he', -⟩ := hreb.there m e hm
        exact ⟨e', he', .inl ((hbinds m e e' hm he').2 (h.spans m e hm (by rw [hatt]; rfl)))⟩
      · rw [SMap.set_other _ _ hxy] at hx
        exact old hx
    · rw [hid] at hx; exact old hx
  · obtain ⟨e, he, -⟩ := hreb.back he'
    have hb' : ¬ e.BindsId := fun hx => hb ((hbinds n e e' he he').2 hx)
    have := h.complete n e x he hb' ((hattr n e e' he he' hb').symm.trans ha)
    rcases hid with ⟨m, i, y, e, att, rfl, hm, hatt, hid⟩ | ⟨-, hid⟩
    · rw [hid]
      by_cases hxy : x = (att.set i y).toString
      · subst hxy; rw [SMap.set_same]; rfl
      · rw [SMap.set_other _ _ hxy]; exact this
    · rw [hid]; exact this
  · obtain ⟨e, he, -⟩ := hreb.back he'
    obtain ⟨e1, h1, -, hbs, -⟩ := updateTree_elem hw hr hu he
    rw [he'] at h1; injection h1 with h1; subst h1
    refine (hbinds n e e' he he').2 (h.spans n e he ?_)
    rw [hbs] at hs
    cases r with
    | bind m k i x =>
      by_cases hm : m = n
      · by_cases hk : "id" = k
        · subst hk; simpa [bindStep, hm] using hs
        · simpa [bindStep, hm, hk] using hs
      · simpa [bindStep, hm] using hs
    | _ => exact hs

theorem updateTrees_idsKept {inline} {root body : NodeId} (rs : List Reaction) {s s' : Stage} (hw : s.tree.Wf root body) (hrs : ∀ r ∈ rs, ReactionOk s.tree root body r)
    (hu : updateTrees inline s rs = .ok s') (ht : ∀ r ∈ rs, ∀ n b, r = .tag n "id" b → ∃ e, s.tree.ctx n = some e ∧ e.BindsId) (h : IdsKept s.tree s.identified) :
    IdsKept s'.tree s'.identified := by
  induction rs generalizing s with
  | nil => simp only [updateTrees, Except.ok.injEq] at hu; subst hu; exact h
  | cons r rs ih =>
    simp only [updateTrees, bind, Except.bind] at hu
    split at hu
    · cases hu
    · rename_i s1 h1
      obtain ⟨s1', a1, a2, a3⟩ := C16_tree_stays_tree (inline := inline) s [r] hw (by simpa using hrs r (by simp))
      simp only [updateTrees, bind, Except.bind, h1, Except.ok.injEq] at a1
      subst a1
      refine ih a2 (fun x hx => a3 x (hrs x (by simp [hx]))) hu ?_ (updateTree_idsKept hw (hrs r (by simp)) h1 (ht r (by simp)) h)
      intro x hx n b hxe
      obtain ⟨e, he, hb⟩ := ht x (by simp [hx]) n b hxe
      obtain ⟨e', he', hre⟩ := (updateTree_rebound hw (hrs r (by simp)) h1).there n e he
      exact ⟨e', he', by unfold Element.BindsId; rw [hre]; exact hb⟩

/-- Bindings of the tag `id` are of elements that know of it. -/
def View.TagsKnown (v : View) : Prop := ∀ path b, b ∈ v.vm.bindings path → ∀ n, b.params = .tag n "id" → ∃ e, v.stage.tree.ctx n = some e ∧ e.BindsId

/-- What holds of the ids of a program. -/
structure IdsOk (p : Platform) (fuel : Nat) (document : Html) (a : App) : Prop where
  living : Living p fuel document a
  tags : a.screen.view.TagsKnown
  kept : IdsKept a.screen.view.stage.tree a.screen.view.stage.identified

theorem IdsOk.opened {fuel : Nat} {document : Html} {css : Css} {a : App} (hd : OneIdDocument p document) (h : openApp p fuel document css = .ok a) :
    IdsOk p fuel document a := by
  obtain ⟨σ, ho⟩ := openApp_opened h
  have hv := renderView_ok ho.rendered
  have hreg := renderView_ids (env := docEnv p.translate p.inline document) ⟨⟨hd.1.once, hd.1.proper⟩, hd.2⟩ ho.rendered
  have hreb := updateTrees_rebound (inline := p.inline) _ (s := ⟨σ.tree, σ.staticId⟩) hv.wf (defaultReactions_ok ho.rendered) ho.stage
  have hk : IdsKept σ.tree σ.staticId :=
    ⟨fun x n hx => (hreg.sound x n hx).resolve_right (by rintro (h | h) <;> cases h), hreg.complete, hreg.spans⟩
  refine ⟨Living.opened h, ?_, ?_⟩
  · have hview := ho.view
    unfold openView at hview
    rw [collect_doc] at hview
    have hren : renderView ⟨templateFor document.children, p.translate, p.inline⟩ fuel (docBody document) = .ok (a.screen.view.root, a.screen.view.body, σ) := ho.rendered
    simp only [hren] at hview
    have hbs : ∀ path b, b ∈ a.screen.view.vm.bindings path → (path, b) ∈ σ.regs := by
      split at hview
      · cases hview
      · rename_i vm hvm
        split at hview
        · cases hview
        · injection hview with hview
          rw [← hview]
          intro path b hb
          refine mem_lookupRegs.1 ?_
          unfold ViewModel.create at hvm
          rw [Option.map_eq_some_iff] at hvm
          obtain ⟨d, -, rfl⟩ := hvm
          exact hb
    intro path b hb n hn
    obtain ⟨e, he, hbi⟩ := (hreg.tags _ (hbs path b hb) n hn).resolve_right (by intro h; cases h)
    obtain ⟨e', he', hre⟩ := hreb.there n e he
    exact ⟨e', he', by unfold Element.BindsId; rw [hre]; exact hbi⟩
  · refine updateTrees_idsKept (inline := p.inline) _ (s := ⟨σ.tree, σ.staticId⟩) hv.wf (defaultReactions_ok ho.rendered) ho.stage ?_ hk
    intro r hr n b hb
    exfalso
    unfold defaultReactions at hr
    rw [List.mem_filterMap] at hr
    obtain ⟨x, -, hx⟩ := hr
    split at hx
    · injection hx with hx; rw [← hx] at hb; cases hb
    · cases hx

theorem Living.ids {fuel : Nat} {document : Html} {a : App} (hl : Living p fuel document a) {value : Json} {v : View}
    (hu : a.screen.view.update p.inline value = .ok v) (ht : a.screen.view.TagsKnown) (hk : IdsKept a.screen.view.stage.tree a.screen.view.stage.identified) :
    IdsKept v.stage.tree v.stage.identified ∧ v.TagsKnown := by
  have hreb := hl.rebound hu
  obtain ⟨v0, hr, h⟩ := (session_ok hl.session).twin
  obtain ⟨regs, hg⟩ := reached_good hr
  unfold View.update at hu
  cases hb : a.screen.view.vm.bind value with
  | none => rw [hb] at hu; simp at hu
  | some q =>
    obtain ⟨vm, rs⟩ := q
    rw [hb] at hu
    simp only at hu
    have hbb := (bind_bindings hb).1
    rw [h.vm] at hb
    obtain ⟨stage, a1, a2, a3, a4⟩ := viewGood_update (inline := p.inline) hg value hb
    obtain ⟨stage1, b1, b2, b3⟩ := updateTrees_form rs h.tree h.identified a1
    rw [b1] at hu
    simp only [Except.ok.injEq] at hu
    subst hu
    refine ⟨updateTrees_idsKept rs (h.tree.wf hg.wf) (fun r hr => h.tree.reactionOk (a4 r hr)) b1 ?_ hk, fun path b hb n hn => ?_⟩
    · intro r hr n y hy
      obtain ⟨rg, c1, x, rfl⟩ := bind_reactions hb hg.bindings hr
      refine ht rg.1 rg.2 ?_ n (react_tag hy).1
      rw [h.vm, hg.bindings]
      exact mem_lookupRegs.2 c1
    · obtain ⟨e, he, hbi⟩ := ht path b (hbb ▸ hb) n hn
      obtain ⟨e', he', hre⟩ := hreb.there n e he
      exact ⟨e', he', by unfold Element.BindsId; rw [hre]; exact hbi⟩

theorem IdsOk.updated {fuel fuel' : Nat} {document : Html} {a a' : App} (h : IdsOk p fuel document a) {order : FrameOrder} {input : Input} {value : Json} {out : Output}
    (hu : a.update p fuel' order input value = .ok (a', out)) : IdsOk p fuel document a' := by
  have hl := h.living.updated hu
  obtain ⟨v, styled, tree, t', ui, g1, g2, g3, g4, g5⟩ := update_parts hu
  obtain ⟨k1, k2⟩ := h.living.ids g1 h.tags h.kept
  have wf := (h.living.bound g1).1
  have hst : Restyled v.stage.tree styled.tree := styleView_restyled (s := ⟨v.stage.tree, _⟩) wf g2
  have hpl : Restyled styled.tree tree := placeTree_restyled _ g3
  have hso := handleOutput_states (session_ok h.living.session) g1 (hst.trans hpl) g4
  have hsty := SameStyled.related_trans (placeTree_styled _ g3) (stateOnly_styled hso)
  have hrel : CtxRel (fun e e' : Element => e'.hints = e.hints ∧ e'.attrs = e.attrs ∧ e'.attrsBindings = e.attrsBindings) v.stage.tree t' := by
    refine CtxRel.trans (fun _ _ _ h g => ?_) hst.ctxRel hsty.ctxRel
    have g' := g
    unfold SameStyled at g'
    refine ⟨?_, ?_, ?_⟩
    · rw [g']; exact h.1.hints
    · rw [g']; exact h.1.attrs
    · rw [g']; exact h.1.attrsBindings
  subst g5
  refine ⟨hl, ?_, k1.related hrel fun _ _ h => h⟩
  intro path b hb n hn
  obtain ⟨e, he, hbi⟩ := k2 path b hb n hn
  obtain ⟨e', he', h1, -⟩ := hrel.there n e he
  exact ⟨e', he', by unfold Element.BindsId; rw [h1]; exact hbi⟩

theorem idsOk_run {fuel fuel' : Nat} {document : Html} (fs : List Frame) {a a' : App} {outs : List Output} (h : IdsOk p fuel document a)
    (hr : a.run p fuel' fs = .ok (a', outs)) : IdsOk p fuel document a' := by
  induction fs generalizing a outs with
  | nil => simp only [App.run, Except.ok.injEq, Prod.mk.injEq] at hr; obtain ⟨rfl, -⟩ := hr; exact h
  | cons f fs ih =>
    obtain ⟨a1, out, rest, h1, h2, -⟩ := run_cons hr
    exact ih (h.updated h1) h2

end Verif
