import Verif.View.Effects
/-!
# Every applicable reaction succeeds and keeps the tree well formed
-/
namespace Verif

/-- What reactions never change of an element: its template children, its tag, the number of spans of
its text and of its bound attributes. -/
def Element.defs (e : Element) : List NodeId × String × Option Nat × (String → Option Nat) :=
  (e.children, e.tag, e.text.map (·.spans.length), fun k => (e.attrsBindings k).map (·.spans.length))

/-- Two trees with the same nodes and the same unchanging parts. -/
structure SameDefs (t t' : Tree) : Prop where
  next : t'.next = t.next
  defs : ∀ n, (t'.ctx n).map Element.defs = (t.ctx n).map Element.defs

theorem SameDefs.refl (t : Tree) : SameDefs t t := ⟨rfl, fun _ => rfl⟩
theorem SameDefs.trans {a b c : Tree} (h1 : SameDefs a b) (h2 : SameDefs b c) : SameDefs a c :=
  ⟨h2.next.trans h1.next, fun n => (h2.defs n).trans (h1.defs n)⟩
theorem SameDefs.symm {a b : Tree} (h : SameDefs a b) : SameDefs b a :=
  ⟨h.next.symm, fun n => (h.defs n).symm⟩

theorem SameDefs.ctx {t t' : Tree} (h : SameDefs t t') {n : NodeId} {e : Element} (he : t.ctx n = some e) :
    ∃ e', t'.ctx n = some e' ∧ e'.children = e.children ∧ e'.tag = e.tag ∧
      e'.text.map (·.spans.length) = e.text.map (·.spans.length) ∧
      ∀ k, (e'.attrsBindings k).map (·.spans.length) = (e.attrsBindings k).map (·.spans.length) := by
  have := h.defs n
  rw [he] at this
  cases hc : t'.ctx n with
  | none => simp [hc] at this
  | some e' =>
    simp only [hc, Option.map_some, Option.some.injEq, Element.defs, Prod.mk.injEq] at this
    exact ⟨e', rfl, this.1, this.2.1, this.2.2.1, fun k => congrFun this.2.2.2 k⟩

theorem SameDefs.isSome {t t' : Tree} (h : SameDefs t t') (n : NodeId) :
    (t'.ctx n).isSome = (t.ctx n).isSome := by
  have := congrArg Option.isSome (h.defs n); simpa using this

theorem SameDefs.slots {t t' : Tree} (h : SameDefs t t') (root body p : NodeId) :
    t'.slots root body p = t.slots root body p := by
  unfold Tree.slots
  split
  · rfl
  · cases hc : t.ctx p with
    | some e => obtain ⟨e', he', hch, -⟩ := h.ctx hc; simp [he', hch]
    | none =>
      have := h.isSome p
      simp [hc] at this
      simp [this]

theorem option_isSome_map {α β γ} {a : Option α} {b : Option β} {f : α → γ} {g : β → γ}
    (h : a.map f = b.map g) : a.isSome = b.isSome := by
  have := congrArg Option.isSome h; simpa using this

theorem SameDefs.reactionOk {t t' : Tree} (h : SameDefs t t') {root body : NodeId} {r : Reaction}
    (hr : ReactionOk t root body r) : ReactionOk t' root body r := by
  cases r with
  | type n s x =>
    obtain ⟨e, he, ht⟩ := hr
    obtain ⟨e', he', -, -, htx, -⟩ := h.ctx he
    exact ⟨e', he', by rw [option_isSome_map htx]; exact ht⟩
  | reattach p n v =>
    obtain ⟨h1, h2, h3⟩ := hr
    refine ⟨h1, by rw [h.slots]; exact h2, ?_⟩
    intro e' he'
    obtain ⟨e, he, -, htag, -⟩ := h.symm.ctx he'
    rw [← htag]; exact h3 e he
  | «repeat» p i k j =>
    obtain ⟨h1, h2, h3, h4, e, he, htag⟩ := hr
    obtain ⟨e', he', -, htag', -⟩ := h.ctx he
    exact ⟨h1, h2, h3, by rw [h.slots]; exact h4, e', he', by rw [htag']; exact htag⟩
  | tag n k b => simp only [ReactionOk] at *; rw [h.isSome]; exact hr
  | bind n k s x =>
    obtain ⟨h1, e, he, ha⟩ := hr
    obtain ⟨e', he', -, -, -, hab⟩ := h.ctx he
    exact ⟨h1, e', he', by rw [option_isSome_map (hab k)]; exact ha⟩

/-- Changing elements without touching the links. -/
theorem wf_ctx {t t' : Tree} {root body : NodeId} (h : t.Wf root body) (hs : SameDefs t t')
    (hk : t'.kids = t.kids) (hp : t'.par = t.par) : t'.Wf root body := by
  constructor
  · rw [hk, hp]; exact h.link
  · rw [hk]; exact h.nodup
  · rw [hk]; intro p c; rw [hs.slots]; exact h.sub p c
  · intro p; rw [hs.slots]; exact h.slotsNodup p
  · intro p c; rw [hs.slots, hs.next, hs.isSome]; exact h.slotsYounger p c
  · intro p q c; rw [hs.slots, hs.slots]; exact h.slotsUnique p q c
  · intro n; rw [hs.isSome, hs.next]; exact h.exist n
  · rw [hs.isSome]; exact h.rootExists
  · intro n e' he' htag hn
    obtain ⟨e, he, hch, htg, -⟩ := hs.symm.ctx he'
    have := h.img n e he (by rw [htg]; exact htag) hn
    rw [hk, ← hch]; exact this

theorem sameDefs_setCtx {t : Tree} {n : NodeId} {e e' : Element} (he : t.ctx n = some e)
    (hd : e'.defs = e.defs) : SameDefs t (t.setCtx n e') := by
  refine ⟨rfl, fun m => ?_⟩
  unfold Tree.setCtx
  by_cases h : m = n
  · subst h; simp [he, hd]
  · simp [upd_other _ _ h]

theorem sameDefs_modify {t : Tree} {n : NodeId} {f : Element → Element}
    (hd : ∀ e, (f e).defs = e.defs) : SameDefs t (t.modify n f) := by
  refine ⟨rfl, fun m => ?_⟩
  unfold Tree.modify
  by_cases h : m = n
  · subst h; simp only [upd_same]; cases t.ctx m <;> simp [hd]
  · simp [upd_other _ _ h]

theorem set_length (t : TextContent) (i : Nat) (v : String) :
    (t.set i v).spans.length = t.spans.length := by
  unfold TextContent.set; split <;> simp

/-- The reaction changes the displayed children of `p`. -/
def Reaction.moves (p : NodeId) : Reaction → Prop
  | .reattach q _ _ => q = p
  | .repeat q _ _ _ => q = p
  | _ => False

/-- One step of `update_tree`. -/
structure Step (root body : NodeId) (r : Reaction) (t t' : Tree) : Prop where
  wf : t'.Wf root body
  same : SameDefs t t'
  kids : ∀ p, ¬ r.moves p → t'.kids p = t.kids p
  shown : ∀ p, p ≠ root → ∀ c, c ∈ t'.kids p ↔ c ∈ t.slots root body p ∧
    showStep (t.slots root body p) p (fun c => decide (c ∈ t.kids p)) r c = true
  /-- elements are only changed by reactions on their text and attributes -/
  ctx : ∀ p q a b c v, (r = .reattach q p v ∨ r = .repeat q a b c) → t'.ctx = t.ctx

theorem still_shown {t : Tree} {root body : NodeId} (h : t.Wf root body) (p c : NodeId) :
    c ∈ t.kids p ↔ c ∈ t.slots root body p ∧ decide (c ∈ t.kids p) = true := by
  constructor
  · intro hc; exact ⟨h.sub p c hc, by simpa using hc⟩
  · rintro ⟨-, hc⟩; simpa using hc

theorem bindReact_ok {inline} {s : Stage} {root body : NodeId} (h : s.tree.Wf root body) {n : NodeId}
    {key : String} {span : Nat} {text : String} (hn : n ≠ root) {e : Element}
    (he : s.tree.ctx n = some e) {att : TextContent} (ha : e.attrsBindings key = some att) :
    ∃ s', bindReact inline s n key span text = .ok s' ∧ SameDefs s.tree s'.tree ∧
      s'.tree.kids = s.tree.kids ∧ s'.tree.par = s.tree.par ∧
      s'.identified = (if key = "id" then s.identified.set ((att.set span text).toString) n
        else s.identified) ∧
      (∃ e', s'.tree.ctx n = some e' ∧ e'.attrs = e.attrs.set key (att.set span text).toString ∧
        e'.attrsBindings = e.attrsBindings.set key (att.set span text) ∧ e'.text = e.text ∧
        (e'.listeners, e'.state) = (e.listeners, e.state) ∧
        e'.style = (if key = "style" then (inline (att.set span text).toString).getD e.style
          else e.style)) ∧
      (∀ m, m ≠ n → ∃ bg : List Background → List Background, s'.tree.ctx m = (s.tree.ctx m).map fun x => { x with
        backgrounds := bg x.backgrounds }) := by
  have hdefs : ∀ (st : List Declaration) (e' : Element), e' = { e with
      attrsBindings := e.attrsBindings.set key (att.set span text),
      attrs := e.attrs.set key (att.set span text).toString, style := st } → e'.defs = e.defs := by
    rintro st e' rfl
    simp only [Element.defs, Prod.mk.injEq, true_and]
    funext k
    by_cases hk : k = key
    · subst hk; simp [ha, set_length]
    · rw [SMap.set_other _ _ hk]
  unfold bindReact
  simp only [Tree.elem, he, bind, Except.bind, ha]
  generalize hst : (if key = "style" then (inline (att.set span text).toString).getD e.style
      else e.style) = st
  have hel : (if key = "style" then { e with
        attrsBindings := e.attrsBindings.set key (att.set span text),
        attrs := e.attrs.set key (att.set span text).toString,
        style := (inline (att.set span text).toString).getD e.style } else { e with
        attrsBindings := e.attrsBindings.set key (att.set span text),
        attrs := e.attrs.set key (att.set span text).toString }) = { e with
        attrsBindings := e.attrsBindings.set key (att.set span text),
        attrs := e.attrs.set key (att.set span text).toString, style := st } := by
    rw [← hst]; split <;> rfl
  simp only [hel]
  generalize he' : ({ e with
        attrsBindings := e.attrsBindings.set key (att.set span text),
        attrs := e.attrs.set key (att.set span text).toString, style := st } : Element) = e'
  have hd : e'.defs = e.defs := hdefs st e' he'.symm
  have hs1 := sameDefs_setCtx he hd
  by_cases himg : e.tag = "img" ∧ key = "src"
  · rw [if_pos himg]
    have hi := h.img n e he himg.1 hn
    obtain ⟨c, cs, hcs⟩ : ∃ c cs, e.children = c :: cs := by
      cases hc : e.children with
      | nil => exact absurd hc hi.1
      | cons c cs => exact ⟨c, cs, rfl⟩
    have hkid : (s.tree.setCtx n e').kids n = c :: cs := by
      simp only [Tree.setCtx]; rw [hi.2, hcs]
    have hcslot : c ∈ s.tree.slots root body n := by
      rw [slots_of_ctx hn he, hcs]; simp
    have hyoung := h.slotsYounger n c hcslot
    have hcn : c ≠ n := Nat.ne_of_gt hyoung.1
    obtain ⟨ec, hec⟩ := Option.isSome_iff_exists.1 hyoung.2.2
    unfold updateImgSrc
    simp only [Tree.childAt, hkid, List.getElem?_cons_zero, bind, Except.bind]
    have hctxc : (s.tree.setCtx n e').ctx c = some ec := by
      simp only [Tree.setCtx, upd_other _ _ hcn]; exact hec
    simp only [Tree.elem, hctxc]
    refine ⟨_, rfl, ?_, rfl, rfl, rfl, ?_, ?_⟩
    · exact hs1.trans (sameDefs_modify (fun e => rfl))
    · refine ⟨e', ?_, ?_⟩
      · simp only [Tree.modify, Tree.setCtx, upd_other _ _ (Ne.symm hcn), upd_same]
      · rw [← he']; exact ⟨rfl, rfl, rfl, rfl, rfl⟩
    · intro m hm
      by_cases hmc : m = c
      · subst hmc
        exact ⟨fun bgs => updateAt bgs 0 {} fun b => { b with
          image := some (att.set span text).toString, isSrc := true }, by
          simp only [Tree.modify, upd_same, hctxc, hec]⟩
      · exact ⟨id, by simp [Tree.modify, Tree.setCtx, upd_other _ _ hmc, upd_other _ _ hm]⟩
  · rw [if_neg himg]
    refine ⟨_, rfl, hs1, rfl, rfl, rfl, ?_, ?_⟩
    · refine ⟨e', by simp [Tree.setCtx], ?_⟩
      rw [← he']; exact ⟨rfl, rfl, rfl, rfl, rfl⟩
    · intro m hm
      exact ⟨id, by simp [Tree.setCtx, upd_other _ _ hm]⟩

theorem updateTree_step {inline} {s : Stage} {root body : NodeId} (h : s.tree.Wf root body) {r : Reaction}
    (hr : ReactionOk s.tree root body r) :
    ∃ s', updateTree inline s r = .ok s' ∧ Step root body r s.tree s'.tree := by
  cases r with
  | type n span x =>
    obtain ⟨e, he, ht⟩ := hr
    obtain ⟨tx, htx⟩ := Option.isSome_iff_exists.1 ht
    refine ⟨_, by simp only [updateTree, he, htx]; rfl, ?_⟩
    have hs : SameDefs s.tree (s.tree.setCtx n { e with text := some (tx.set span x) }) :=
      sameDefs_setCtx he (by simp [Element.defs, htx, set_length])
    exact ⟨wf_ctx h hs rfl rfl, hs, fun _ _ => rfl, fun p _ c => still_shown h p c,
      by rintro _ _ _ _ _ _ (e | e) <;> cases e⟩
  | reattach p n v =>
    obtain ⟨K, par', h1, h2, h3, h4⟩ := reattach_effect h hr
    refine ⟨_, by simp only [updateTree, h1, bind, Except.bind]; rfl, ?_⟩
    have hsame : SameDefs s.tree { s.tree with kids := upd s.tree.kids p K, par := par' } :=
      ⟨rfl, fun _ => rfl⟩
    refine ⟨?_, hsame, ?_, ?_, fun _ _ _ _ _ _ _ => rfl⟩
    · apply wf_setKids h ⟨hr.1, hr.2.2⟩ h2 _ h4
      intro c hc
      rw [h3] at hc
      by_cases hcn : c = n
      · subst hcn; exact hr.2.1
      · rw [if_neg hcn] at hc; exact h.sub p c hc
    · intro q hq
      simp only [Reaction.moves] at hq
      exact upd_other _ _ (fun e => hq e.symm)
    · intro q _ c
      simp only [showStep]
      by_cases hq : q = p
      · subst hq
        simp only [upd_same, h3, true_and]
        by_cases hcn : c = n
        · subst hcn; simp [hr.2.1]
        · simp only [hcn, if_false]; exact still_shown h q c
      · simp only [upd_other _ _ hq]
        rw [if_neg (by rintro ⟨e, -⟩; exact hq e.symm)]
        exact still_shown h q c
  | «repeat» p i k j =>
    obtain ⟨par', h1, h2, h3, h4⟩ := repeat_effect h hr
    refine ⟨_, by simp only [updateTree, h1, bind, Except.bind]; rfl, ?_⟩
    have hsame : ∀ K, SameDefs s.tree { s.tree with kids := upd s.tree.kids p K, par := par' } :=
      fun K => ⟨rfl, fun _ => rfl⟩
    have hsub : ∀ c, (if c ∈ slice (s.tree.slots root body p) i j then
        c ∈ slice (s.tree.slots root body p) i k else c ∈ s.tree.kids p) →
        c ∈ s.tree.slots root body p := by
      intro c hc
      by_cases hs : c ∈ slice (s.tree.slots root body p) i j
      · exact slice_sub hs
      · rw [if_neg hs] at hc; exact h.sub p c hc
    refine ⟨?_, hsame _, ?_, ?_, fun _ _ _ _ _ _ _ => rfl⟩
    · obtain ⟨e, he, htag⟩ := hr.2.2.2.2
      exact wf_setKids h ⟨hr.1, fun e' he' => by rw [he] at he'; cases he'; exact htag⟩ h2
        (fun c hc => hsub c ((h3 c).1 hc)) h4
    · intro q hq
      simp only [Reaction.moves] at hq
      exact upd_other _ _ (fun e => hq e.symm)
    · intro q _ c
      simp only [showStep]
      by_cases hq : q = p
      · subst hq
        simp only [upd_same, h3, true_and]
        by_cases hcs : c ∈ slice (s.tree.slots root body q) i j
        · simp only [hcs, if_true, decide_eq_true_eq]
          exact ⟨fun hc => ⟨slice_sub hcs, hc⟩, fun hc => hc.2⟩
        · simp only [hcs, if_false]; exact still_shown h q c
      · simp only [upd_other _ _ hq]
        rw [if_neg (by rintro ⟨e, -⟩; exact hq e.symm)]
        exact still_shown h q c
  | tag n k b =>
    obtain ⟨e, he⟩ := Option.isSome_iff_exists.1 hr
    refine ⟨_, by simp only [updateTree, Tree.elem, he, bind, Except.bind]; rfl, ?_⟩
    have hs : SameDefs s.tree (s.tree.setCtx n
        { e with attrs := if b = true then e.attrs.set k k else e.attrs.del k }) :=
      sameDefs_setCtx he rfl
    exact ⟨wf_ctx h hs rfl rfl, hs, fun _ _ => rfl, fun p _ c => still_shown h p c,
      by rintro _ _ _ _ _ _ (e | e) <;> cases e⟩
  | bind n k span x =>
    obtain ⟨hn, e, he, ha⟩ := hr
    obtain ⟨att, hatt⟩ := Option.isSome_iff_exists.1 ha
    obtain ⟨s', h1, h2, h3, h4, -⟩ := bindReact_ok (inline := inline) (span := span) (text := x) h hn he hatt
    refine ⟨s', by simp only [updateTree]; exact h1, ?_⟩
    exact ⟨wf_ctx h h2 h3 h4, h2, fun p _ => by rw [h3], fun p _ c => by rw [h3]; exact still_shown h p c,
      by rintro _ _ _ _ _ _ (e | e) <;> cases e⟩

end Verif
