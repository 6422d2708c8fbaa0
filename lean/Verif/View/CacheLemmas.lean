import Verif.Spec.Cache
import Verif.View.Placement
/-!
# What is kept is current (lemmas for C82)
-/
namespace Verif

variable {p : Platform}

theorem Measured.Like.refl (c : Measured) : c.Like c := ⟨rfl, rfl, rfl⟩

theorem Measured.Like.trans {c d e : Measured} (h : c.Like d) (g : d.Like e) : c.Like e := ⟨h.layout.trans g.layout, h.kids.trans g.kids, h.text.trans g.text⟩

theorem above_displayed {t : Tree} {root body : NodeId} (hw : t.Wf root body) {a n : NodeId} : Above t a n ↔ Displayed t a n := by
  constructor
  · intro h
    induction h with
    | self => exact .root
    | up hp _ ih => exact .child ih ((hw.link _ _).2 hp)
  · intro h
    induction h with
    | root => exact .self
    | child _ hc ih => exact .up ((hw.link _ _).1 hc) ih

/-- The text of a node. -/
def Tree.said (t : Tree) (n : NodeId) : Option TextContent := (t.ctx n).bind (·.text)

theorem content_text (s : Styled) (n : NodeId) : (s.content n).text.map Prod.fst = s.tree.said n := by
  unfold Styled.content Tree.said
  cases s.tree.ctx n with
  | none => rfl
  | some e => cases h : e.text <;> simp [h]

/-- All that is kept is of nodes below the place it is kept at, and like what these are now; and what is kept at the body is
about all that is displayed. `F` is what is known of contents. -/
structure Current (F : NodeId → Measured → Prop) (body : NodeId) (s : Styled) (m : Memory) : Prop where
  below : ∀ a n c, m a n c → Displayed s.tree a n
  like : ∀ a n c, m a n c → c.Like (s.content n)
  font : ∀ a n c, m a n c → F n c
  full : (∃ n c, m body n c) → ∀ n, Displayed s.tree body n → ∃ c, m body n c

theorem Current.empty (F : NodeId → Measured → Prop) (body : NodeId) (s : Styled) : Current F body s Memory.empty :=
  ⟨fun _ _ _ h => h.elim, fun _ _ _ h => h.elim, fun _ _ _ h => h.elim, fun ⟨_, _, h⟩ => h.elim⟩

theorem displayed_off {t t' : Tree} {T : NodeId → Prop} (hk : ∀ n, ¬ T n → t'.kids n = t.kids n) {a m : NodeId} (hd : Displayed t a m)
    (hT : ∀ n, T n → ¬ Displayed t a n) : Displayed t' a m := by
  induction hd with
  | root => exact .root
  | @child p c hp hc ih => exact .child ih (by rw [hk p (fun h => hT p h hp)]; exact hc)

theorem displayed_on {t t' : Tree} {T : NodeId → Prop} (hk : ∀ n, ¬ T n → t'.kids n = t.kids n) {a m : NodeId} (hd : Displayed t' a m)
    (hT : ∀ n, T n → ¬ Displayed t a n) : Displayed t a m := by
  induction hd with
  | root => exact .root
  | @child p c hp hc ih => exact .child ih (by rw [hk p (fun h => hT p h ih)] at hc; exact hc)

/-- Changing some nodes and marking them. -/
theorem Current.step {F : NodeId → Measured → Prop} {body : NodeId} {s s' : Styled} {m m' : Memory} (h : Current F body s m) {T : NodeId → Prop}
    (hc : ∀ n, ¬ T n → (s.content n).Like (s'.content n)) (hm : ∀ a n c, m' a n c ↔ m a n c ∧ ∀ x, T x → ¬ Displayed s.tree a x) : Current F body s' m' := by
  have hk : ∀ n, ¬ T n → s'.tree.kids n = s.tree.kids n := fun n hn => (hc n hn).kids.symm
  refine ⟨fun a n c hx => ?_, fun a n c hx => ?_, fun a n c hx => ?_, ?_⟩
  · obtain ⟨h1, h2⟩ := (hm a n c).1 hx
    exact displayed_off hk (h.below a n c h1) h2
  · obtain ⟨h1, h2⟩ := (hm a n c).1 hx
    exact (h.like a n c h1).trans (hc n fun hT => h2 n hT (h.below a n c h1))
  · exact h.font a n c ((hm a n c).1 hx).1
  · rintro ⟨n, c, hx⟩ k hd
    obtain ⟨h1, h2⟩ := (hm body n c).1 hx
    obtain ⟨d, hd⟩ := h.full ⟨n, c, h1⟩ k (displayed_on hk hd h2)
    exact ⟨d, (hm body k d).2 ⟨hd, h2⟩⟩

/-! ## Reactions -/

theorem reaction_iff {t : Tree} {m : Memory} (l : List NodeId) {a n : NodeId} {c : Measured} :
    (l.foldl (fun m n => m.mark t n) m) a n c ↔ m a n c ∧ ∀ x ∈ l, ¬ Above t a x := by
  induction l generalizing m with
  | nil => simp
  | cons y l ih =>
    rw [List.foldl_cons, ih]
    simp only [Memory.mark, List.mem_cons, forall_eq_or_imp, and_assoc]

theorem reattach_same {t t' : Tree} {q n : NodeId} {v : Bool} (h : reattach t q n v = .ok t') (hv : decide (n ∈ t.kids q) = v) : t' = t := by
  unfold reattach at h
  simp only [bind, Except.bind] at h
  split at h
  · cases h
  split at h
  · cases h
  cases hi : (t.kids q).findIdx? (· == n) with
  | none =>
    have hn : n ∉ t.kids q := by
      intro hn
      rw [List.findIdx?_eq_none_iff] at hi
      have := hi n hn
      simp at this
    simp only [hn, decide_false] at hv
    subst hv
    simp only [hi, Bool.false_eq_true, if_false, Except.ok.injEq] at h
    exact h.symm
  | some i =>
    have hn : n ∈ t.kids q := by
      obtain ⟨h1, h2, -⟩ := List.findIdx?_eq_some_iff_getElem.1 hi
      have : (t.kids q)[i] = n := by simpa using h2
      rw [← this]; exact List.getElem_mem h1
    simp only [hn, decide_true] at hv
    subst hv
    simp only [hi, if_true, Except.ok.injEq] at h
    exact h.symm

theorem updateImgSrc_said {t t' : Tree} {img : NodeId} {src : String} (hu : updateImgSrc t img src = .ok t') : t'.kids = t.kids ∧ t'.said = t.said := by
  unfold updateImgSrc at hu
  simp only [bind, Except.bind] at hu
  split at hu
  · cases hu
  · rename_i c hc
    split at hu
    · cases hu
    · injection hu with hu; subst hu
      refine ⟨rfl, ?_⟩
      funext n
      unfold Tree.said Tree.modify
      by_cases hn : n = c
      · subst hn; simp only [upd_same]; cases t.ctx n <;> rfl
      · simp only [upd_other _ _ hn]

theorem touched_rest {inline} {s s' : Stage} {root body : NodeId} (hw : s.tree.Wf root body) {r : Reaction} (hr : ReactionOk s.tree root body r)
    (hu : updateTree inline s r = .ok s') {n : NodeId} (hn : n ∉ touched s.tree r) : s'.tree.kids n = s.tree.kids n ∧ s'.tree.said n = s.tree.said n := by
  cases r with
  | type m i x =>
    obtain ⟨em, hem, ht⟩ := hr
    obtain ⟨tx, htx⟩ := Option.isSome_iff_exists.1 ht
    simp only [updateTree, hem, htx, Except.ok.injEq] at hu
    subst hu
    simp only [touched, List.mem_singleton] at hn
    exact ⟨rfl, by simp only [Tree.said, Tree.setCtx, upd_other _ _ hn]⟩
  | reattach q m v =>
    obtain ⟨K, par', h1, -⟩ := reattach_effect hw hr
    have h1' := h1
    simp only [updateTree, h1, bind, Except.bind, Except.ok.injEq] at hu
    subst hu
    refine ⟨?_, rfl⟩
    by_cases hq : n = q
    · subst hq
      simp only [touched] at hn
      split at hn
      · rename_i hv
        have := reattach_same h1' hv
        have := congrArg Tree.kids this
        simp only at this ⊢
        rw [this]
      · simp at hn
    · exact upd_other _ _ hq
  | «repeat» q i k j =>
    obtain ⟨par', h1, -⟩ := repeat_effect hw hr
    simp only [updateTree, h1, bind, Except.bind, Except.ok.injEq] at hu
    subst hu
    refine ⟨?_, rfl⟩
    by_cases hq : n = q
    · subst hq
      obtain ⟨hp, -, -, -, e, he, -⟩ := hr
      have hsl := slots_of_ctx (body := body) hp he
      simp only [touched, he] at hn
      split at hn
      · simp at hn
      · rename_i hno
        simp only [not_or, not_exists, not_and, not_not] at hno
        simp only [upd_same]
        rw [hsl]
        have h2 : (slice e.children i k).filter (· ∉ s.tree.kids n) = [] := by
          rw [List.filter_eq_nil_iff]
          intro x hx
          simp only [decide_not, Bool.not_eq_true', decide_eq_false_iff_not, not_not]
          exact hno.1 x hx
        rw [h2, List.append_nil]
        rw [List.filter_eq_self]
        intro x hx
        simp only [decide_not, Bool.not_eq_true', decide_eq_false_iff_not]
        exact fun hx' => hno.2 x hx' hx
    · exact upd_other _ _ hq
  | tag m k b =>
    obtain ⟨em, hem⟩ := Option.isSome_iff_exists.1 hr
    simp only [updateTree, Tree.elem, hem, bind, Except.bind, Except.ok.injEq] at hu
    subst hu
    refine ⟨rfl, ?_⟩
    unfold Tree.said Tree.setCtx
    by_cases hm : n = m
    · subst hm; simp only [upd_same, hem]; rfl
    · simp only [upd_other _ _ hm]
  | bind m k i x =>
    simp only [updateTree, bindReact, bind, Except.bind] at hu
    split at hu
    · cases hu
    rename_i e he
    have he' : s.tree.ctx m = some e := by
      unfold Tree.elem at he
      split at he
      · injection he with he; rename_i h; rw [h, he]
      · cases he
    have key : ∀ e' : Element, e'.text = e.text → (s.tree.setCtx m e').kids = s.tree.kids ∧ (s.tree.setCtx m e').said = s.tree.said := by
      intro e' ht
      refine ⟨rfl, ?_⟩
      funext y
      unfold Tree.said Tree.setCtx
      by_cases hm : y = m
      · subst hm; simp only [upd_same, he']; exact ht
      · simp only [upd_other _ _ hm]
    have key2 : ∀ e' : Element, e'.text = e.text → (s.tree.setCtx m e').kids n = s.tree.kids n ∧ (s.tree.setCtx m e').said n = s.tree.said n :=
      fun e' ht => ⟨congrFun (key e' ht).1 n, congrFun (key e' ht).2 n⟩
    have fin : ∀ e' : Element, e'.text = e.text → ∀ src t1, updateImgSrc (s.tree.setCtx m e') m src = .ok t1 → t1.kids n = s.tree.kids n ∧ t1.said n = s.tree.said n := by
      intro e' ht src t1 h1
      obtain ⟨a1, a2⟩ := updateImgSrc_said h1
      rw [a1, a2]
      exact ⟨congrFun (key e' ht).1 n, congrFun (key e' ht).2 n⟩
    split at hu
    · cases hu
    · rename_i attr ha
      by_cases hk : k = "style"
      · simp only [if_pos hk] at hu
        split at hu
        · split at hu
          · cases hu
          · rename_i t1 h1
            injection hu with hu; subst hu
            refine fin _ ?_ _ t1 h1
            rfl
        · injection hu with hu; subst hu
          refine key2 _ ?_
          rfl
      · simp only [if_neg hk] at hu
        split at hu
        · split at hu
          · cases hu
          · rename_i t1 h1
            injection hu with hu; subst hu
            refine fin _ ?_ _ t1 h1
            rfl
        · injection hu with hu; subst hu
          refine key2 _ ?_
          rfl

theorem content_like {s s' : Styled} {n : NodeId} (h1 : s'.layouts n = s.layouts n) (h2 : s'.tree.kids n = s.tree.kids n) (h3 : s'.tree.said n = s.tree.said n) :
    (s.content n).Like (s'.content n) :=
  ⟨h1.symm, h2.symm, by rw [content_text, content_text, h3]⟩

/-- The reactions of an update. -/
theorem Current.reactions {F : NodeId → Measured → Prop} {inline} {root body : NodeId} {layouts : NodeId → LayoutStyle} (rs : List Reaction) {s s' : Stage} {m : Memory}
    (hw : s.tree.Wf root body) (hrs : ∀ r ∈ rs, ReactionOk s.tree root body r) (hu : updateTrees inline s rs = .ok s') (h : Current F body ⟨s.tree, layouts⟩ m) :
    Current F body ⟨s'.tree, layouts⟩ (Memory.reactions inline s m rs) := by
  induction rs generalizing s m with
  | nil => simp only [updateTrees, Except.ok.injEq] at hu; subst hu; exact h
  | cons r rs ih =>
    simp only [updateTrees, bind, Except.bind] at hu
    split at hu
    · cases hu
    · rename_i s1 h1
      obtain ⟨s1', a1, a2, a3⟩ := C16_tree_stays_tree (inline := inline) s [r] hw (by simpa using hrs r (by simp))
      simp only [updateTrees, bind, Except.bind, h1, Except.ok.injEq] at a1
      subst a1
      simp only [Memory.reactions, h1]
      refine ih a2 (fun x hx => a3 x (hrs x (by simp [hx]))) hu (h.step (T := fun x => x ∈ touched s.tree r) (fun n hn => ?_) fun a n c => ?_)
      · obtain ⟨b1, b2⟩ := touched_rest hw (hrs r (by simp)) h1 hn
        exact content_like rfl b1 b2
      · unfold Memory.reaction
        rw [reaction_iff]
        simp only [above_displayed hw]

/-- Binding a value. -/
theorem Living.memory_bound {F : NodeId → Measured → Prop} {fuel : Nat} {document : Html} {a : App} (h : Living p fuel document a) {value : Json} {v : View}
    (hu : a.screen.view.update p.inline value = .ok v) {m : Memory} (hm : Current F a.screen.view.body ⟨a.screen.view.stage.tree, a.layouts⟩ m) :
    Current F v.body ⟨v.stage.tree, a.layouts⟩ (m.bound p.inline a.screen.view value) := by
  obtain ⟨v0, hr, h⟩ := (session_ok h.session).twin
  obtain ⟨regs, hg⟩ := reached_good hr
  unfold Memory.bound
  unfold View.update at hu
  cases hb : a.screen.view.vm.bind value with
  | none => rw [hb] at hu; simp at hu
  | some q =>
    obtain ⟨vm, rs⟩ := q
    rw [hb] at hu
    simp only at hu ⊢
    rw [h.vm] at hb
    obtain ⟨stage, a1, a2, a3, a4⟩ := viewGood_update (inline := p.inline) hg value hb
    obtain ⟨stage1, b1, b2, b3⟩ := updateTrees_form rs h.tree h.identified a1
    rw [b1] at hu
    simp only [Except.ok.injEq] at hu
    subst hu
    have e1 := h.body
    have e2 := h.root
    rw [e1] at hm ⊢
    exact hm.reactions rs (h.tree.wf hg.wf) (fun r hr => h.tree.reactionOk (a4 r hr)) b1

/-! ## Styling and layout -/

theorem Restyled.said {t t' : Tree} (h : Restyled t t') : t'.said = t.said := by
  funext n
  unfold Tree.said
  cases hc : t.ctx n with
  | none => rw [h.gone n hc]
  | some e => obtain ⟨e', h1, h2⟩ := h.there n e hc; rw [h1]; exact h2.1.text

theorem Current.styled {F : NodeId → Measured → Prop} {root body : NodeId} {layouts : NodeId → LayoutStyle} {t : Tree} {s : Styled} {m : Memory} (h : Current F body ⟨t, layouts⟩ m)
    (hw : t.Wf root body) (hw' : s.tree.Wf root body) (hs : Restyled t s.tree) : Current F body s (m.styled layouts s) := by
  refine h.step (T := fun n => s.layouts n ≠ layouts n) (fun n hn => ?_) fun a n c => ?_
  · simp only [ne_eq, not_not] at hn
    exact content_like hn (congrFun hs.kids n) (congrFun hs.said n)
  · unfold Memory.styled
    simp only [above_displayed hw']
    have : ∀ x, Displayed s.tree a x ↔ Displayed t a x := fun x =>
      ⟨fun hd => displayed_on (T := fun _ => False) (fun n _ => congrFun hs.kids n) hd (fun _ h => h.elim),
        fun hd => displayed_off (T := fun _ => False) (fun n _ => congrFun hs.kids n) hd (fun _ h => h.elim)⟩
    simp only [this]

theorem Current.taken {F : NodeId → Measured → Prop} {body : NodeId} {s : Styled} {m m' : Memory} {recall : NodeId → Option Measured} (h : Current F body s m)
    (hl : Lays body s m recall m') (n : NodeId) : (s.taken recall n).Like (s.content n) ∧ (∀ c, recall n = some c → F n c) := by
  unfold Styled.taken
  cases hr : recall n with
  | none => exact ⟨Measured.Like.refl _, fun c hc => by cases hc⟩
  | some c =>
    obtain ⟨-, a, ha⟩ := hl.recalls n c hr
    exact ⟨h.like a n c ha, fun d hd => by injection hd with hd; subst hd; exact h.font a n c ha⟩

theorem Current.laid {F : NodeId → Measured → Prop} {body : NodeId} {s : Styled} {m m' : Memory} {recall : NodeId → Option Measured} (h : Current F body s m)
    (hl : Lays body s m recall m') (hF : ∀ n, Displayed s.tree body n → F n (s.content n)) : Current F body s m' := by
  have trans : ∀ {a b c}, Displayed s.tree a b → Displayed s.tree b c → Displayed s.tree a c := by
    intro a b c h1 h2
    induction h2 with
    | root => exact h1
    | child _ hc ih => exact .child ih hc
  refine ⟨fun a n c hx => ?_, fun a n c hx => ?_, fun a n c hx => ?_, fun _ n hd => ⟨_, hl.body n hd⟩⟩
  · rcases hl.keeps a n c hx with h1 | ⟨-, h1, -⟩
    · exact h.below a n c h1
    · exact h1
  · rcases hl.keeps a n c hx with h1 | ⟨-, -, rfl⟩
    · exact h.like a n c h1
    · exact (h.taken hl n).1
  · rcases hl.keeps a n c hx with h1 | ⟨hd, hn, rfl⟩
    · exact h.font a n c h1
    · unfold Styled.taken
      cases hr : recall n with
      | none => exact hF n (trans hd hn)
      | some c => exact (h.taken hl n).2 c hr

theorem content_laidOut {s : Styled} {a : App} (h : LaidOutFrom s a) : (⟨a.screen.view.stage.tree, a.layouts⟩ : Styled).content = s.content := by
  funext n
  unfold Styled.content
  simp only [h.layouts, h.tree.kids]
  cases hc : s.tree.ctx n with
  | none => rw [h.tree.gone n hc]
  | some e => obtain ⟨e', h1, h2⟩ := h.tree.there n e hc; rw [h1, h2]; rfl

theorem Current.laidOut {F : NodeId → Measured → Prop} {body : NodeId} {s : Styled} {a : App} {m : Memory} (h : Current F body s m) (hl : LaidOutFrom s a) :
    Current F body ⟨a.screen.view.stage.tree, a.layouts⟩ m := by
  refine h.step (T := fun _ => False) (fun n _ => ?_) fun a n c => by simp
  rw [content_laidOut hl]
  exact Measured.Like.refl _

end Verif
