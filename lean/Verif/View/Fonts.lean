import Verif.Spec.Fonts
import Verif.View.Unmoved
import Verif.View.Rebound
import Verif.View.StyleFinal
import Verif.View.Placement
import Verif.View.Pictures
import Verif.Props.Look
/-!
# Fonts that do not change (lemmas for C82)
-/
namespace Verif

variable {p : Platform}

/-! ## What bindings leave of an element -/

/-- Bindings leave texts texts, and an inline style that is not bound. -/
def Held (e e' : Element) : Prop :=
  Rebound e e' ∧ e'.text.isSome = e.text.isSome ∧ (e.attrsBindings "style" = none → e'.attrsBindings "style" = none ∧ e'.style = e.style)

theorem Held.refl (e : Element) : Held e e := ⟨Rebound.refl e, rfl, fun h => ⟨h, rfl⟩⟩

theorem Held.trans {a b c : Element} (h : Held a b) (g : Held b c) : Held a c :=
  ⟨h.1.trans g.1, g.2.1.trans h.2.1, fun hb => by
    obtain ⟨h1, h2⟩ := h.2.2 hb
    obtain ⟨g1, g2⟩ := g.2.2 h1
    exact ⟨g1, g2.trans h2⟩⟩

theorem updateImgSrc_held {t t' : Tree} {img : NodeId} {src : String} (hu : updateImgSrc t img src = .ok t') : CtxRel Held t t' := by
  unfold updateImgSrc at hu
  simp only [bind, Except.bind] at hu
  split at hu
  · cases hu
  · rename_i c _
    split at hu
    · cases hu
    · injection hu with hu; subst hu
      refine ⟨fun m hm => ?_, fun m x hx => ?_⟩
      · unfold Tree.modify
        by_cases hmc : m = c
        · subst hmc; simp [upd_same, hm]
        · simp only [upd_other _ _ hmc]; exact hm
      · unfold Tree.modify
        by_cases hmc : m = c
        · subst hmc
          simp only [upd_same, hx, Option.map_some, Option.some.injEq, exists_eq_left']
          exact ⟨rfl, rfl, fun h => ⟨h, rfl⟩⟩
        · simp only [upd_other _ _ hmc]; exact ⟨x, hx, Held.refl x⟩

theorem bindReact_held {inline} {s s' : Stage} {n : NodeId} {key : String} {i : Nat} {x : String}
    (hu : bindReact inline s n key i x = .ok s') : CtxRel Held s.tree s'.tree := by
  unfold bindReact Tree.elem at hu
  simp only [bind, Except.bind] at hu
  split at hu
  · cases hu
  · rename_i e he
    split at he
    · rename_i e1 he1
      injection he with he; subst he
      split at hu
      · cases hu
      · rename_i attr ha
        by_cases hk : key = "style"
        · simp only [if_pos hk] at hu
          have h0 : Held e1 { e1 with attrsBindings := e1.attrsBindings.set key (attr.set i x), attrs := e1.attrs.set key (attr.set i x).toString, style := (inline (attr.set i x).toString).getD e1.style } :=
            ⟨rfl, rfl, fun h => by subst hk; rw [h] at ha; cases ha⟩
          have h1 := CtxRel.setCtx Held.refl he1 h0
          split at hu
          · split at hu
            · cases hu
            · rename_i t ht
              injection hu with hu; subst hu
              exact CtxRel.chain @Held.trans h1 (updateImgSrc_held ht)
          · injection hu with hu; subst hu; exact h1
        · simp only [if_neg hk] at hu
          have h0 : Held e1 { e1 with attrsBindings := e1.attrsBindings.set key (attr.set i x), attrs := e1.attrs.set key (attr.set i x).toString } :=
            ⟨rfl, rfl, fun h => ⟨by simp only [SMap.set, if_neg (Ne.symm hk)]; exact h, rfl⟩⟩
          have h1 := CtxRel.setCtx Held.refl he1 h0
          split at hu
          · split at hu
            · cases hu
            · rename_i t ht
              injection hu with hu; subst hu
              exact CtxRel.chain @Held.trans h1 (updateImgSrc_held ht)
          · injection hu with hu; subst hu; exact h1
    · cases he

theorem updateTree_held {inline} {s s' : Stage} {root body : NodeId} (hw : s.tree.Wf root body) {r : Reaction} (hr : ReactionOk s.tree root body r)
    (hu : updateTree inline s r = .ok s') : CtxRel Held s.tree s'.tree := by
  cases r with
  | type m i x =>
    obtain ⟨em, hem, ht⟩ := hr
    obtain ⟨tx, htx⟩ := Option.isSome_iff_exists.1 ht
    simp only [updateTree, hem, htx, Except.ok.injEq] at hu
    subst hu
    exact CtxRel.setCtx Held.refl hem ⟨rfl, by rw [htx]; rfl, fun h => ⟨h, rfl⟩⟩
  | reattach p m v =>
    obtain ⟨K, par', h1, -⟩ := reattach_effect hw hr
    simp only [updateTree, h1, bind, Except.bind, Except.ok.injEq] at hu
    subst hu
    exact CtxRel.of_ctx Held.refl rfl
  | «repeat» p i k j =>
    obtain ⟨par', h1, -⟩ := repeat_effect hw hr
    simp only [updateTree, h1, bind, Except.bind, Except.ok.injEq] at hu
    subst hu
    exact CtxRel.of_ctx Held.refl rfl
  | tag m k b =>
    obtain ⟨em, hem⟩ := Option.isSome_iff_exists.1 hr
    simp only [updateTree, Tree.elem, hem, bind, Except.bind, Except.ok.injEq] at hu
    subst hu
    exact CtxRel.setCtx Held.refl hem ⟨rfl, rfl, fun h => ⟨h, rfl⟩⟩
  | bind m k i x => exact bindReact_held hu

theorem updateTrees_held {inline} {root body : NodeId} (rs : List Reaction) {s s' : Stage} (hw : s.tree.Wf root body) (hrs : ∀ r ∈ rs, ReactionOk s.tree root body r)
    (hu : updateTrees inline s rs = .ok s') : CtxRel Held s.tree s'.tree := by
  induction rs generalizing s with
  | nil => simp only [updateTrees, Except.ok.injEq] at hu; subst hu; exact CtxRel.refl Held.refl _
  | cons r rs ih =>
    simp only [updateTrees, bind, Except.bind] at hu
    split at hu
    · cases hu
    · rename_i s1 h1
      obtain ⟨s1', a1, a2, a3⟩ := C16_tree_stays_tree (inline := inline) s [r] hw (by simpa using hrs r (by simp))
      simp only [updateTrees, bind, Except.bind, h1, Except.ok.injEq] at a1
      subst a1
      exact CtxRel.chain @Held.trans (updateTree_held hw (hrs r (by simp)) h1) (ih a2 (fun x hx => a3 x (hrs x (by simp [hx]))) hu)

theorem Living.held {fuel : Nat} {document : Html} {a : App} (h : Living p fuel document a) {value : Json} {v : View}
    (hu : a.screen.view.update p.inline value = .ok v) : CtxRel Held a.screen.view.stage.tree v.stage.tree ∧ v.root = a.screen.view.root ∧ v.body = a.screen.view.body := by
  obtain ⟨v0, hr, h⟩ := (session_ok h.session).twin
  obtain ⟨regs, hg⟩ := reached_good hr
  unfold View.update at hu
  cases hb : a.screen.view.vm.bind value with
  | none => rw [hb] at hu; simp at hu
  | some q =>
    obtain ⟨vm, rs⟩ := q
    rw [hb] at hu
    simp only at hu
    rw [h.vm] at hb
    obtain ⟨stage, a1, a2, a3, a4⟩ := viewGood_update (inline := p.inline) hg value hb
    obtain ⟨stage1, b1, b2, b3⟩ := updateTrees_form rs h.tree h.identified a1
    rw [b1] at hu
    simp only [Except.ok.injEq] at hu
    subst hu
    exact ⟨updateTrees_held rs (h.tree.wf hg.wf) (fun r hr => h.tree.reactionOk (a4 r hr)) b1, rfl, rfl⟩

/-! ## What styling leaves alone -/

theorem Styles.across {t t' : Tree} (hr : Restyled t t') {n v : NodeId} : Styles t' n v ↔ Styles t n v := by
  constructor
  · intro h
    induction h with
    | body => exact .body
    | child hp h1 h2 h3 h4 ih =>
      obtain ⟨e, g1, g2⟩ := hr.back h1
      exact .child ih g1 (by rw [← g2.1.text]; exact h2) (by rw [← g2.1.tag]; exact h3) (by rw [← hr.kids]; exact h4)
  · intro h
    induction h with
    | body => exact .body
    | child hp h1 h2 h3 h4 ih =>
      obtain ⟨e', g1, g2⟩ := hr.there _ _ h1
      exact .child ih g1 (by rw [g2.1.text]; exact h2) (by rw [g2.1.tag]; exact h3) (by rw [hr.kids]; exact h4)

theorem Styles.from {t : Tree} {n c v : NodeId} {e : Element} (he : t.ctx n = some e) (ht : e.text = none) (hleaf : e.tag ∉ leafTags) (hc : c ∈ t.kids n) (h : Styles t c v) :
    Styles t n v := by
  induction h with
  | body => exact .child .body he ht hleaf hc
  | child _ h1 h2 h3 h4 ih => exact .child ih h1 h2 h3 h4

/-- Nodes styling does not get to are left as they are. -/
theorem styleTree_leaves {env : FrameEnv} (depth : Nat) {n : NodeId} {sizes : Sizes} {vars : Variables} {s s' : Styled}
    (hl : Linked s.tree) (h : styleTree env depth n sizes vars s = .ok s') : ∀ m, ¬ Styles s.tree n m → s'.tree.ctx m = s.tree.ctx m := by
  induction depth generalizing n sizes vars s s' with
  | zero => cases h
  | succ depth ih =>
    rw [styleTree] at h
    split at h
    case h_2 => cases h
    case h_1 parent e hp he =>
      have hself : ∀ l E m, ¬ Styles s.tree n m → (s.put n l E).tree.ctx m = s.tree.ctx m := by
        intro l E m hm
        have : m ≠ n := fun h => hm (h ▸ .body)
        simp only [Styled.put, Tree.setCtx, upd_other _ _ this]
      by_cases ht : e.text.isSome
      · rw [if_pos ht] at h
        injection h with h
        subst h
        exact hself _ _
      · rw [if_neg ht] at h
        have ht' : e.text = none := by cases hx : e.text with | none => rfl | some _ => rw [hx] at ht; simp at ht
        split at h
        · cases h
        case h_2 l e' vars' hse =>
          obtain ⟨f1, f2, f3⟩ := styleElement_form hse
          have hfr := put_framed s he f1 f2 f3 l
          by_cases hleaf : e'.tag ∈ leafTags
          · rw [if_pos hleaf] at h
            injection h with h
            subst h
            exact hself _ _
          · rw [if_neg hleaf] at h
            have htag : e.tag ∉ leafTags := by rw [← f1.tag]; exact hleaf
            refine (forEach_mem (P := fun s1 : Styled => Restyled s.tree s1.tree ∧ ∀ m, ¬ Styles s.tree n m → s1.tree.ctx m = s.tree.ctx m) (s.tree.kids n) ?_ ⟨hfr.restyled, hself l e'⟩ h).2
            intro s1 c hc hs1 s2 h2
            obtain ⟨g1, g2⟩ := hs1
            have hl1 := hl.restyled g1
            refine ⟨g1.trans (styleTree_spec depth hl1 h2).1.restyled, fun m hm => ?_⟩
            rw [ih hl1 h2 m (fun hst => hm (Styles.from he ht' htag hc ((Styles.across g1).1 hst))), g2 m hm]

end Verif
