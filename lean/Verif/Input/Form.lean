import Verif.Spec.Session
import Verif.View.Classify
/-!
# Sessions and reached views have trees of the same form
-/
namespace Verif

abbrev SameForm : Tree → Tree → Prop := Tree.Related Element.SameForm

theorem Element.SameForm.refl (e : Element) : e.SameForm e := ⟨rfl, rfl, rfl, rfl, rfl, rfl, rfl, rfl, rfl⟩

theorem Element.SameForm.trans {a b c : Element} (h : a.SameForm b) (g : b.SameForm c) : a.SameForm c :=
  ⟨g.node.trans h.node, g.children.trans h.children, g.tag.trans h.tag, g.text.trans h.text, g.attrs.trans h.attrs,
   g.attrsBindings.trans h.attrsBindings, g.listeners.trans h.listeners, g.hints.trans h.hints, g.style.trans h.style⟩

theorem Tree.Related.refl {R} (hR : ∀ e, R e e) (t : Tree) : Tree.Related R t t :=
  ⟨rfl, rfl, rfl, fun _ h => h, fun _ e h => ⟨e, h, hR e⟩⟩

theorem Tree.Related.trans {R S T} (hR : ∀ a b c, R a b → S b c → T a c) {t t' t'' : Tree}
    (h : Tree.Related R t t') (g : Tree.Related S t' t'') : Tree.Related T t t'' :=
  ⟨g.kids.trans h.kids, g.par.trans h.par, g.next.trans h.next, fun n hn => g.gone n (h.gone n hn), fun n e he => by
    obtain ⟨e1, h1, h2⟩ := h.there n e he
    obtain ⟨e2, h3, h4⟩ := g.there n e1 h1
    exact ⟨e2, h3, hR _ _ _ h2 h4⟩⟩

theorem Tree.Related.mono {R S} (hR : ∀ a b, R a b → S a b) {t t' : Tree} (h : Tree.Related R t t') :
    Tree.Related S t t' :=
  ⟨h.kids, h.par, h.next, h.gone, fun n e he => by obtain ⟨e1, h1, h2⟩ := h.there n e he; exact ⟨e1, h1, hR _ _ h2⟩⟩

theorem SameForm.trans {t t' t'' : Tree} (h : SameForm t t') (g : SameForm t' t'') : SameForm t t'' :=
  Tree.Related.trans (R := Element.SameForm) (S := Element.SameForm) (T := Element.SameForm)
    (fun _ _ _ h1 h2 => h1.trans h2) h g

theorem Tree.Related.isSome {R} {t t' : Tree} (h : Tree.Related R t t') (n : NodeId) :
    (t'.ctx n).isSome = (t.ctx n).isSome := by
  cases he : t.ctx n with
  | none => rw [h.gone n he]
  | some e => obtain ⟨e', h1, -⟩ := h.there n e he; rw [h1]; rfl

theorem Tree.Related.back {R} {t t' : Tree} (h : Tree.Related R t t') {n : NodeId} {e' : Element}
    (he : t'.ctx n = some e') : ∃ e, t.ctx n = some e ∧ R e e' := by
  cases hc : t.ctx n with
  | none => rw [h.gone n hc] at he; simp at he
  | some e =>
    obtain ⟨e1, h1, h2⟩ := h.there n e hc
    rw [he] at h1; injection h1 with h1; subst h1
    exact ⟨e, rfl, h2⟩

theorem SameForm.slots {t t' : Tree} (h : SameForm t t') (root body p : NodeId) :
    t'.slots root body p = t.slots root body p := by
  unfold Tree.slots
  split
  · rfl
  · cases he : t.ctx p with
    | none => rw [h.gone p he]
    | some e => obtain ⟨e', h1, h2⟩ := h.there p e he; rw [h1]; exact h2.children

theorem SameForm.wf {t t' : Tree} (h : SameForm t t') {root body : NodeId} (hw : t.Wf root body) : t'.Wf root body where
  link p c := by rw [h.kids, h.par]; exact hw.link p c
  nodup p := by rw [h.kids]; exact hw.nodup p
  sub p c := by rw [h.kids, h.slots]; exact hw.sub p c
  slotsNodup p := by rw [h.slots]; exact hw.slotsNodup p
  slotsYounger p c := by rw [h.slots, h.next, h.isSome]; exact hw.slotsYounger p c
  slotsUnique p q c := by rw [h.slots, h.slots]; exact hw.slotsUnique p q c
  exist n := by rw [h.isSome, h.next]; exact hw.exist n
  rootExists := by rw [h.isSome]; exact hw.rootExists
  img n e' he' ht hn := by
    obtain ⟨e, he, hf⟩ := h.back he'
    rw [h.kids, hf.children]
    exact hw.img n e he (hf.tag ▸ ht) hn

theorem SameForm.setCtx {t t' : Tree} (h : SameForm t t') (n : NodeId) {e e' : Element} (he : e.SameForm e') :
    SameForm (t.setCtx n e) (t'.setCtx n e') := by
  refine ⟨h.kids, h.par, h.next, fun m hm => ?_, fun m x hx => ?_⟩
  · simp only [Tree.setCtx, upd] at hm ⊢
    split at hm
    · simp at hm
    · rename_i hne; rw [if_neg hne]; exact h.gone m hm
  · simp only [Tree.setCtx, upd] at hx ⊢
    split at hx
    · rename_i hmn; rw [if_pos hmn]; injection hx with hx; subst hx; exact ⟨e', rfl, he⟩
    · rename_i hne; rw [if_neg hne]; exact h.there m x hx

theorem SameForm.modify {t t' : Tree} (h : SameForm t t') (n : NodeId) {f g : Element → Element}
    (hf : ∀ e e', e.SameForm e' → (f e).SameForm (g e')) : SameForm (t.modify n f) (t'.modify n g) := by
  refine ⟨h.kids, h.par, h.next, fun m hm => ?_, fun m x hx => ?_⟩
  · simp only [Tree.modify, upd] at hm ⊢
    split at hm
    · rename_i hmn; rw [if_pos hmn]
      simp only [Option.map_eq_none_iff] at hm ⊢; exact h.gone n hm
    · rename_i hne; rw [if_neg hne]; exact h.gone m hm
  · simp only [Tree.modify, upd] at hx ⊢
    split at hx
    · rename_i hmn; rw [if_pos hmn]
      simp only [Option.map_eq_some_iff] at hx
      obtain ⟨a, ha, rfl⟩ := hx
      obtain ⟨a', h1, h2⟩ := h.there n a ha
      exact ⟨g a', by rw [h1]; rfl, hf _ _ h2⟩
    · rename_i hne; rw [if_neg hne]; exact h.there m x hx

theorem addChild_form {t t' t1 : Tree} (h : SameForm t t') {p c} (ho : t.addChild p c = .ok t1) :
    ∃ t1', t'.addChild p c = .ok t1' ∧ SameForm t1 t1' := by
  unfold Tree.addChild at ho ⊢
  rw [h.next]
  split at ho
  · rename_i hlt; rw [if_pos hlt]; injection ho with ho; subst ho
    exact ⟨_, rfl, by rw [h.kids, h.par]; exact ⟨rfl, rfl, rfl, h.gone, h.there⟩⟩
  · simp at ho

theorem insertChild_form {t t' t1 : Tree} (h : SameForm t t') {p i c} (ho : t.insertChild p i c = .ok t1) :
    ∃ t1', t'.insertChild p i c = .ok t1' ∧ SameForm t1 t1' := by
  unfold Tree.insertChild at ho ⊢
  rw [h.next, h.kids]
  split at ho
  · simp at ho
  · rename_i hlt; rw [if_neg hlt]
    split at ho
    · simp at ho
    · rename_i hle; rw [if_neg hle]; injection ho with ho; subst ho
      exact ⟨_, rfl, by rw [h.par]; exact ⟨rfl, rfl, by first | rfl | exact h.next, h.gone, h.there⟩⟩

theorem removeChildAt_form {t t' t1 : Tree} (h : SameForm t t') {p i} (ho : t.removeChildAt p i = .ok t1) :
    ∃ t1', t'.removeChildAt p i = .ok t1' ∧ SameForm t1 t1' := by
  unfold Tree.removeChildAt at ho ⊢
  rw [h.kids]
  split at ho
  · simp at ho
  · rename_i c hc
    injection ho with ho; subst ho
    exact ⟨_, rfl, by rw [h.par]; exact ⟨rfl, rfl, by first | rfl | exact h.next, h.gone, h.there⟩⟩

theorem removeChild_form {t t' t1 : Tree} (h : SameForm t t') {p c} (ho : t.removeChild p c = .ok t1) :
    ∃ t1', t'.removeChild p c = .ok t1' ∧ SameForm t1 t1' := by
  unfold Tree.removeChild at ho ⊢
  rw [h.kids]
  split at ho
  · simp at ho
  · exact removeChildAt_form h ho

theorem reattach_form {t t' t1 : Tree} (h : SameForm t t') {p c v} (ho : reattach t p c v = .ok t1) :
    ∃ t1', reattach t' p c v = .ok t1' ∧ SameForm t1 t1' := by
  unfold reattach at ho ⊢
  cases he : t.ctx p with
  | none => simp [Tree.elem, he, bind, Except.bind] at ho
  | some e =>
    obtain ⟨e', h1, h2⟩ := h.there p e he
    simp only [Tree.elem, he, h1, bind, Except.bind, h2.children, h.kids] at ho ⊢
    split at ho
    · simp at ho
    · split at ho
      · split at ho
        · injection ho with ho; subst ho; exact ⟨_, by simp [*], h⟩
        · split at ho
          · simp at ho
          · rename_i x hx
            obtain ⟨t1', g1, g2⟩ := insertChild_form h ho
            exact ⟨t1', by simp [*], g2⟩
      · split at ho
        · obtain ⟨t1', g1, g2⟩ := removeChildAt_form h ho
          exact ⟨t1', by simp [*], g2⟩
        · injection ho with ho; subst ho; exact ⟨_, by simp [*], h⟩

theorem repeatShow_form {visible p} (ns : List NodeId) {t t' t1 : Tree} (h : SameForm t t')
    (ho : repeatShow visible p ns t = .ok t1) : ∃ t1', repeatShow visible p ns t' = .ok t1' ∧ SameForm t1 t1' := by
  induction ns generalizing t t' with
  | nil => injection ho with ho; subst ho; exact ⟨_, rfl, h⟩
  | cons n ns ih =>
    simp only [repeatShow, bind, Except.bind] at ho ⊢
    by_cases hv : n ∈ visible
    · simp only [hv, if_true] at ho ⊢; exact ih h ho
    · simp only [hv, if_false] at ho ⊢
      split at ho
      · simp at ho
      · rename_i t2 h2
        obtain ⟨t2', g1, g2⟩ := addChild_form h h2
        rw [g1]; exact ih g2 ho

theorem repeatHide_form {visible p} (ns : List NodeId) {t t' t1 : Tree} (h : SameForm t t')
    (ho : repeatHide visible p ns t = .ok t1) : ∃ t1', repeatHide visible p ns t' = .ok t1' ∧ SameForm t1 t1' := by
  induction ns generalizing t t' with
  | nil => injection ho with ho; subst ho; exact ⟨_, rfl, h⟩
  | cons n ns ih =>
    simp only [repeatHide, bind, Except.bind] at ho ⊢
    by_cases hv : n ∈ visible
    · simp only [hv, if_true] at ho ⊢
      split at ho
      · simp at ho
      · rename_i t2 h2
        obtain ⟨t2', g1, g2⟩ := removeChild_form h h2
        rw [g1]; exact ih g2 ho
    · simp only [hv, if_false] at ho ⊢; exact ih h ho

theorem repeatReact_form {t t' t1 : Tree} (h : SameForm t t') {p a b c} (ho : repeatReact t p a b c = .ok t1) :
    ∃ t1', repeatReact t' p a b c = .ok t1' ∧ SameForm t1 t1' := by
  unfold repeatReact at ho ⊢
  cases he : t.ctx p with
  | none => simp [Tree.elem, he, bind, Except.bind] at ho
  | some e =>
    obtain ⟨e', h1, h2⟩ := h.there p e he
    simp only [Tree.elem, he, h1, bind, Except.bind, h2.children, h.kids] at ho ⊢
    split at ho
    · simp at ho
    · rename_i hb
      rw [if_neg hb]
      split at ho
      · simp at ho
      · rename_i t2 ht2
        obtain ⟨t2', g1, g2⟩ := repeatShow_form _ h ht2
        rw [g1]
        exact repeatHide_form _ g2 ho

theorem updateImgSrc_form {t t' t1 : Tree} (h : SameForm t t') {n src} (ho : updateImgSrc t n src = .ok t1) :
    ∃ t1', updateImgSrc t' n src = .ok t1' ∧ SameForm t1 t1' := by
  unfold updateImgSrc Tree.childAt at ho ⊢
  rw [h.kids]
  cases hk : (t.kids n)[0]? with
  | none => rw [hk] at ho; simp [bind, Except.bind] at ho
  | some c =>
    rw [hk] at ho
    simp only [bind, Except.bind, Tree.elem] at ho ⊢
    cases he : t.ctx c with
    | none => simp [he] at ho
    | some e =>
      obtain ⟨e', h1, h2⟩ := h.there c e he
      simp only [he, h1] at ho ⊢
      injection ho with ho; subst ho
      exact ⟨_, rfl, h.modify c fun a b hab =>
        ⟨hab.node, hab.children, hab.tag, hab.text, hab.attrs, hab.attrsBindings, hab.listeners, hab.hints, hab.style⟩⟩

theorem updateTree_form {inline} {s s' s1 : Stage} (h : SameForm s.tree s'.tree) (hi : s'.identified = s.identified)
    {r : Reaction} (ho : updateTree inline s r = .ok s1) :
    ∃ s1', updateTree inline s' r = .ok s1' ∧ SameForm s1.tree s1'.tree ∧ s1'.identified = s1.identified := by
  cases r with
  | type n i x =>
    simp only [updateTree] at ho ⊢
    cases he : s.tree.ctx n with
    | none => simp [he] at ho
    | some e =>
      obtain ⟨e', h1, h2⟩ := h.there n e he
      simp only [he, h1, h2.text] at ho ⊢
      split at ho
      · injection ho with ho; subst ho
        exact ⟨_, rfl, h.setCtx n ⟨h2.node, h2.children, h2.tag, rfl, h2.attrs, h2.attrsBindings, h2.listeners, h2.hints, h2.style⟩, hi⟩
      · simp at ho
  | reattach p c v =>
    simp only [updateTree, bind, Except.bind] at ho ⊢
    split at ho
    · simp at ho
    · rename_i t1 ht
      injection ho with ho; subst ho
      obtain ⟨t1', g1, g2⟩ := reattach_form h ht
      rw [g1]; exact ⟨_, rfl, g2, hi⟩
  | «repeat» p a b c =>
    simp only [updateTree, bind, Except.bind] at ho ⊢
    split at ho
    · simp at ho
    · rename_i t1 ht
      injection ho with ho; subst ho
      obtain ⟨t1', g1, g2⟩ := repeatReact_form h ht
      rw [g1]; exact ⟨_, rfl, g2, hi⟩
  | tag n k b =>
    simp only [updateTree, bind, Except.bind, Tree.elem] at ho ⊢
    cases he : s.tree.ctx n with
    | none => simp [he] at ho
    | some e =>
      obtain ⟨e', h1, h2⟩ := h.there n e he
      simp only [he, h1] at ho ⊢
      injection ho with ho; subst ho
      refine ⟨_, rfl, h.setCtx n ?_, hi⟩
      exact ⟨h2.node, h2.children, h2.tag, h2.text, by simp only [h2.attrs], h2.attrsBindings, h2.listeners, h2.hints, h2.style⟩
  | bind n key i x =>
    simp only [updateTree, bindReact, bind, Except.bind, Tree.elem] at ho ⊢
    cases he : s.tree.ctx n with
    | none => simp [he] at ho
    | some e =>
      obtain ⟨e', h1, h2⟩ := h.there n e he
      simp only [he, h1, h2.attrsBindings, hi] at ho ⊢
      split at ho
      · simp at ho
      · rename_i att hatt
        have hform : Element.SameForm
            (if key = "style" then { e with attrsBindings := e.attrsBindings.set key (att.set i x), attrs := e.attrs.set key (att.set i x).toString, style := (inline (att.set i x).toString).getD e.style }
              else { e with attrsBindings := e.attrsBindings.set key (att.set i x), attrs := e.attrs.set key (att.set i x).toString })
            (if key = "style" then { e' with attrsBindings := e.attrsBindings.set key (att.set i x), attrs := e'.attrs.set key (att.set i x).toString, style := (inline (att.set i x).toString).getD e'.style }
              else { e' with attrsBindings := e.attrsBindings.set key (att.set i x), attrs := e'.attrs.set key (att.set i x).toString }) := by
          split <;> exact ⟨h2.node, h2.children, h2.tag, h2.text, by simp only [h2.attrs], rfl, h2.listeners, h2.hints, by simp only [h2.style]⟩
        generalize (if key = "style" then { e with attrsBindings := e.attrsBindings.set key (att.set i x), attrs := e.attrs.set key (att.set i x).toString, style := (inline (att.set i x).toString).getD e.style }
              else { e with attrsBindings := e.attrsBindings.set key (att.set i x), attrs := e.attrs.set key (att.set i x).toString }) = E at ho hform
        generalize (if key = "style" then { e' with attrsBindings := e.attrsBindings.set key (att.set i x), attrs := e'.attrs.set key (att.set i x).toString, style := (inline (att.set i x).toString).getD e'.style }
              else { e' with attrsBindings := e.attrsBindings.set key (att.set i x), attrs := e'.attrs.set key (att.set i x).toString }) = E' at hform ⊢
        simp only [hform.tag]
        by_cases hg : E.tag = "img" ∧ key = "src"
        · rw [if_pos hg] at ho ⊢
          split at ho
          · simp at ho
          · rename_i t2 ht2
            injection ho with ho; subst ho
            obtain ⟨t2', g1, g2⟩ := updateImgSrc_form (h.setCtx n hform) ht2
            rw [g1]; exact ⟨_, rfl, g2, rfl⟩
        · rw [if_neg hg] at ho ⊢
          injection ho with ho; subst ho
          exact ⟨_, rfl, h.setCtx n hform, rfl⟩

theorem updateTrees_form {inline} (rs : List Reaction) {s s' s1 : Stage} (h : SameForm s.tree s'.tree)
    (hi : s'.identified = s.identified) (ho : updateTrees inline s rs = .ok s1) :
    ∃ s1', updateTrees inline s' rs = .ok s1' ∧ SameForm s1.tree s1'.tree ∧ s1'.identified = s1.identified := by
  induction rs generalizing s s' with
  | nil => injection ho with ho; subst ho; exact ⟨_, rfl, h, hi⟩
  | cons r rs ih =>
    simp only [updateTrees, bind, Except.bind] at ho ⊢
    split at ho
    · simp at ho
    · rename_i s2 h2
      obtain ⟨s2', g1, g2, g3⟩ := updateTree_form h hi h2
      rw [g1]; exact ih g2 g3 ho

end Verif
