import Verif.Spec.Styling
import Verif.View.Classify
import Verif.Input.Form
/-!
# Styling a tree is styling its elements (lemmas for C45, C47-C50)
-/
namespace Verif

/-! ## Matching does not look at styles -/

theorem Restyled.refl (t : Tree) : Restyled t t := ⟨rfl, rfl, rfl, fun _ h => h, fun _ e h => ⟨e, h, ⟨rfl, rfl, rfl, rfl, rfl, rfl, rfl, rfl, rfl⟩, rfl⟩⟩

theorem Restyled.trans {a b c : Tree} (h : Restyled a b) (h' : Restyled b c) : Restyled a c := by
  refine ⟨h'.kids.trans h.kids, h'.par.trans h.par, h'.next.trans h.next, fun n hn => h'.gone n (h.gone n hn), ?_⟩
  intro n e he
  obtain ⟨e1, h1, f1, s1⟩ := h.there n e he
  obtain ⟨e2, h2, f2, s2⟩ := h'.there n e1 h1
  exact ⟨e2, h2, ⟨f2.node.trans f1.node, f2.children.trans f1.children, f2.tag.trans f1.tag, f2.text.trans f1.text, f2.attrs.trans f1.attrs,
    f2.attrsBindings.trans f1.attrsBindings, f2.listeners.trans f1.listeners, f2.hints.trans f1.hints, f2.style.trans f1.style⟩, s2.trans s1⟩

theorem viewPseudo_state {e e' : Element} (h : e'.state = e.state) (c : String) : viewPseudo e' c = viewPseudo e c := by
  unfold viewPseudo; rw [h]

theorem matchSimple_restyled {e e' : Element} (hf : e.SameForm e') (hs : e'.state = e.state) (x : Simple) :
    matchSimple viewPseudo e' x = matchSimple viewPseudo e x :=
  matchSimple_congr x hf.tag (fun k _ => by rw [hf.attrs]) (fun name _ => viewPseudo_state hs name)

theorem nextTarget_restyled {checks} {t t' : Tree} (h : Restyled t t') (n : NodeId) (c : Char) :
    nextTarget checks t' n c = nextTarget checks t n c := by
  unfold nextTarget; rw [h.par, h.kids]

theorem matchLoop_restyled {checks} {t t' : Tree} (h : Restyled t t') (ss : List Simple) (n : NodeId) {e e' : Element}
    (hf : e.SameForm e') (hs : e'.state = e.state) :
    matchLoop checks viewPseudo t' ss n e' = matchLoop checks viewPseudo t ss n e := by
  induction ss generalizing n e e' with
  | nil => rfl
  | cons x ss ih =>
    by_cases hx : x.isPart = true
    · rw [matchLoop_part hx, matchLoop_part hx, matchSimple_restyled hf hs, ih n hf hs]
    · cases x with
      | combinator c =>
        simp only [matchLoop, nextTarget_restyled h]
        cases nextTarget checks t n c with
        | error f => rfl
        | ok m =>
          cases m with
          | none => rfl
          | some m =>
            simp only
            cases hm : t.ctx m with
            | none => simp only [h.gone m hm]
            | some a =>
              obtain ⟨a', h1, h2, h3⟩ := h.there m a hm
              simp only [h1]
              exact ih m h2 h3
      | _ => simp [Simple.isPart] at hx

theorem matchStyle_restyled {checks} {t t' : Tree} (h : Restyled t t') (style : Style) (n : NodeId) :
    matchStyle checks viewPseudo t' style n = matchStyle checks viewPseudo t style n := by
  unfold matchStyle
  induction style.selectors with
  | nil => rfl
  | cons c l ih =>
    have : matchComplex checks viewPseudo t' c n = matchComplex checks viewPseudo t c n := by
      unfold matchComplex
      cases hm : t.ctx n with
      | none => simp only [h.gone n hm]
      | some a =>
        obtain ⟨a', h1, h2, h3⟩ := h.there n a hm
        simp only [h1]
        exact matchLoop_restyled h _ n h2 h3
    simp only [matchAny, this, ih]

theorem applied_restyled {checks} {t t' : Tree} (h : Restyled t t') (n : NodeId) (l : List ElementStyle) :
    applied checks viewPseudo t' n l = applied checks viewPseudo t n l := by
  induction l with
  | nil => rfl
  | cons x l ih =>
    cases x with
    | static s => simp only [applied, ih]
    | dynamic s => simp only [applied, ih, matchStyle_restyled h]

theorem styleElement_restyled {t t' : Tree} (h : Restyled t t') (env : FrameEnv) (n : NodeId) (parent : Element) (sizes : Sizes)
    (vars : Variables) (l : LayoutStyle) (e : Element) :
    styleElement env t' n parent sizes vars l e = styleElement env t n parent sizes vars l e := by
  unfold styleElement
  simp only [applied_restyled h]

/-! ## Styling an element leaves its form alone -/

theorem Assign.write_form (i : Nat) (l : LayoutStyle) (e : Element) (a : Assign) :
    e.SameForm (a.write i l e).2 ∧ (a.write i l e).2.state = e.state ∧ (a.write i l e).2.style = e.style := by
  cases a with
  | element a => cases a <;> exact ⟨⟨rfl, rfl, rfl, rfl, rfl, rfl, rfl, rfl, rfl⟩, rfl, rfl⟩
  | _ => exact ⟨⟨rfl, rfl, rfl, rfl, rfl, rfl, rfl, rfl, rfl⟩, rfl, rfl⟩

theorem applyAll_form (sizes : Sizes) (l : ComputedStyle) (s : LayoutStyle × Element) :
    s.2.SameForm (applyAll sizes l s).2 ∧ (applyAll sizes l s).2.state = s.2.state ∧ (applyAll sizes l s).2.style = s.2.style := by
  induction l generalizing s with
  | nil => exact ⟨⟨rfl, rfl, rfl, rfl, rfl, rfl, rfl, rfl, rfl⟩, rfl, rfl⟩
  | cons x l ih =>
    obtain ⟨d, v⟩ := x
    obtain ⟨h1, h2, h3⟩ := Assign.write_form d.index s.1 s.2 (assignment sizes d.key v).1
    obtain ⟨g1, g2, g3⟩ := ih (applyValue sizes d v s)
    exact ⟨Element.SameForm.trans h1 g1, g2.trans h2, g3.trans h3⟩

theorem styleElement_form {env : FrameEnv} {t : Tree} {n : NodeId} {parent e : Element} {sizes : Sizes} {vars vars' : Variables}
    {l : LayoutStyle} {r : LayoutStyle × Element} (h : styleElement env t n parent sizes vars l e = .ok (r, vars')) :
    e.SameForm r.2 ∧ r.2.state = e.state ∧ r.2.style = e.style := by
  unfold styleElement at h
  simp only at h
  split at h
  · cases h
  split at h
  · cases h
  split at h
  · cases h
  split at h
  · cases h
  · rename_i animators style1 _ _ transitions style2 _
    injection h with h
    injection h with h _
    subst h
    obtain ⟨h1, h2, h3⟩ := applyAll_form sizes (env.order.style n style2) (l, { parent.inherit e.reset with animators := animators, transitions := transitions })
    exact ⟨⟨h1.node, h1.children, h1.tag, h1.text, h1.attrs, h1.attrsBindings, h1.listeners, h1.hints, h1.style⟩, h2, h3⟩

/-! ## The tree -/

theorem Styled.put_restyled (s : Styled) {n : NodeId} {e e' : Element} (he : s.tree.ctx n = some e) (hf : e.SameForm e')
    (hs : e'.state = e.state) (l : LayoutStyle) : Restyled s.tree (s.put n l e').tree := by
  refine ⟨rfl, rfl, rfl, ?_, ?_⟩
  · intro m hm
    have hne : m ≠ n := fun h => by subst h; rw [he] at hm; cases hm
    simp only [Styled.put, Tree.setCtx, upd_other _ _ hne]; exact hm
  · intro m a ha
    by_cases hmn : m = n
    · subst hmn
      rw [he] at ha; injection ha with ha; subst ha
      exact ⟨e', by simp [Styled.put, Tree.setCtx], hf, hs⟩
    · exact ⟨a, by simp only [Styled.put, Tree.setCtx, upd_other _ _ hmn]; exact ha, ⟨rfl, rfl, rfl, rfl, rfl, rfl, rfl, rfl, rfl⟩, rfl⟩

theorem inherit_form (parent e : Element) : e.SameForm (parent.inherit e) ∧ (parent.inherit e).state = e.state ∧ (parent.inherit e).style = e.style :=
  ⟨⟨rfl, rfl, rfl, rfl, rfl, rfl, rfl, rfl, rfl⟩, rfl, rfl⟩

theorem InSubtree.trans {t : Tree} {a b c : NodeId} (h : InSubtree t a b) (h' : InSubtree t b c) : InSubtree t a c := by
  induction h' with
  | here => exact h
  | deeper hp _ ih => exact .deeper hp ih

/-- Styling changes nothing outside of the subtree and keeps form and links. -/
structure Framed (s s' : Styled) (n : NodeId) : Prop where
  restyled : Restyled s.tree s'.tree
  inlines : ∀ m e, s.tree.ctx m = some e → ∃ e', s'.tree.ctx m = some e' ∧ e'.style = e.style
  ctx : ∀ m, ¬ InSubtree s.tree n m → s'.tree.ctx m = s.tree.ctx m
  layouts : ∀ m, ¬ InSubtree s.tree n m → s'.layouts m = s.layouts m

theorem InSubtree.restyled {t t' : Tree} (h : Restyled t t') {n m : NodeId} : InSubtree t' n m ↔ InSubtree t n m := by
  constructor
  · intro hu
    induction hu with
    | here => exact .here
    | deeper hp _ ih => exact .deeper (by rw [← h.par]; exact hp) ih
  · intro hu
    induction hu with
    | here => exact .here
    | deeper hp _ ih => exact .deeper (by rw [h.par]; exact hp) ih

theorem put_framed (s : Styled) {n : NodeId} {e e' : Element} (he : s.tree.ctx n = some e) (hf : e.SameForm e')
    (hs : e'.state = e.state) (hi : e'.style = e.style) (l : LayoutStyle) : Framed s (s.put n l e') n := by
  refine ⟨s.put_restyled he hf hs l, ?_, ?_, ?_⟩
  · intro m a ha
    by_cases hmn : m = n
    · subst hmn
      rw [he] at ha; injection ha with ha; subst ha
      exact ⟨e', by simp [Styled.put, Tree.setCtx], hi⟩
    · exact ⟨a, by simp only [Styled.put, Tree.setCtx, upd_other _ _ hmn]; exact ha, rfl⟩
  · intro m hm
    have hne : m ≠ n := fun h => hm (h ▸ .here)
    simp only [Styled.put, Tree.setCtx, upd_other _ _ hne]
  · intro m hm
    have hne : m ≠ n := fun h => hm (h ▸ .here)
    simp only [Styled.put, upd_other _ _ hne]

theorem Framed.trans {s s' s'' : Styled} {n a b : NodeId} (h : Framed s s' a) (h' : Framed s' s'' b) (ha : InSubtree s.tree n a) (hb : InSubtree s.tree n b) :
    Framed s s'' n := by
  refine ⟨h.restyled.trans h'.restyled, ?_, ?_, ?_⟩
  · intro m e he
    obtain ⟨e1, h1, h2⟩ := h.inlines m e he
    obtain ⟨e2, g1, g2⟩ := h'.inlines m e1 h1
    exact ⟨e2, g1, g2.trans h2⟩
  · intro m hm
    rw [h'.ctx m (fun hu => hm (hb.trans ((InSubtree.restyled h.restyled).1 hu))), h.ctx m (fun hu => hm (ha.trans hu))]
  · intro m hm
    rw [h'.layouts m (fun hu => hm (hb.trans ((InSubtree.restyled h.restyled).1 hu))), h.layouts m (fun hu => hm (ha.trans hu))]

/-- The conditions on a tree that styling relies on: children have their parent, and parents are older. -/
structure Linked (t : Tree) : Prop where
  link : ∀ p c, c ∈ t.kids p → t.par c = some p
  older : ∀ p c, t.par c = some p → p < c
  nodup : ∀ p, (t.kids p).Nodup

theorem Linked.restyled {t t' : Tree} (h : Linked t) (hr : Restyled t t') : Linked t' := by
  refine ⟨?_, ?_, ?_⟩
  · intro p c hc; rw [hr.kids] at hc; rw [hr.par]; exact h.link p c hc
  · intro p c hc; rw [hr.par] at hc; exact h.older p c hc
  · intro p; rw [hr.kids]; exact h.nodup p

theorem InSubtree.le {t : Tree} (h : Linked t) {n m : NodeId} (hu : InSubtree t n m) : n ≤ m := by
  unfold NodeId at *
  induction hu with
  | here => exact Nat.le_refl _
  | deeper hp _ ih => exact Nat.le_trans ih (Nat.le_of_lt (h.older _ _ hp))

theorem InSubtree.siblings {t : Tree} (h : Linked t) {p a b m : NodeId} (ha : t.par a = some p) (hb : t.par b = some p) (hua : InSubtree t a m) (hub : InSubtree t b m) :
    a = b := by
  have key : ∀ {x y m : NodeId}, t.par x = some p → t.par y = some p → InSubtree t x m → InSubtree t y m → InSubtree t x y ∨ InSubtree t y x := by
    intro x y m hx hy h1 h2
    induction h1 with
    | here => exact .inr h2
    | deeper hp hu ih =>
      cases h2 with
      | here => exact .inl (.deeper hp hu)
      | deeper hp' hu' => rw [hp] at hp'; injection hp' with hp'; subst hp'; exact ih hu'
  have one : ∀ {x y : NodeId}, t.par x = some p → t.par y = some p → InSubtree t x y → x = y := by
    intro x y hx hy hu
    cases hu with
    | here => rfl
    | deeper hp hu' =>
      rw [hy] at hp; injection hp with hp; subst hp
      have h1 := hu'.le h
      have h2 := h.older _ _ hx
      unfold NodeId at *
      omega
  rcases key ha hb hua hub with hh | hh
  · exact one ha hb hh
  · exact (one hb ha hh).symm

/-- What holds for a subtree is kept by changes outside. -/
theorem StyledFrom.keep {env : FrameEnv} {s s1 s2 : Styled} {n : NodeId} {sizes : Sizes} {vars : Variables}
    (hl : Linked s.tree) (h : StyledFrom env s s1 n sizes vars) (hk : ∀ m, InSubtree s.tree n m → s2.tree.ctx m = s1.tree.ctx m ∧ s2.layouts m = s1.layouts m)
    (hp : ∀ p, s.tree.par n = some p → s2.tree.ctx p = s1.tree.ctx p) : StyledFrom env s s2 n sizes vars := by
  induction h with
  | text a1 a2 a3 a4 a5 a6 =>
    exact .text a1 ((hp _ a1).trans a2) a3 a4 ((hk _ .here).1.trans a5) ((hk _ .here).2.trans a6)
  | element a1 a2 a3 a4 a5 a6 a7 _ ih =>
    refine .element a1 ((hp _ a1).trans a2) a3 a4 a5 ((hk _ .here).1.trans a6) ((hk _ .here).2.trans a7) ?_
    intro ht c hc
    have hpar := hl.link _ _ hc
    refine ih ht c hc (fun m hm => hk m ((InSubtree.deeper hpar .here).trans hm)) ?_
    intro p hp'
    rw [hpar] at hp'; injection hp' with hp'; subst hp'
    exact (hk _ .here).1

/-- What holds for a subtree was so from any earlier state that differs elsewhere. -/
theorem StyledFrom.base {env : FrameEnv} {s0 s s' : Styled} {n : NodeId} {sizes : Sizes} {vars : Variables}
    (hl : Linked s0.tree) (hr : Restyled s0.tree s.tree) (h : StyledFrom env s s' n sizes vars)
    (hk : ∀ m, InSubtree s0.tree n m → s.tree.ctx m = s0.tree.ctx m ∧ s.layouts m = s0.layouts m) : StyledFrom env s0 s' n sizes vars := by
  induction h with
  | text a1 a2 a3 a4 a5 a6 =>
    exact .text (by rw [← hr.par]; exact a1) a2 ((hk _ .here).1 ▸ a3) a4 a5 (by rw [a6]; exact (hk _ .here).2)
  | element a1 a2 a3 a4 a5 a6 a7 _ ih =>
    refine .element (by rw [← hr.par]; exact a1) a2 ((hk _ .here).1 ▸ a3) a4 (by rw [← (hk _ .here).2, ← styleElement_restyled hr]; exact a5) a6 a7 ?_
    · intro ht c hc
      have hpar := hl.link _ _ hc
      exact ih ht c (by rw [hr.kids]; exact hc) (fun m hm => hk m ((InSubtree.deeper hpar .here).trans hm))

theorem styleTree_spec {env : FrameEnv} (depth : Nat) {n : NodeId} {sizes : Sizes} {vars : Variables} {s s' : Styled}
    (hl : Linked s.tree) (h : styleTree env depth n sizes vars s = .ok s') :
    Framed s s' n ∧ StyledFrom env s s' n sizes vars := by
  induction depth generalizing n sizes vars s s' with
  | zero => cases h
  | succ depth ih =>
    rw [styleTree] at h
    split at h
    case h_2 => cases h
    case h_1 parent e hp he =>
      obtain ⟨p, hpar, hpe⟩ := Option.bind_eq_some_iff.1 hp
      have hpn : p < n := hl.older _ _ hpar
      have hpn' : p ≠ n := by unfold NodeId at *; omega
      have hnu : ¬ InSubtree s.tree n p := fun hu => by have := hu.le hl; unfold NodeId at *; omega
      by_cases ht : e.text.isSome
      · rw [if_pos ht] at h
        injection h with h
        subst h
        obtain ⟨f1, f2, f3⟩ := inherit_form parent e
        have hfr := put_framed s he f1 f2 f3 (s.layouts n)
        exact ⟨hfr, .text hpar ((hfr.ctx p hnu).trans hpe) he ht (by simp [Styled.put, Tree.setCtx]) (by simp [Styled.put])⟩
      · rw [if_neg ht] at h
        have ht' : e.text = none := by cases hx : e.text with | none => rfl | some _ => rw [hx] at ht; simp at ht
        split at h
        · cases h
        case h_2 l e' vars' hse =>
          obtain ⟨f1, f2, f3⟩ := styleElement_form hse
          have hfr := put_framed s he f1 f2 f3 l
          by_cases hleaf : e'.tag ∈ leafTags
          · rw [if_pos hleaf] at h
            injection h with h
            subst h
            exact ⟨hfr, .element hpar ((hfr.ctx p hnu).trans hpe) he ht' hse (by simp [Styled.put, Tree.setCtx]) (by simp [Styled.put]) (fun hn => absurd hleaf hn)⟩
          · rw [if_neg hleaf] at h
            -- the loop over the children
            have loop : ∀ (cs : List NodeId) (s1 s2 : Styled), cs.Nodup → (∀ c ∈ cs, c ∈ s.tree.kids n) → Framed s s1 n →
                (∀ c ∈ cs, ∀ m, InSubtree s.tree c m → s1.tree.ctx m = s.tree.ctx m ∧ s1.layouts m = s.layouts m) →
                s1.tree.ctx n = some e' →
                forEach (fun s c => styleTree env depth c (sizes.under e') vars' s) cs s1 = .ok s2 →
                Framed s s2 n ∧ (∀ c ∈ cs, StyledFrom env s s2 c (sizes.under e') vars') ∧
                  (∀ m, (∀ c ∈ cs, ¬ InSubtree s.tree c m) → s2.tree.ctx m = s1.tree.ctx m ∧ s2.layouts m = s1.layouts m) := by
              intro cs
              induction cs with
              | nil =>
                intro s1 s2 _ _ h1 _ _ hfe
                injection hfe with hfe; subst hfe
                exact ⟨h1, by simp, fun m _ => ⟨rfl, rfl⟩⟩
              | cons c cs ihc =>
                intro s1 s2 hnd hmem h1 hsame hctx hfe
                rw [forEach] at hfe
                cases hst : styleTree env depth c (sizes.under e') vars' s1 with
                | error t => rw [hst] at hfe; cases hfe
                | ok s3 =>
                  rw [hst] at hfe
                  simp only at hfe
                  have hc := hmem c (by simp)
                  have hcp := hl.link _ _ hc
                  have hl1 := hl.restyled h1.restyled
                  obtain ⟨g1, g2⟩ := ih hl1 hst
                  have hunder : InSubtree s.tree n c := .deeper hcp .here
                  have h3 : Framed s s3 n := h1.trans g1 .here hunder
                  have hnc : ¬ InSubtree s.tree c n := fun hu => by
                    have h1 := hu.le hl; have h2 := hl.older _ _ hcp; unfold NodeId at *; omega
                  have hother : ∀ m, ¬ InSubtree s.tree c m → s3.tree.ctx m = s1.tree.ctx m ∧ s3.layouts m = s1.layouts m := fun m hm =>
                    ⟨g1.ctx m (fun hu => hm ((InSubtree.restyled h1.restyled).1 hu)), g1.layouts m (fun hu => hm ((InSubtree.restyled h1.restyled).1 hu))⟩
                  have hdis : ∀ c' ∈ cs, ∀ m, InSubtree s.tree c' m → ¬ InSubtree s.tree c m := by
                    intro c' hc' m hm hm'
                    have := InSubtree.siblings hl hcp (hl.link _ _ (hmem c' (by simp [hc']))) hm' hm
                    subst this
                    exact (List.nodup_cons.1 hnd).1 hc'
                  obtain ⟨k1, k2, k3⟩ := ihc s3 s2 (List.nodup_cons.1 hnd).2 (fun c' hc' => hmem c' (by simp [hc'])) h3
                    (fun c' hc' m hm => by
                      obtain ⟨q1, q2⟩ := hsame c' (by simp [hc']) m hm
                      obtain ⟨r1, r2⟩ := hother m (hdis c' hc' m hm)
                      exact ⟨r1.trans q1, r2.trans q2⟩)
                    ((hother n hnc).1.trans hctx) hfe
                  refine ⟨k1, ?_, ?_⟩
                  · intro c' hc'
                    rcases List.mem_cons.1 hc' with rfl | hc'
                    · have hb := StyledFrom.base hl h1.restyled g2 (fun m hm => hsame c' (by simp) m hm)
                      refine hb.keep hl (fun m hm => k3 m (fun d hd hu => hdis d hd m hu hm)) ?_
                      intro q hq
                      rw [hcp] at hq; injection hq with hq; subst hq
                      refine (k3 n (fun d hd hu => ?_)).1
                      have h1 := hu.le hl
                      have h2 := hl.older _ _ (hl.link _ _ (hmem d (by simp [hd])))
                      unfold NodeId at *; omega
                    · exact k2 c' hc'
                  · intro m hm
                    obtain ⟨r1, r2⟩ := k3 m (fun d hd => hm d (by simp [hd]))
                    obtain ⟨q1, q2⟩ := hother m (hm c (by simp))
                    exact ⟨r1.trans q1, r2.trans q2⟩
            have hctx : (s.put n l e').tree.ctx n = some e' := by simp [Styled.put, Tree.setCtx]
            obtain ⟨k1, k2, k3⟩ := loop (s.tree.kids n) (s.put n l e') s' (hl.nodup n) (fun _ h => h) hfr
              (fun c hc m hm => by
                have h1 := hm.le hl
                have h2 := hl.older _ _ (hl.link _ _ hc)
                have hne : m ≠ n := by unfold NodeId at *; omega
                simp only [Styled.put, Tree.setCtx, upd_other _ _ hne]
                exact ⟨trivial, trivial⟩) hctx h
            have hself := k3 n (fun c hc hu => by
              have h1 := hu.le hl
              have h2 := hl.older _ _ (hl.link _ _ hc)
              unfold NodeId at *; omega)
            refine ⟨k1, .element hpar ?_ he ht' hse (hself.1.trans hctx) (hself.2.trans (by simp [Styled.put])) (fun _ => k2)⟩
            rw [k1.ctx p hnu]; exact hpe

end Verif
