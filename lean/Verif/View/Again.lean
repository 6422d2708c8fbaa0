import Verif.View.Unmoved
import Verif.View.Placement
/-!
# Styling an element again changes nothing (lemmas for C85)
-/
namespace Verif

variable {p : Platform}

theorem updateAt_twice {α} (l : List α) (i : Nat) (d : α) {f : α → α} (hf : ∀ x, f (f x) = f x) : updateAt (updateAt l i d f) i d f = updateAt l i d f := by
  refine List.ext_getElem? fun j => ?_
  rw [updateAt_getElem?, updateAt_length]
  split
  · rename_i h; subst h
    rw [updateAt_getElem?]
    simp [hf]
  · rename_i h
    split
    · rfl
    · rename_i h2
      have h3 : ¬ j < l.length := by omega
      have h4 : ¬ j < i := by omega
      rw [updateAt_getElem?]
      simp [h, h3, h4]

theorem Assign.write_twice (i : Nat) (l : LayoutStyle) (e : Element) (a : Assign) : a.write i (a.write i l e).1 (a.write i l e).2 = a.write i l e := by
  cases a with
  | nothing => rfl
  | element a => cases a <;> rfl
  | background a =>
    simp only [Assign.write]
    rw [updateAt_twice _ _ _ (fun x => by cases a <;> rfl)]
  | borderWidth s v => cases s <;> rfl
  | borderColor s v => cases s <;> rfl
  | radius s v => cases s <;> rfl
  | layout a => cases a <;> first | rfl | (rename_i s v; cases s <;> rfl)
  | transition a =>
    simp only [Assign.write]
    rw [updateAt_twice _ _ _ (fun x => by cases a <;> rfl)]
  | animator a =>
    simp only [Assign.write]
    rw [updateAt_twice _ _ _ (fun x => by cases a <;> rfl)]

/-- Values that can be applied in any order. -/
def Commuting (sizes : Sizes) (l : ComputedStyle) : Prop :=
  ∀ x ∈ l, ∀ y ∈ l, ∀ s, applyValue sizes y.1 y.2 (applyValue sizes x.1 x.2 s) = applyValue sizes x.1 x.2 (applyValue sizes y.1 y.2 s)

theorem commuting_orderly (sizes : Sizes) {a : ComputedStyle} (ho : a.Once) (hd : ∀ d v, a.get d = some v → Orderly d) : Commuting sizes a := by
  rintro ⟨d, v⟩ hx ⟨d', v'⟩ hy s
  have gx := (ho.get_iff d v).2 hx
  have gy := (ho.get_iff d' v').2 hy
  by_cases hne : d = d'
  · subst hne
    rw [gx] at gy; injection gy with gy; subst gy
    rfl
  · by_cases h1 : d.key ∈ inertKeys
    · simp only [applyValue, assignment_inert sizes h1 v]; rfl
    · by_cases h2 : d'.key ∈ inertKeys
      · simp only [applyValue, assignment_inert sizes h2 v']; rfl
      · exact applyValue_comm sizes (orderly_apart (hd d v gx) (hd d' v' gy) h1 h2 hne) v v' s

theorem applyAll_push (sizes : Sizes) (l : ComputedStyle) (x : Descriptor × ComputedValue)
    (h : ∀ y ∈ l, ∀ s, applyValue sizes y.1 y.2 (applyValue sizes x.1 x.2 s) = applyValue sizes x.1 x.2 (applyValue sizes y.1 y.2 s)) (s : LayoutStyle × Element) :
    applyAll sizes l (applyValue sizes x.1 x.2 s) = applyValue sizes x.1 x.2 (applyAll sizes l s) := by
  induction l generalizing s with
  | nil => rfl
  | cons y l ih =>
    obtain ⟨d, v⟩ := y
    simp only [applyAll]
    have := h (d, v) List.mem_cons_self s
    simp only at this
    rw [this]
    exact ih (fun y hy => h y (List.mem_cons_of_mem _ hy)) _

/-- A value that is applied anyway need not be applied before. -/
theorem applyAll_absorb (sizes : Sizes) {l : ComputedStyle} (h : Commuting sizes l) {x : Descriptor × ComputedValue} (hx : x ∈ l) (s : LayoutStyle × Element) :
    applyAll sizes l (applyValue sizes x.1 x.2 s) = applyAll sizes l s := by
  induction l generalizing s with
  | nil => cases hx
  | cons y l ih =>
    have h' : Commuting sizes l := fun a ha b hb => h a (List.mem_cons_of_mem _ ha) b (List.mem_cons_of_mem _ hb)
    rcases List.mem_cons.1 hx with rfl | hx'
    · obtain ⟨d, v⟩ := x
      simp only [applyAll]
      unfold applyValue
      rw [Assign.write_twice]
    · obtain ⟨d, v⟩ := y
      simp only [applyAll]
      have := h x hx (d, v) List.mem_cons_self s
      simp only at this
      rw [this]
      exact ih h' hx' _

theorem applyAll_absorb_all (sizes : Sizes) {l l' : ComputedStyle} (h : Commuting sizes l) (hl : ∀ x ∈ l', x ∈ l) (s : LayoutStyle × Element) :
    applyAll sizes l (applyAll sizes l' s) = applyAll sizes l s := by
  induction l' generalizing s with
  | nil => rfl
  | cons x l' ih =>
    have hx := hl x List.mem_cons_self
    obtain ⟨d, v⟩ := x
    simp only [applyAll]
    rw [ih (fun x hx => hl x (List.mem_cons_of_mem _ hx))]
    exact applyAll_absorb sizes h hx s

/-! ## Layout and element do not meet -/

theorem applyAll_fst (sizes : Sizes) (l : ComputedStyle) (s s' : LayoutStyle × Element) (h : s.1 = s'.1) : (applyAll sizes l s).1 = (applyAll sizes l s').1 := by
  induction l generalizing s s' with
  | nil => exact h
  | cons x l ih =>
    obtain ⟨d, v⟩ := x
    refine ih _ _ ?_
    unfold applyValue
    cases (assignment sizes d.key v).1 <;> simp only [Assign.write, h]

theorem applyAll_snd (sizes : Sizes) (l : ComputedStyle) (s s' : LayoutStyle × Element) (h : s.2 = s'.2) : (applyAll sizes l s).2 = (applyAll sizes l s').2 := by
  induction l generalizing s s' with
  | nil => exact h
  | cons x l ih =>
    obtain ⟨d, v⟩ := x
    refine ih _ _ ?_
    unfold applyValue
    cases (assignment sizes d.key v).1 <;> simp only [Assign.write, h]

/-- An element with everything that laying out and input decide from another one. -/
def Element.like (e e' : Element) : Element :=
  { e with opacity := e'.opacity, position := e'.position, size := e'.size, contentSize := e'.contentSize, scrolling := e'.scrolling,
           clipping := e'.clipping, state := e'.state }

theorem write_like (a : Assign) (i : Nat) (l : LayoutStyle) (e e' : Element) : a.write i l (e.like e') = ((a.write i l e).1, (a.write i l e).2.like e') := by
  cases a with
  | element a => cases a <;> rfl
  | _ => rfl

theorem applyAll_like (sizes : Sizes) (l : ComputedStyle) (s : LayoutStyle × Element) (e' : Element) :
    applyAll sizes l (s.1, s.2.like e') = ((applyAll sizes l s).1, (applyAll sizes l s).2.like e') := by
  induction l generalizing s with
  | nil => rfl
  | cons x l ih =>
    obtain ⟨d, v⟩ := x
    simp only [applyAll]
    rw [← ih]
    unfold applyValue
    rw [write_like]

/-! ## Resetting -/

/-- What styling begins with. -/
def Element.anew (parent e : Element) : Element := parent.inherit e.reset

theorem anew_write (parent : Element) (a : Assign) (i : Nat) (l : LayoutStyle) (e : Element) :
    Element.anew parent (a.write i l e).2 = Element.anew parent e ∨ Element.anew parent (a.write i l e).2 = (a.write i l (Element.anew parent e)).2 := by
  cases a with
  | element a =>
    cases a with
    | pointer v => exact .inr rfl
    | visible v => exact .inr rfl
    | _ => exact .inl rfl
  | transition a => exact .inr rfl
  | animator a => exact .inr rfl
  | _ => exact .inl rfl

theorem anew_applyAll (parent : Element) (sizes : Sizes) (l : ComputedStyle) (s : LayoutStyle × Element) :
    ∃ l', (∀ x ∈ l', x ∈ l) ∧ Element.anew parent (applyAll sizes l s).2 = (applyAll sizes l' (s.1, Element.anew parent s.2)).2 := by
  induction l generalizing s with
  | nil => exact ⟨[], fun _ h => h, rfl⟩
  | cons x l ih =>
    obtain ⟨d, v⟩ := x
    obtain ⟨l', h1, h2⟩ := ih (applyValue sizes d v s)
    simp only [applyAll]
    rcases anew_write parent (assignment sizes d.key v).1 d.index s.1 s.2 with h | h
    · refine ⟨l', fun x hx => List.mem_cons_of_mem _ (h1 x hx), h2.trans ?_⟩
      exact applyAll_snd sizes l' _ _ h
    · refine ⟨(d, v) :: l', fun x hx => ?_, h2.trans ?_⟩
      · rcases List.mem_cons.1 hx with rfl | hx
        · exact List.mem_cons_self
        · exact List.mem_cons_of_mem _ (h1 x hx)
      · exact applyAll_snd sizes l' _ _ h

/-- Styling an element that has just been styled changes nothing. -/
theorem styleElement_again {env env' : FrameEnv} (hf : env.order.Fair) (hf' : env'.order.Fair) (hfuel : env'.fuel = env.fuel) {t t' : Tree} {n : NodeId} {parent parent' e e' e2 : Element} {sizes : Sizes}
    {vars vars' : Variables} {layout l : LayoutStyle} (h : styleElement env t n parent sizes vars layout e = .ok ((l, e'), vars'))
    (happ : applied env'.checks viewPseudo t' n (env'.rules n) = applied env.checks viewPseudo t n (env.rules n)) (hp : SameStyled parent parent') (he : SameStyled e' e2)
    (ha : e.animators = []) (ht : e.transitions = []) (ha' : e'.animators = []) (ht' : e'.transitions = []) (hs : ∀ x ∈ declarations env t n e, x.Singular) :
    styleElement env' t' n parent' sizes vars l e2 = .ok ((l, e2), vars') := by
  obtain ⟨-, -, hstyle⟩ := styleElement_form h
  obtain ⟨rules, declared, animators, animated, transitions, final, st⟩ := styleElement_steps.1 h
  have h1 := st.hAnimators
  rw [ha] at h1
  simp only [playAnimators, Except.ok.injEq, Prod.mk.injEq] at h1
  obtain ⟨rfl, rfl⟩ := h1
  have h2 := st.hTransitions
  rw [ht] at h2
  simp only [playTransitions, Except.ok.injEq, Prod.mk.injEq] at h2
  obtain ⟨rfl, rfl⟩ := h2
  have honce := st.declared_once
  have hord : ∀ d v, declared.get d = some v → Orderly d := st.domain hf (fun x hx _ _ _ hx' => by
    refine singular_orderly ?_ hx'
    rcases hx with hx | hx
    · exact hs x hx
    · simp [keyframeDeclarations, ha] at hx)
  have hcomm := commuting_orderly sizes honce hord
  have hE : ({ parent.inherit e.reset with animators := [], transitions := [] } : Element) = Element.anew parent e := by
    unfold Element.anew
    have g1 : (parent.inherit e.reset).animators = [] := ha
    have g2 : (parent.inherit e.reset).transitions = [] := ht
    generalize parent.inherit e.reset = x at g1 g2
    cases x; simp only at g1 g2; subst g1; subst g2; rfl
  have hperm : ∀ s, applyAll sizes (env.order.style n declared) s = applyAll sizes declared s := by
    have ho : ComputedStyle.Once (env.order.style n declared) := ((hf.style n declared).map _).nodup_iff.2 honce
    exact applyAll_orderly sizes (hf.style n declared) ho fun d v hv => hord d v ((honce.get_iff d v).2 ((hf.style n declared).mem_iff.1 ((ho.get_iff d v).1 hv)))
  have hperm' : ∀ s, applyAll sizes (env'.order.style n declared) s = applyAll sizes declared s := by
    have ho : ComputedStyle.Once (env'.order.style n declared) := ((hf'.style n declared).map _).nodup_iff.2 honce
    exact applyAll_orderly sizes (hf'.style n declared) ho fun d v hv => hord d v ((honce.get_iff d v).2 ((hf'.style n declared).mem_iff.1 ((ho.get_iff d v).1 hv)))
  have hl := st.hLayout
  have hel := st.hElement
  rw [hE, hperm] at hl hel
  have hel' : e' = (applyAll sizes declared (layout, Element.anew parent e)).2 := by
    have g : (applyAll sizes declared (layout, Element.anew parent e)).2.transitions = [] := by
      have := congrArg Element.transitions hel
      rw [ht'] at this
      simpa using this.symm
    rw [hel, g]
    simp only [List.map_nil]
    generalize (applyAll sizes declared (layout, Element.anew parent e)).2 = x at g
    cases x; simp only at g; subst g; rfl
  obtain ⟨l', hsub, hre⟩ := anew_applyAll parent sizes declared (layout, Element.anew parent e)
  have hag : Element.anew parent (Element.anew parent e) = Element.anew parent e := rfl
  simp only [hag] at hre
  rw [← hel'] at hre
  have hbase : applyAll sizes declared (l, Element.anew parent e') = (l, e') := by
    refine Prod.ext ?_ ?_
    · rw [applyAll_fst sizes declared (l, Element.anew parent e') (applyAll sizes declared (layout, Element.anew parent e)) hl,
        applyAll_absorb_all sizes hcomm (fun _ h => h)]
      exact hl.symm
    · rw [applyAll_snd sizes declared (l, Element.anew parent e') (applyAll sizes l' (layout, Element.anew parent e)) hre, applyAll_absorb_all sizes hcomm hsub]
      exact hel'.symm
  have e2l : e2 = e'.like e2 := he
  have hre2 : parent'.inherit e2.reset = (Element.anew parent e').like e2 := by
    rw [e2l, hp]; rfl
  have hres : applyAll sizes declared (l, (Element.anew parent e').like e2) = (l, e2) := by
    have := applyAll_like sizes declared (l, Element.anew parent e') e2
    simp only at this
    rw [this, hbase, ← e2l]
  refine styleElement_steps.2 ⟨rules, declared, [], declared, [], declared, ?_, ?_, ?_, ?_, ?_, ?_⟩
  · rw [happ]; exact st.hRules
  · rw [hfuel, show e2.style = e.style from by rw [he]; exact hstyle]; exact st.hBlocks
  · rw [show e2.animators = [] from by rw [he]; exact ha']; rfl
  · rw [show e2.transitions = [] from by rw [he]; exact ht']; rfl
  · have hE2 : ({ parent'.inherit e2.reset with animators := [], transitions := [] } : Element) = (Element.anew parent e').like e2 := by
      rw [hre2]
      have g1 : ((Element.anew parent e').like e2).animators = [] := ha'
      have g2 : ((Element.anew parent e').like e2).transitions = [] := ht'
      generalize (Element.anew parent e').like e2 = x at g1 g2
      cases x; simp only at g1 g2; subst g1; subst g2; rfl
    rw [hE2, hperm', hres]
  · have hE2 : ({ parent'.inherit e2.reset with animators := [], transitions := [] } : Element) = (Element.anew parent e').like e2 := by
      rw [hre2]
      have g1 : ((Element.anew parent e').like e2).animators = [] := ha'
      have g2 : ((Element.anew parent e').like e2).transitions = [] := ht'
      generalize (Element.anew parent e').like e2 = x at g1 g2
      cases x; simp only at g1 g2; subst g1; subst g2; rfl
    rw [hE2, hperm', hres]
    have g : e2.transitions = [] := by rw [he]; exact ht'
    simp only [g, List.map_nil]
    cases e2; simp only at g; subst g; rfl

/-! ## The tree -/

/-- The nodes below `n` are at most so many levels deep. -/
def Deep (kids : NodeId → List NodeId) : Nat → NodeId → Prop
  | 0, _ => False
  | d + 1, n => ∀ c ∈ kids n, Deep kids d c

theorem placeTree_deep {boxes : NodeId → Layout} {kids : NodeId → List NodeId} (depth : Nat) : ∀ {n : NodeId} {location : Rat × Rat} {opacity : Rat}
    {clipping : Option Layout} {t t' : Tree}, placeTree boxes depth n location opacity clipping t = .ok t' → t.kids = kids → t'.kids = kids ∧ Deep kids depth n := by
  induction depth with
  | zero => intro n l o c t t' h; cases h
  | succ depth ih =>
    intro n location opacity clipping t t' h hk
    rw [placeTree] at h
    cases he : t.ctx n with
    | none => rw [he] at h; cases h
    | some e =>
      rw [he] at h
      simp only at h
      rw [hk] at h
      have loop : ∀ (cs : List NodeId) {s s' : Tree} {location opacity clipping}, s.kids = kids →
          forEach (fun t c => placeTree boxes depth c location opacity clipping t) cs s = .ok s' → s'.kids = kids ∧ ∀ c ∈ cs, Deep kids depth c := by
        intro cs
        induction cs with
        | nil => intro s s' _ _ _ hs h; injection h with h; subst h; exact ⟨hs, fun c hc => by cases hc⟩
        | cons c cs ihc =>
          intro s s' location opacity clipping hs h
          simp only [forEach] at h
          split at h
          · cases h
          · rename_i s1 h1
            obtain ⟨g1, g2⟩ := ih h1 hs
            obtain ⟨g3, g4⟩ := ihc g1 h
            exact ⟨g3, fun x hx => by rcases List.mem_cons.1 hx with rfl | hx; exacts [g2, g4 x hx]⟩
      exact loop (kids n) (s := t.setCtx n _) hk h

theorem put_same (s : Styled) {n : NodeId} {e : Element} (h : s.tree.ctx n = some e) : s.put n (s.layouts n) e = s := by
  obtain ⟨t, layouts⟩ := s
  simp only [Styled.put, Tree.setCtx]
  congr 1
  · simp only at h
    have : upd t.ctx n (some e) = t.ctx := by
      funext m
      by_cases hm : m = n
      · subst hm; rw [upd_same, h]
      · rw [upd_other _ _ hm]
    rw [this]
  · funext m
    by_cases hm : m = n
    · subst hm; rw [upd_same]
    · rw [upd_other _ _ hm]

theorem forEach_same {σ : Type} {f : σ → NodeId → Except Trouble σ} {s : σ} (cs : List NodeId) (h : ∀ c ∈ cs, f s c = .ok s) : forEach f cs s = .ok s := by
  induction cs with
  | nil => rfl
  | cons c cs ih =>
    simp only [forEach, h c List.mem_cons_self]
    exact ih fun c hc => h c (List.mem_cons_of_mem _ hc)

/-- Styling a tree that has just been styled changes nothing, if the same rules are for its elements. -/
theorem styleView_again {env env' : FrameEnv} (hf : env.order.Fair) (hf' : env'.order.Fair) (hfuel : env'.fuel = env.fuel) {s s' s2 : Styled} {root body : NodeId} {viewport : Rat × Rat} {depth : Nat}
    (wf : s.tree.Wf root body) (h : styleView env depth body viewport s = .ok s') (hlay : s2.layouts = s'.layouts) (htree : Tree.Related SameStyled s'.tree s2.tree)
    (happ : ∀ n, applied env'.checks viewPseudo s2.tree n (env'.rules n) = applied env.checks viewPseudo s.tree n (env.rules n))
    (hstill : s.tree.Calm stillManner) (hstill' : s'.tree.Calm stillManner) (hs : ∀ n e, s.tree.ctx n = some e → ∀ x ∈ declarations env s.tree n e, x.Singular)
    {d : Nat} (hdeep : Deep s.tree.kids d body) : styleView env' d body viewport s2 = .ok s2 := by
  have hl := linked_of_wf wf
  have hre : Restyled s.tree s'.tree := styleView_restyled wf h
  have hkids : s2.tree.kids = s.tree.kids := htree.kids.trans hre.kids
  have hpar : s2.tree.par = s.tree.par := htree.par.trans hre.par
  have key : ∀ d n q parent vars, Styles s.tree body n → Deep s.tree.kids d n → s.tree.par n = some q → s2.tree.ctx q = some parent →
      (∀ name l, vars name = some l ↔ n ≠ body ∧ Given env s.tree body name l q) → styleTree env' d n (sizesAt body viewport n parent) vars s2 = .ok s2 := by
    intro d
    induction d with
    | zero => intro n q parent vars _ hd; cases hd
    | succ d ih =>
      intro n q parent2 vars hn hd hq hp2 hvars
      rw [styleTree]
      have hb : (s2.tree.par n).bind s2.tree.ctx = some parent2 := by rw [hpar, hq]; exact hp2
      cases styledAt_all hl h hn with
      | @text q' parent e h1 h2 h3 h4 h5 h6 =>
        rw [hq] at h1; injection h1 with h1; subst h1
        obtain ⟨parent3, g1, g2⟩ := htree.there _ _ h2
        rw [hp2] at g1; injection g1 with g1; subst g1
        obtain ⟨e2, g3, g4⟩ := htree.there _ _ h5
        rw [hb, g3]
        simp only
        have : e2.text.isSome := by rw [g4]; exact h4
        rw [if_pos this]
        have hin : parent2.inherit e2 = e2 := by
          rw [g4, g2]; rfl
        rw [hin, put_same s2 g3]
      | @element q' parent e vars1 l e' vars' h1 h2 h3 h4 h5 h6 h7 h8 h9 =>
        rw [hq] at h1; injection h1 with h1; subst h1
        obtain ⟨parent3, g1, g2⟩ := htree.there _ _ h2
        rw [hp2] at g1; injection g1 with g1; subst g1
        obtain ⟨e2, g3, g4⟩ := htree.there _ _ h8
        have hv : vars = vars1 := by
          funext name
          cases hx : vars name with
          | some l => exact ((h5 name l).2 ((hvars name l).1 hx)).symm
          | none =>
            cases hy : vars1 name with
            | none => rfl
            | some l => rw [(hvars name l).2 ((h5 name l).1 hy)] at hx; cases hx
        subst hv
        have hform := (styleElement_form h7).1
        have hst := (hstill n e h3)
        have hst' := (hstill' n e' h8)
        rw [hb, g3]
        simp only
        have htext : ¬ e2.text.isSome := by rw [g4]; show ¬ e'.text.isSome; rw [hform.text, h4]; simp
        rw [if_neg htext, sizesAt_styled g2]
        have hag := styleElement_again hf hf' hfuel h7 (happ n) g2 g4 (List.eq_nil_iff_forall_not_mem.2 hst.animators) (List.eq_nil_iff_forall_not_mem.2 hst.transitions)
          (List.eq_nil_iff_forall_not_mem.2 hst'.animators) (List.eq_nil_iff_forall_not_mem.2 hst'.transitions) (hs n e h3)
        have hln : s2.layouts n = l := by rw [hlay]; exact h9
        rw [hln, hag]
        simp only
        rw [← hln, put_same s2 g3]
        split
        · rfl
        · rename_i hleaf
          refine forEach_same _ fun c hc => ?_
          rw [hkids] at hc
          have hcb : c ≠ body := by
            have h1 := Styles.le hl hn
            have h2 := hl.older _ _ (hl.link _ _ hc)
            unfold NodeId at *; omega
          have htag : e2.tag = e.tag := by rw [g4]; exact hform.tag
          have := ih c n e2 vars' (.child hn h3 h4 (by rw [← htag]; exact hleaf) hc) (hd c hc) (hl.link _ _ hc) g3 (fun name l => by rw [h6]; simp [hcb])
          simpa only [sizesAt, if_neg hcb, Sizes.under] using this
  have hbody : Styles s.tree body body := .body
  have : ∃ q parent, s.tree.par body = some q ∧ s'.tree.ctx q = some parent := by
    cases styledAt_all hl h hbody <;> exact ⟨_, _, ‹_›, ‹_›⟩
  obtain ⟨q, parent, h1, h2⟩ := this
  obtain ⟨parent2, g1, g2⟩ := htree.there _ _ h2
  have := key d body q parent2 (fun _ => none) hbody hdeep h1 g1 (fun name l => by simp)
  unfold styleView
  simpa only [sizesAt, if_true] using this

/-! ## Placing -/

theorem ensure_twice (layout : Layout) (s : Option Scrolling) : Scrolling.ensure layout (Scrolling.ensure layout s) = Scrolling.ensure layout s := by
  unfold Scrolling.ensure
  simp only
  split
  · simp only [Option.some.injEq, Scrolling.mk.injEq, and_true]
    exact ⟨min_assoc _ _ _ |>.trans (by rw [min_self]), min_assoc _ _ _ |>.trans (by rw [min_self])⟩
  · rfl

theorem placed_twice {e e2 : Element} {layout : Layout} {opacity : Rat} {clipping : Option Layout} (h : e2 = { e.placed layout opacity clipping with state := e2.state }) :
    e2.placed layout opacity clipping = e2 := by
  rw [h]
  simp only [Element.placed, ensure_twice]

theorem setCtx_same {t : Tree} {n : NodeId} {e : Element} (h : t.ctx n = some e) : t.setCtx n e = t := by
  unfold Tree.setCtx
  have : upd t.ctx n (some e) = t.ctx := by
    funext m
    by_cases hm : m = n
    · subst hm; rw [upd_same, h]
    · rw [upd_other _ _ hm]
  rw [this]

/-- Placing a tree that has just been placed changes nothing. -/
theorem placeTree_again {boxes : NodeId → Layout} {t t1 t2 : Tree} (hso : StateOnly t1 t2) (hk : t1.kids = t.kids) {n : NodeId} {location : Rat × Rat} {opacity : Rat} {clipping : Option Layout}
    (h : PlacedFrom boxes t t1 n location opacity clipping) : ∀ {d : Nat}, Deep t.kids d n → placeTree boxes d n location opacity clipping t2 = .ok t2 := by
  induction h with
  | @mk n location opacity clipping e h1 h2 _ ih =>
    intro d hd
    cases d with
    | zero => cases hd
    | succ d =>
      obtain ⟨e2, g1, g2⟩ := hso.there _ _ h2
      rw [placeTree, g1]
      simp only
      rw [show ({ boxes n with x := (boxes n).x + location.1, y := (boxes n).y + location.2 } : Layout) = absolute boxes n location from rfl, placed_twice g2, setCtx_same g1]
      refine forEach_same _ fun c hc => ?_
      rw [hso.kids, hk] at hc
      have := ih c hc (hd c hc)
      rw [g2]
      exact this

end Verif
