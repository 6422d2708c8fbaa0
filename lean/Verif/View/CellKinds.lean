import Verif.View.Cells
/-!
# Texts, attributes and displayed children as places (lemmas for C65)
-/
namespace Verif
open Json

variable {inline : String → Option (List Declaration)}

/-- Span `i` of the text of `n`. -/
def textCell (n : NodeId) (i : Nat) : Cell (Option String) where
  get t := (t.ctx n).bind fun e => e.text.bind fun tx => tx.spans[i]?
  write
    | .type m j x => if m = n ∧ j = i then some (some x) else none
    | _ => none

/-- The text of `n` has a span `i`. -/
def HasSpan (n : NodeId) (i : Nat) (t : Tree) : Prop := ∃ e tx, t.ctx n = some e ∧ e.text = some tx ∧ i < tx.spans.length

theorem textCell_sound (n : NodeId) (i : Nat) (root body regs) :
    (textCell n i).Sound (HasSpan n i) root body regs := by
  rintro inline s s' r hwf hr - hu ⟨e, tx, he, htx, hi⟩
  obtain ⟨e', he', ht', -⟩ := updateTree_elem hwf hr hu he
  have key : e'.text = textStep n r (some tx) := by rw [ht', htx]
  cases r with
  | type m j x =>
    simp only [textStep] at key
    by_cases hm : m = n
    · rw [if_pos hm] at key
      simp only [Option.map_some] at key
      refine ⟨⟨e', _, he', key, by rw [set_length]; exact hi⟩, ?_⟩
      simp only [textCell, he', he, Option.bind_some, key, htx, C17_set, List.getElem?_eq_getElem hi, Option.map_some, hm,
        true_and]
      by_cases hj : j = i <;> simp [hj]
    · rw [if_neg hm] at key
      refine ⟨⟨e', _, he', key, hi⟩, ?_⟩
      simp only [textCell, he', he, Option.bind_some, key, htx]
      rw [if_neg (fun hh => hm hh.1)]; rfl
  | _ =>
    refine ⟨⟨e', _, he', key, hi⟩, ?_⟩
    simp only [textCell, he', he, Option.bind_some, key, htx, textStep]
    rfl

/-- Span `i` of the bound attribute `key` of `n`. -/
def attrSpanCell (n : NodeId) (key : String) (i : Nat) : Cell (Option String) where
  get t := (t.ctx n).bind fun e => (e.attrsBindings key).bind fun tx => tx.spans[i]?
  write
    | .bind m k j x => if m = n ∧ k = key ∧ j = i then some (some x) else none
    | _ => none

/-- The bound attribute `key` of `n` has a span `i`. -/
def HasAttrSpan (n : NodeId) (key : String) (i : Nat) (t : Tree) : Prop :=
  ∃ e tx, t.ctx n = some e ∧ e.attrsBindings key = some tx ∧ i < tx.spans.length

theorem attrSpanCell_sound (n : NodeId) (key : String) (i : Nat) (root body regs) :
    (attrSpanCell n key i).Sound (HasAttrSpan n key i) root body regs := by
  rintro inline s s' r hwf hr - hu ⟨e, tx, he, htx, hi⟩
  obtain ⟨e', he', -, hb', -⟩ := updateTree_elem hwf hr hu he
  cases r with
  | bind m k j x =>
    simp only [bindStep] at hb'
    by_cases hm : m = n
    · rw [if_pos hm] at hb'
      by_cases hk : key = k
      · subst hk
        have key' : e'.attrsBindings key = some (tx.set j x) := by rw [hb']; simp [htx]
        refine ⟨⟨e', _, he', key', by rw [set_length]; exact hi⟩, ?_⟩
        simp only [attrSpanCell, he', he, Option.bind_some, key', htx, C17_set, List.getElem?_eq_getElem hi, Option.map_some, hm,
          true_and]
        by_cases hj : j = i <;> simp [hj]
      · have key' : e'.attrsBindings key = some tx := by rw [hb']; simp [hk, htx]
        refine ⟨⟨e', _, he', key', hi⟩, ?_⟩
        simp only [attrSpanCell, he', he, Option.bind_some, key', htx]
        rw [if_neg (fun hh => hk hh.2.1.symm)]; rfl
    · rw [if_neg hm] at hb'
      refine ⟨⟨e', _, he', by rw [hb']; exact htx, hi⟩, ?_⟩
      simp only [attrSpanCell, he', he, Option.bind_some, hb', htx]
      rw [if_neg (fun hh => hm hh.1)]; rfl
  | _ =>
    simp only [bindStep] at hb'
    refine ⟨⟨e', _, he', by rw [hb']; exact htx, hi⟩, ?_⟩
    simp only [attrSpanCell, he', he, Option.bind_some, hb', htx]
    rfl

/-- Attribute `key` of `n`, when it is not a text with expressions. -/
def attrCell (n : NodeId) (key : String) : Cell (Option String) where
  get t := (t.ctx n).bind fun e => e.attrs key
  write
    | .tag m k b => if m = n ∧ k = key then some (if b then some key else none) else none
    | _ => none

theorem react_attr {b : Binding} {x : Json} {n key i y} (h : b.react x = .bind n key i y) :
    b.params = .attribute n key i ∧ y = x.evalString := by
  unfold Binding.react at h
  cases hp : b.params <;> rw [hp] at h <;> simp only [] at h
  case «attribute» m k j =>
    simp only [Reaction.bind.injEq] at h
    obtain ⟨rfl, rfl, rfl, rfl⟩ := h; exact ⟨rfl, rfl⟩
  all_goals first | (simp at h; done) | (split at h <;> simp at h)

theorem react_tag {b : Binding} {x : Json} {n key y} (h : b.react x = .tag n key y) :
    b.params = .tag n key ∧ y = x.evalBoolean := by
  unfold Binding.react at h
  cases hp : b.params <;> rw [hp] at h <;> simp only [] at h
  case tag m k =>
    simp only [Reaction.tag.injEq] at h
    obtain ⟨rfl, rfl, rfl⟩ := h; exact ⟨rfl, rfl⟩
  all_goals first | (simp at h; done) | (split at h <;> simp at h)

theorem attrCell_sound (n : NodeId) (key : String) (root body) {regs : List (String × Binding)}
    (hno : ∀ r ∈ regs, ∀ i, r.2.params ≠ .attribute n key i) :
    (attrCell n key).Sound (fun t => (t.ctx n).isSome) root body regs := by
  rintro inline s s' r hwf hr hc hu hs
  obtain ⟨e, he⟩ := Option.isSome_iff_exists.1 hs
  obtain ⟨e', he', -, -, ha', -⟩ := updateTree_elem hwf hr hu he
  refine ⟨by simp [he'], ?_⟩
  cases r with
  | bind m k j x =>
    simp only [attrStep] at ha'
    simp only [attrCell, he', he, Option.bind_some, ha']
    by_cases hm : m = n
    · rw [if_pos hm]
      by_cases hk : key = k
      · subst hk; subst hm
        obtain ⟨g, hg, y, hy⟩ := hc
        exact absurd (react_attr hy.symm).1 (hno g hg j)
      · simp [hk]
    · rw [if_neg hm]; rfl
  | tag m k b =>
    simp only [attrStep] at ha'
    simp only [attrCell, he', he, Option.bind_some, ha']
    by_cases hm : m = n
    · rw [if_pos hm]
      by_cases hk : k = key
      · subst hk; cases b <;> simp [hm, SMap.del]
      · cases b <;> simp [hk, SMap.del, SMap.set, Ne.symm hk]
    · rw [if_neg hm]; simp [hm]
  | _ =>
    simp only [attrStep] at ha'
    simp only [attrCell, he', he, Option.bind_some, ha']
    rfl

/-- Whether `c` is displayed under `p`. -/
def shownCell (slots : List NodeId) (p c : NodeId) : Cell Bool where
  get t := decide (c ∈ t.kids p)
  write
    | .reattach q n v => if q = p ∧ n = c then some v else none
    | .repeat q i k j => if q = p ∧ c ∈ slice slots i j then some (decide (c ∈ slice slots i k)) else none
    | _ => none

theorem shownCell_sound (slots : List NodeId) (p c : NodeId) (root body) (regs : List (String × Binding))
    (hp : p ≠ root) (hc : c ∈ slots) :
    (shownCell slots p c).Sound (fun t => t.slots root body p = slots) root body regs := by
  rintro inline s s' r hwf hr - hu hs
  obtain ⟨s1, h1, st⟩ := updateTree_step (inline := inline) hwf hr
  rw [hu] at h1; injection h1 with h1; subst h1
  refine ⟨(st.same.slots root body p).trans hs, ?_⟩
  have hshown := st.shown p hp c
  rw [hs, and_iff_right hc] at hshown
  have key : decide (c ∈ s'.tree.kids p) = showStep slots p (fun c => decide (c ∈ s.tree.kids p)) r c := by
    by_cases hk : c ∈ s'.tree.kids p
    · rw [hshown.1 hk]; simpa using hk
    · have : ¬ _ := fun hh => hk (hshown.2 hh)
      rw [Bool.not_eq_true] at this
      rw [this]; simpa using hk
  show decide (c ∈ s'.tree.kids p) = _
  rw [key]
  cases r with
  | reattach q n v =>
    simp only [showStep, shownCell]
    by_cases hq : q = p ∧ n = c
    · rw [if_pos ⟨hq.1, hq.2.symm⟩, if_pos hq]; rfl
    · rw [if_neg (fun hh => hq ⟨hh.1, hh.2.symm⟩), if_neg hq]; rfl
  | «repeat» q i k j =>
    simp only [showStep, shownCell]
    split <;> rfl
  | _ => rfl

/-! ### other invariants of the elements -/

/-- What reactions never change of an element, with its own node. -/
theorem updateTree_node {s s' : Stage} {root body : NodeId} (h : s.tree.Wf root body)
    {r : Reaction} (hr : ReactionOk s.tree root body r) (hu : updateTree inline s r = .ok s')
    {n : NodeId} {e : Element} (he : s.tree.ctx n = some e) :
    ∃ e', s'.tree.ctx n = some e' ∧ e'.node = e.node := by
  cases r with
  | type m i x =>
    obtain ⟨em, hem, ht⟩ := hr
    obtain ⟨tx, htx⟩ := Option.isSome_iff_exists.1 ht
    simp only [updateTree, hem, htx, Except.ok.injEq] at hu
    subst hu
    by_cases hm : m = n
    · subst hm
      rw [he] at hem; injection hem with hem; subst hem
      exact ⟨_, upd_same _ _ _, rfl⟩
    · exact ⟨e, by simp [Tree.setCtx, upd_other _ _ (Ne.symm hm), he], rfl⟩
  | reattach p m v =>
    obtain ⟨K, par', h1, -⟩ := reattach_effect h hr
    simp only [updateTree, h1, bind, Except.bind, Except.ok.injEq] at hu
    subst hu
    exact ⟨e, he, rfl⟩
  | «repeat» p i k j =>
    obtain ⟨par', h1, -⟩ := repeat_effect h hr
    simp only [updateTree, h1, bind, Except.bind, Except.ok.injEq] at hu
    subst hu
    exact ⟨e, he, rfl⟩
  | tag m k b =>
    obtain ⟨em, hem⟩ := Option.isSome_iff_exists.1 hr
    simp only [updateTree, Tree.elem, hem, bind, Except.bind, Except.ok.injEq] at hu
    subst hu
    by_cases hm : m = n
    · subst hm
      rw [he] at hem; injection hem with hem; subst hem
      exact ⟨_, upd_same _ _ _, rfl⟩
    · exact ⟨e, by simp [Tree.setCtx, upd_other _ _ (Ne.symm hm), he], rfl⟩
  | bind m k i x =>
    obtain ⟨hmr, em, hem, ha⟩ := hr
    obtain ⟨att, hatt⟩ := Option.isSome_iff_exists.1 ha
    obtain ⟨s1, h1, -, -, -, -, -, hother⟩ :=
      bindReact_ok (inline := inline) (span := i) (text := x) h hmr hem hatt
    have h1' := h1
    simp only [updateTree] at hu
    by_cases hm : m = n
    · subst hm
      rw [he] at hem; injection hem with hem; subst hem
      unfold bindReact at hu
      simp only [Tree.elem, he, bind, Except.bind, hatt] at hu
      have haux : ∀ (t t' : Tree) (src : String), updateImgSrc t m src = .ok t' → ∀ e1, t.ctx m = some e1 →
          ∃ e2, t'.ctx m = some e2 ∧ e2.node = e1.node := by
        intro t t' src hsrc e1 he1
        unfold updateImgSrc at hsrc
        simp only [bind, Except.bind] at hsrc
        split at hsrc
        · simp at hsrc
        · rename_i c hc
          split at hsrc
          · simp at hsrc
          · injection hsrc with hsrc; subst hsrc
            by_cases hcm : m = c
            · subst hcm
              refine ⟨{ e1 with backgrounds := updateAt e1.backgrounds 0 {} fun b => { b with image := some src, isSrc := true } },
                (upd_same _ _ _).trans (by rw [he1]; rfl), rfl⟩
            · exact ⟨e1, by simp [Tree.modify, upd_other _ _ hcm, he1], rfl⟩
      generalize hE : (if k = "style" then _ else _ : Element) = E at hu
      have hn : E.node = e.node := by rw [← hE]; split <;> rfl
      split at hu
      · split at hu
        · simp at hu
        · rename_i t ht
          injection hu with hu; subst hu
          obtain ⟨e2, g1, g2⟩ := haux _ _ _ ht _ (upd_same _ _ _)
          exact ⟨e2, g1, by rw [g2]; exact hn⟩
      · injection hu with hu; subst hu
        exact ⟨_, upd_same _ _ _, hn⟩
    · rw [h1] at hu; injection hu with hu; subst hu
      obtain ⟨bg, hbg⟩ := hother n (Ne.symm hm)
      exact ⟨{ e with backgrounds := bg e.backgrounds }, by rw [hbg, he]; rfl, rfl⟩

/-- Something that holds of a tree after any caused reaction if it did before, holds after updates. -/
theorem invariant_updates {s : Shape} {σ : Render} {tr : Transformers} {v v' : View} {vs : List Json} {I : Tree → Prop}
    (h : Follows s σ tr [] v) (hf : ∀ w ∈ vs, Fits s w) (hu : v.updates inline vs = .ok v')
    (hstep : ∀ (s s' : Stage) (r : Reaction), s.tree.Wf v.root v.body → ReactionOk s.tree v.root v.body r →
      Caused σ.regs r → updateTree inline s r = .ok s' → I s.tree → I s'.tree) (h0 : I v.stage.tree) : I v'.stage.tree := by
  have aux : ∀ (rs : List Reaction) (s s' : Stage), s.tree.Wf v.root v.body →
      (∀ r ∈ rs, ReactionOk s.tree v.root v.body r) → (∀ r ∈ rs, Caused σ.regs r) → updateTrees inline s rs = .ok s' →
      I s.tree → I s'.tree := by
    intro rs
    induction rs with
    | nil => intro s s' _ _ _ hu hI; simp only [updateTrees, Except.ok.injEq] at hu; subst hu; exact hI
    | cons r rs ih =>
      intro s s' hwf hrs hc hu hI
      obtain ⟨s1, h1, st⟩ := updateTree_step (inline := inline) hwf (hrs r (by simp))
      simp only [updateTrees, h1, bind, Except.bind] at hu
      exact ih s1 s' st.wf (fun r' hr' => st.same.reactionOk (hrs r' (by simp [hr']))) (fun r' hr' => hc r' (by simp [hr'])) hu
        (hstep s s1 r hwf (hrs r (by simp)) (hc r (by simp)) h1 hI)
  have := (history_induct (P := fun _ u => (u.root = v.root ∧ u.body = v.body) ∧ I u.stage.tree) vs h hf hu
    ⟨⟨rfl, rfl⟩, h0⟩ ?_).1
  · exact this.2
  · rintro hist u w u' hF - hw huu ⟨⟨r1, r2⟩, hI⟩
    have hr := update_root huu
    obtain ⟨rs, u1, -, -, u2, u3⟩ := update_reactions hF hw huu
    refine ⟨⟨hr.1.trans r1, hr.2.trans r2⟩, aux rs _ _ ?_ ?_ (caused_of u3) u1 hI⟩
    · rw [← r1, ← r2]; exact hF.good.wf
    · rw [← r1, ← r2]; exact u2

/-- The unchanging parts of the elements. -/
theorem defs_updates {s : Shape} {σ : Render} {tr : Transformers} {v v' : View} {vs : List Json}
    (h : Follows s σ tr [] v) (hf : ∀ w ∈ vs, Fits s w) (hu : v.updates inline vs = .ok v') :
    SameDefs v.stage.tree v'.stage.tree ∧
      ∀ n e, v.stage.tree.ctx n = some e → ∃ e', v'.stage.tree.ctx n = some e' ∧ e'.node = e.node := by
  refine invariant_updates (I := fun t => SameDefs v.stage.tree t ∧
      ∀ n e, v.stage.tree.ctx n = some e → ∃ e', t.ctx n = some e' ∧ e'.node = e.node) h hf hu ?_
    ⟨.refl _, fun n e he => ⟨e, he, rfl⟩⟩
  rintro s s' r hwf hr - hu ⟨hI, hJ⟩
  obtain ⟨s1, h1, st⟩ := updateTree_step (inline := inline) hwf hr
  rw [hu] at h1; injection h1 with h1; subst h1
  refine ⟨hI.trans st.same, fun n e he => ?_⟩
  obtain ⟨e', he', hn⟩ := hJ n e he
  obtain ⟨e2, h2, hn2⟩ := updateTree_node hwf hr hu he'
  exact ⟨e2, h2, hn2.trans hn⟩

/-- An attribute with expressions is the concatenation of its spans. -/
def InSync (n : NodeId) (key : String) (t : Tree) : Prop :=
  ∃ e tx, t.ctx n = some e ∧ e.attrsBindings key = some tx ∧ e.attrs key = some tx.toString

theorem sync_updates {s : Shape} {σ : Render} {tr : Transformers} {v v' : View} {vs : List Json}
    (h : Follows s σ tr [] v) (hf : ∀ w ∈ vs, Fits s w) (hu : v.updates inline vs = .ok v') {n : NodeId} {key : String}
    (hno : ∀ r ∈ σ.regs, r.2.params ≠ .tag n key) (h0 : InSync n key v.stage.tree) : InSync n key v'.stage.tree := by
  refine invariant_updates h hf hu ?_ h0
  rintro s s' r hwf hr hc hu ⟨e, tx, he, htx, ha⟩
  obtain ⟨e', he', -, hb', ha', -⟩ := updateTree_elem hwf hr hu he
  cases r with
  | bind m k j x =>
    simp only [bindStep, attrStep] at hb' ha'
    by_cases hm : m = n
    · rw [if_pos hm] at hb' ha'
      by_cases hk : key = k
      · subst hk
        exact ⟨e', tx.set j x, he', by rw [hb']; simp [htx], by rw [ha']; simp [htx]⟩
      · exact ⟨e', tx, he', by rw [hb']; simp [hk, htx], by rw [ha']; simp [hk, ha]⟩
    · rw [if_neg hm] at hb' ha'
      exact ⟨e', tx, he', by rw [hb']; exact htx, by rw [ha']; exact ha⟩
  | tag m k b =>
    simp only [bindStep, attrStep] at hb' ha'
    refine ⟨e', tx, he', by rw [hb']; exact htx, ?_⟩
    rw [ha']
    by_cases hm : m = n
    · rw [if_pos hm]
      have hk : key ≠ k := by
        rintro rfl
        obtain ⟨g, hg, y, hy⟩ := hc
        subst hm
        exact hno g hg (react_tag hy.symm).1
      cases b <;> simp [SMap.del, SMap.set, hk, ha]
    · rw [if_neg hm]; exact ha
  | _ =>
    simp only [bindStep, attrStep] at hb' ha'
    exact ⟨e', tx, he', by rw [hb']; exact htx, by rw [ha']; exact ha⟩

/-- The displayed children of `p` are in template order: some before `start`, then a beginning of the
rest. -/
def OrderedFrom (root body p : NodeId) (start : Nat) (t : Tree) : Prop :=
  ∃ sh a, t.kids p = ((t.slots root body p).take start).filter sh ++ ((t.slots root body p).drop start).take a

theorem order_updates {s : Shape} {σ : Render} {tr : Transformers} {v v' : View} {vs : List Json}
    (h : Follows s σ tr [] v) (hf : ∀ w ∈ vs, Fits s w) (hu : v.updates inline vs = .ok v') {p : NodeId} {start : Nat}
    (hp : p ≠ v.root)
    (hrep : ∀ r ∈ σ.regs, ∀ i k, r.2.params = .repeat p i k → i = start ∧ i + k = (v.stage.tree.slots v.root v.body p).length)
    (hvis : ∀ r ∈ σ.regs, ∀ c want, r.2.params = .visibility p c want → c ∈ (v.stage.tree.slots v.root v.body p).take start)
    (h0 : OrderedFrom v.root v.body p start v.stage.tree) : OrderedFrom v.root v.body p start v'.stage.tree := by
  refine (invariant_updates (I := fun t => t.slots v.root v.body p = v.stage.tree.slots v.root v.body p ∧
    OrderedFrom v.root v.body p start t) h hf hu ?_ ⟨rfl, h0⟩).2
  rintro s s' r hwf hr hc hu ⟨hsl, sh, a, hk⟩
  obtain ⟨s1, h1, st⟩ := updateTree_step (inline := inline) hwf hr
  rw [hu] at h1; injection h1 with h1; subst h1
  obtain ⟨s2, sh', a', g1, g2⟩ := C15_order_partial (inline := inline) start s [r] hwf (by simpa using hr) hp
    (by
      simp only [List.mem_singleton, forall_eq]
      obtain ⟨g, hg, x, hx⟩ := hc
      constructor
      · intro i k j e
        rw [e] at hx
        obtain ⟨m, r1, r2⟩ := react_repeat hx.symm
        obtain ⟨q1, q2⟩ := hrep g hg i m r1
        exact ⟨q1, by rw [r2, q2, hsl]⟩
      · intro n w e
        rw [e] at hx
        obtain ⟨want, r1, -⟩ := react_vis hx.symm
        rw [hsl]; exact hvis g hg n want r1) sh a hk
  simp only [updateTrees, hu, bind, Except.bind, Except.ok.injEq] at g1
  subst g1
  refine ⟨(st.same.slots _ _ _).trans hsl, sh', a', ?_⟩
  rw [st.same.slots]; exact g2

/-- In order, the displayed children are the template children that are displayed. -/
theorem ordered_filter {t : Tree} {root body p : NodeId} (hwf : t.Wf root body) {start : Nat}
    (h : OrderedFrom root body p start t) :
    t.kids p = (t.slots root body p).filter (fun c => decide (c ∈ t.kids p)) := by
  obtain ⟨sh, a, hk⟩ := h
  have hnd := hwf.slotsNodup p
  generalize t.slots root body p = D at *
  have hD : D = D.take start ++ D.drop start := (List.take_append_drop start D).symm
  have hsub : (t.kids p).Sublist D := by
    rw [hk]
    conv => rhs; rw [hD]
    exact List.filter_sublist.append (List.take_sublist _ _)
  exact sublist_filter hnd hsub
where
  sublist_filter {K D : List NodeId} (hnd : D.Nodup) (h : K.Sublist D) : K = D.filter (fun c => decide (c ∈ K)) := by
    induction h with
    | slnil => simp
    | @cons K D a hs ih =>
      obtain ⟨h1, h2⟩ := List.nodup_cons.1 hnd
      rw [List.filter_cons, if_neg (by simpa using fun hm => h1 (hs.subset hm))]
      exact ih h2
    | @cons_cons K D a hs ih =>
      obtain ⟨h1, h2⟩ := List.nodup_cons.1 hnd
      rw [List.filter_cons, if_pos (by simp)]
      congr 1
      conv => lhs; rw [ih h2]
      apply List.filter_congr
      intro x hx
      have : x ≠ a := by rintro rfl; exact h1 hx
      simp [this]

end Verif
