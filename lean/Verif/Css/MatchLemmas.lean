import Verif.Css.Matching
import Verif.Spec.Css
import Verif.Spec.Tree
/-!
# Lemmas about selector matching (C39-C41)
-/
namespace Verif

theorem splitSpace_ne_nil (s : List Char) : splitSpace s ≠ [] := by
  cases s with
  | nil => simp [splitSpace]
  | cons c cs =>
    unfold splitSpace
    split
    · simp
    · split <;> simp

theorem splitSpace_parts (s : List Char) :
    (∀ w, (splitSpace s).head? = some w ↔ ' ' ∉ w ∧ ∃ post, s = w ++ post ∧ (post = [] ∨ ∃ l, post = ' ' :: l)) ∧
    (∀ w, w ∈ (splitSpace s).tail ↔ ' ' ∉ w ∧ ∃ pre post, s = pre ++ ' ' :: (w ++ post) ∧
      (post = [] ∨ ∃ l, post = ' ' :: l)) := by
  induction s with
  | nil =>
    refine ⟨fun w => ?_, fun w => ?_⟩
    · simp only [splitSpace, List.head?_cons, Option.some.injEq]
      constructor
      · rintro rfl; exact ⟨by simp, [], rfl, .inl rfl⟩
      · rintro ⟨-, post, h, -⟩
        exact (List.append_eq_nil_iff.1 h.symm).1.symm
    · simp [splitSpace]
  | cons c cs ih =>
    obtain ⟨ih1, ih2⟩ := ih
    by_cases hc : c = ' '
    · subst hc
      simp only [splitSpace, if_true, List.head?_cons, List.tail_cons, Option.some.injEq]
      refine ⟨fun w => ?_, fun w => ?_⟩
      · constructor
        · rintro rfl; exact ⟨by simp, ' ' :: cs, rfl, .inr ⟨cs, rfl⟩⟩
        · rintro ⟨hw, post, h, -⟩
          cases w with
          | nil => rfl
          | cons a w =>
            simp only [List.cons_append, List.cons.injEq] at h
            rw [← h.1] at hw; simp at hw
      · obtain ⟨h0, t0, he⟩ := List.exists_cons_of_ne_nil (splitSpace_ne_nil cs)
        have e1 := ih1 w
        have e2 := ih2 w
        rw [he] at e1 e2 ⊢
        simp only [List.head?_cons, Option.some.injEq, List.tail_cons] at e1 e2
        rw [List.mem_cons, show w = h0 ↔ h0 = w from eq_comm, e1, e2]
        constructor
        · rintro (⟨hw, post, h, hp⟩ | ⟨hw, pre, post, h, hp⟩)
          · exact ⟨hw, [], post, by simp [h], hp⟩
          · exact ⟨hw, ' ' :: pre, post, by simp [h], hp⟩
        · rintro ⟨hw, pre, post, h, hp⟩
          cases pre with
          | nil => simp only [List.nil_append, List.cons.injEq, true_and] at h; exact .inl ⟨hw, post, h, hp⟩
          | cons a pre =>
            simp only [List.cons_append, List.cons.injEq] at h
            exact .inr ⟨hw, pre, post, h.2, hp⟩
    · obtain ⟨h0, t0, he⟩ := List.exists_cons_of_ne_nil (splitSpace_ne_nil cs)
      simp only [splitSpace, hc, if_false, he, List.head?_cons, List.tail_cons, Option.some.injEq]
      simp only [he, List.head?_cons, List.tail_cons, Option.some.injEq] at ih1 ih2
      refine ⟨fun w => ?_, fun w => ?_⟩
      · constructor
        · rintro rfl
          obtain ⟨hw, post, h, hp⟩ := (ih1 h0).1 rfl
          exact ⟨by simp [hw, Ne.symm hc], post, by simp [h], hp⟩
        · rintro ⟨hw, post, h, hp⟩
          cases w with
          | nil =>
            rcases hp with rfl | ⟨l, rfl⟩
            · simp at h
            · simp only [List.nil_append, List.cons.injEq] at h; exact absurd h.1 hc
          | cons a w =>
            simp only [List.cons_append, List.cons.injEq] at h
            simp only [List.mem_cons, not_or] at hw
            rw [h.1, (ih1 w).2 ⟨hw.2, post, h.2, hp⟩]
      · rw [ih2]
        constructor
        · rintro ⟨hw, pre, post, h, hp⟩; exact ⟨hw, c :: pre, post, by simp [h], hp⟩
        · rintro ⟨hw, pre, post, h, hp⟩
          cases pre with
          | nil => simp only [List.nil_append, List.cons.injEq] at h; exact absurd h.1 hc
          | cons a pre =>
            simp only [List.cons_append, List.cons.injEq] at h
            exact ⟨hw, pre, post, h.2, hp⟩

theorem hasWord_iff {text w : String} (hs : ∀ c ∈ text.toList, CssSpace c → c = ' ') (hne : w ≠ "")
    (hw : ∀ c ∈ w.toList, ¬ CssSpace c) : hasWord text w = true ↔ IsWord text w := by
  unfold hasWord IsWord
  simp only [List.any_eq_true, beq_iff_eq, exists_eq_right]
  have hsp : ' ' ∉ w.toList := fun h => hw _ h (.inl rfl)
  obtain ⟨p1, p2⟩ := splitSpace_parts text.toList
  obtain ⟨h0, t0, he⟩ := List.exists_cons_of_ne_nil (splitSpace_ne_nil text.toList)
  have e1 := p1 w.toList
  have e2 := p2 w.toList
  rw [he] at e1 e2 ⊢
  simp only [List.head?_cons, Option.some.injEq, List.tail_cons] at e1 e2
  rw [List.mem_cons, show w.toList = h0 ↔ h0 = w.toList from eq_comm, e1, e2]
  constructor
  · rintro (⟨-, post, h, hp⟩ | ⟨-, pre, post, h, hp⟩)
    · refine ⟨hne, hw, [], post, by simp [h], .inl rfl, ?_⟩
      rcases hp with hp | ⟨l, hp⟩
      · exact .inl hp
      · exact .inr ⟨' ', l, hp, .inl rfl⟩
    · refine ⟨hne, hw, pre ++ [' '], post, by simp [h], .inr ⟨pre, ' ', rfl, .inl rfl⟩, ?_⟩
      rcases hp with hp | ⟨l, hp⟩
      · exact .inl hp
      · exact .inr ⟨' ', l, hp, .inl rfl⟩
  · rintro ⟨-, -, pre, post, h, hpre, hpost⟩
    have hpost' : post = [] ∨ ∃ l, post = ' ' :: l := by
      rcases hpost with hp | ⟨c, l, hp, hc⟩
      · exact .inl hp
      · have : c = ' ' := hs c (by rw [h, hp]; simp) hc
        subst this; exact .inr ⟨l, hp⟩
    rcases hpre with rfl | ⟨l, c, rfl, hc⟩
    · exact .inl ⟨hsp, post, by simpa using h, hpost'⟩
    · have : c = ' ' := hs c (by rw [h]; simp) hc
      subst this
      exact .inr ⟨hsp, l, post, by simpa using h, hpost'⟩

theorem toList_append_eq {a b c : String} : a.toList = b.toList ++ c.toList ↔ a = b ++ c := by
  rw [← String.toList_append, String.toList_inj]

/-- On the parts the crate reads as CSS does, matching is CSS matching. -/
theorem matchSimple_iff {pc : PseudoMatcher} {t : Tree} {n : NodeId} {e : Element} (he : t.ctx n = some e)
    {s : Simple} (hp : s.PlainIn t) (hs : s.Faithful) :
    matchSimple pc e s = true ↔ SimpleHolds pc t n e s := by
  cases s with
  | all => simp [matchSimple, SimpleHolds]
  | type name => simp [matchSimple, SimpleHolds]
  | id ident =>
    simp only [matchSimple, SimpleHolds]
    cases e.attrs "id" <;> simp
  | «class» w =>
    simp only [matchSimple, SimpleHolds]
    cases hx : e.attrs "class" with
    | none => simp
    | some x => simp [hasWord_iff (hp n e x he hx) hs.1 hs.2]
  | «attribute» name m v =>
    simp only [matchSimple, SimpleHolds]
    cases hx : e.attrs name with
    | none => simp
    | some x =>
      simp only [Option.some.injEq, exists_eq_left']
      cases m with
      | exist => simp [matchAttr, AttrHolds]
      | equal => simp [matchAttr, AttrHolds]
      | «include» => simp [matchAttr, AttrHolds, hasWord_iff (hp n e x he hx) hs.1 hs.2]
      | dashMatch => exact hs.elim
      | «prefix» =>
        have hs : v ≠ "" := hs
        simp only [matchAttr, AttrHolds, decide_eq_true_eq, hs, ne_eq, not_false_eq_true, true_and]
        constructor
        · rintro ⟨r, hr⟩; exact ⟨String.ofList r, toList_append_eq.1 (by simp [hr])⟩
        · rintro ⟨r, hr⟩; exact ⟨r.toList, by rw [hr]; simp⟩
      | substring =>
        have hs : v ≠ "" := hs
        simp only [matchAttr, AttrHolds, decide_eq_true_eq, hs, ne_eq, not_false_eq_true, true_and]
        constructor
        · rintro ⟨a, b, hr⟩; exact ⟨String.ofList a, String.ofList b, toList_append_eq.1 (by simp [← hr])⟩
        · rintro ⟨a, b, hr⟩; exact ⟨a.toList, b.toList, by rw [hr]; simp⟩
      | suffix =>
        have hs : v ≠ "" := hs
        simp only [matchAttr, AttrHolds, decide_eq_true_eq, hs, ne_eq, not_false_eq_true, true_and]
        constructor
        · rintro ⟨r, hr⟩; exact ⟨String.ofList r, toList_append_eq.1 (by simp [hr])⟩
        · rintro ⟨r, hr⟩; exact ⟨r.toList, by rw [hr]; simp⟩
  | root => exact hs.elim
  | pseudoClass name => simp [matchSimple, SimpleHolds]
  | pseudoElement name => simp [matchSimple, SimpleHolds]
  | combinator c => exact hs.elim

/-- A part that is not a combinator. -/
def Simple.isPart : Simple → Bool
  | .combinator _ => false
  | _ => true

theorem Simple.Faithful.isPart {s : Simple} (h : s.Faithful) : s.isPart = true := by
  cases s <;> first | rfl | exact h.elim

theorem matchLoop_part {checks pc t} {s : Simple} (hs : s.isPart = true) (ss : List Simple) (n : NodeId) (e : Element) :
    matchLoop checks pc t (s :: ss) n e = if matchSimple pc e s then matchLoop checks pc t ss n e else .ok false := by
  cases s <;> first | rfl | simp [Simple.isPart] at hs

theorem matchLoop_parts {checks pc t} (parts : List Simple) (h : ∀ s ∈ parts, s.isPart = true) (rest : List Simple)
    (n : NodeId) (e : Element) :
    matchLoop checks pc t (parts ++ rest) n e
      = if parts.all (matchSimple pc e) then matchLoop checks pc t rest n e else .ok false := by
  induction parts with
  | nil => simp
  | cons s parts ih =>
    rw [List.cons_append, matchLoop_part (h s (by simp)), ih (fun x hx => h x (by simp [hx]))]
    simp only [List.all_cons]
    by_cases hm : matchSimple pc e s = true <;> simp [hm]

/-- The parent of a node exists. -/
theorem Tree.Wf.parent_ctx {t : Tree} {root body n m : NodeId} (h : t.Wf root body) (hp : t.par n = some m) :
    ∃ e, t.ctx m = some e := by
  have hk := (h.link m n).2 hp
  have hs := h.sub m n hk
  unfold Tree.slots at hs
  split at hs
  · rename_i hr; subst hr; exact Option.isSome_iff_exists.1 h.rootExists
  · split at hs
    · rename_i e he; exact ⟨e, he⟩
    · simp at hs

theorem matchComplex_combine {checks pc} {t : Tree} (left : Selector) (c : Char) (parts : List Simple)
    (hparts : ∀ s ∈ parts, s.isPart = true) {n : NodeId} {e : Element} (he : t.ctx n = some e) :
    matchComplex checks pc t (Selector.combine left c parts).written n =
      if parts.all (matchSimple pc e) then
        match nextTarget checks t n c with
        | .error f => .error f
        | .ok none => .ok false
        | .ok (some m) => matchComplex checks pc t left.written m
      else .ok false := by
  unfold matchComplex
  rw [he]
  simp only [Selector.written, List.reverse_append, List.reverse_cons, List.append_assoc, List.singleton_append]
  rw [matchLoop_parts _ (by simpa using hparts)]
  simp only [List.all_reverse]
  split
  · simp only [List.nil_append, List.cons_append, matchLoop]
    cases nextTarget checks t n c with
    | error f => rfl
    | ok m => cases m <;> rfl
  · rfl

theorem matchComplex_compound {checks pc} {t : Tree} (parts : List Simple)
    (hparts : ∀ s ∈ parts, s.isPart = true) {n : NodeId} {e : Element} (he : t.ctx n = some e) :
    matchComplex checks pc t (Selector.compound parts).written n = .ok (parts.all (matchSimple pc e)) := by
  unfold matchComplex
  rw [he]
  have := matchLoop_parts (checks := checks) (pc := pc) (t := t) parts.reverse (by simpa using hparts) [] n e
  simp only [List.append_nil, List.all_reverse] at this
  simp only [Selector.written, this, matchLoop]
  cases parts.all (matchSimple pc e) <;> rfl

theorem compound_iff {pc : PseudoMatcher} {t : Tree} {parts : List Simple} (hp : ∀ s ∈ parts, s.PlainIn t)
    (hf : ∀ s ∈ parts, s.Faithful) {n : NodeId} {e : Element} (he : t.ctx n = some e) :
    parts.all (matchSimple pc e) = true ↔ CompoundHolds pc t parts n := by
  rw [List.all_eq_true]
  constructor
  · intro h; exact ⟨e, he, fun s hs => (matchSimple_iff he (hp s hs) (hf s hs)).1 (h s hs)⟩
  · rintro ⟨e', he', h⟩ s hs
    rw [he] at he'; injection he' with he'; subst he'
    exact (matchSimple_iff he (hp s hs) (hf s hs)).2 (h s hs)

theorem matchComplex_child {checks pc} {t : Tree} {root body : NodeId} (hw : t.Wf root body)
    (sel : Selector) (hp : ∀ parts ∈ sel.compounds, ∀ s ∈ parts, s.PlainIn t) (hf : ∀ parts ∈ sel.compounds, ∀ s ∈ parts, s.Faithful) (hc : ∀ c ∈ sel.combinators, c = '>')
    (n : NodeId) (hn : (t.ctx n).isSome) :
    ∃ b, matchComplex checks pc t sel.written n = .ok b ∧ (b = true ↔ sel.Matches pc t n) := by
  induction sel generalizing n with
  | compound parts =>
    obtain ⟨e, he⟩ := Option.isSome_iff_exists.1 hn
    have hf' := hf parts (by simp [Selector.compounds])
    have hp' := hp parts (by simp [Selector.compounds])
    exact ⟨_, matchComplex_compound parts (fun s hs => (hf' s hs).isPart) he, compound_iff hp' hf' he⟩
  | combine left c parts ih =>
    obtain ⟨e, he⟩ := Option.isSome_iff_exists.1 hn
    have hf' := hf parts (by simp [Selector.compounds])
    have hp' := hp parts (by simp [Selector.compounds])
    have hcc : c = '>' := hc c (by simp [Selector.combinators])
    subst hcc
    rw [matchComplex_combine left _ parts (fun s hs => (hf' s hs).isPart) he]
    simp only [Selector.Matches, if_true, nextTarget]
    by_cases hh : parts.all (matchSimple pc e) = true
    · have hcomp := (compound_iff hp' hf' he).1 hh
      rw [if_pos hh]
      cases hpar : t.par n with
      | none => exact ⟨false, rfl, by simp⟩
      | some m =>
        obtain ⟨b, h1, h2⟩ := ih (fun ps hps => hp ps (by simp [Selector.compounds, hps])) (fun ps hps => hf ps (by simp [Selector.compounds, hps]))
          (fun c hc' => hc c (by simp [Selector.combinators, hc'])) m
          (by obtain ⟨e', he'⟩ := hw.parent_ctx hpar; simp [he'])
        exact ⟨b, h1, by simp [h2, hcomp]⟩
    · rw [if_neg hh]
      exact ⟨false, rfl, by simp [← compound_iff hp' hf' he, hh]⟩

/-- A rule matches when one of its selectors does. -/
theorem matchAny_iff {checks pc} {t : Tree} {n : NodeId} (l : List Complex) (P : Complex → Prop)
    (h : ∀ s ∈ l, ∃ b, matchComplex checks pc t s n = .ok b ∧ (b = true ↔ P s)) :
    ∃ b, matchAny checks pc t n l = .ok b ∧ (b = true ↔ ∃ s ∈ l, P s) := by
  induction l with
  | nil => exact ⟨false, rfl, by simp⟩
  | cons s l ih =>
    obtain ⟨b, h1, h2⟩ := h s (by simp)
    simp only [matchAny, h1]
    cases b with
    | true => exact ⟨true, rfl, by simp [h2.1 rfl]⟩
    | false =>
      obtain ⟨b, g1, g2⟩ := ih (fun s hs => h s (by simp [hs]))
      have hn : ¬ P s := fun hp => by simpa using h2.2 hp
      exact ⟨b, g1, by simp [g2, hn]⟩

/-- Combinators other than `>` and `+` have no target. -/
theorem matchLoop_unsupported {checks pc} {t : Tree} {c : Char} (h1 : c ≠ '>') (h2 : c ≠ '+') (ss : List Simple)
    (hm : .combinator c ∈ ss) (n : NodeId) (e : Element) : matchLoop checks pc t ss n e ≠ .ok true := by
  induction ss generalizing n e with
  | nil => simp at hm
  | cons s ss ih =>
    by_cases hs : s.isPart = true
    · rw [matchLoop_part hs]
      split
      · apply ih
        rcases List.mem_cons.1 hm with rfl | hm
        · simp [Simple.isPart] at hs
        · exact hm
      · simp
    · cases s with
      | combinator d =>
        simp only [matchLoop]
        by_cases hd : d = c
        · subst hd; simp [nextTarget, h1, h2]
        · have hm' : .combinator c ∈ ss := by
            rcases List.mem_cons.1 hm with h | hm
            · injection h with h; exact absurd h.symm hd
            · exact hm
          split
          · simp
          · simp
          · split
            · simp
            · exact ih hm' _ _
      | _ => simp [Simple.isPart] at hs

/-- Without `+` matching never panics. -/
theorem matchLoop_total {checks pc} {t : Tree} {root body : NodeId} (hw : t.Wf root body) (ss : List Simple)
    (hm : .combinator '+' ∉ ss) (n : NodeId) (e : Element) : ∃ b, matchLoop checks pc t ss n e = .ok b := by
  induction ss generalizing n e with
  | nil => exact ⟨true, rfl⟩
  | cons s ss ih =>
    have hm' : .combinator '+' ∉ ss := fun h => hm (by simp [h])
    by_cases hs : s.isPart = true
    · rw [matchLoop_part hs]
      split
      · exact ih hm' n e
      · exact ⟨false, rfl⟩
    · cases s with
      | combinator d =>
        have hd : d ≠ '+' := fun h => hm (by simp [h])
        simp only [matchLoop, nextTarget, hd, if_false]
        by_cases hd2 : d = '>'
        · simp only [hd2, if_true]
          cases hp : t.par n with
          | none => exact ⟨false, rfl⟩
          | some m =>
            obtain ⟨e', he'⟩ := hw.parent_ctx hp
            simp only [he']
            exact ih hm' m e'
        · simp only [hd2, if_false]; exact ⟨false, rfl⟩
      | _ => simp [Simple.isPart] at hs

theorem findIdx?_nodup {l : List NodeId} (h : l.Nodup) {i : Nat} {n : NodeId} (hi : l[i]? = some n) :
    l.findIdx? (· == n) = some i := by
  rw [List.findIdx?_eq_some_iff_getElem]
  obtain ⟨hlt, he⟩ := List.getElem?_eq_some_iff.1 hi
  refine ⟨hlt, by simp [he], fun j hj => ?_⟩
  have hne : l[j] ≠ n := by
    intro hh
    have hj' : j < l.length := by omega
    have : j = i := (List.getElem?_inj hj' h).1 (by rw [hi, List.getElem?_eq_getElem hj', hh])
    omega
  simp [hne]

theorem nextTarget_plus {checks} {t : Tree} {root body : NodeId} (hw : t.Wf root body) {p n : NodeId} {i : Nat}
    (hi : (t.kids p)[i]? = some n) :
    nextTarget checks t n '+' = if i = 0 then .ok none
      else if i = 1 then (if checks then .error .panic else .ok none)
      else .ok (t.kids p)[i - 2]? := by
  have hmem : n ∈ t.kids p := List.mem_of_getElem? hi
  have hpar := (hw.link p n).1 hmem
  have hnd := hw.nodup p
  unfold nextTarget
  simp only [show ('+' : Char) ≠ '>' by decide, if_false, if_true, hpar]
  cases hl : t.kids p with
  | nil => rw [hl] at hmem; simp at hmem
  | cons a l =>
    rw [hl] at hi hnd
    simp only [List.drop_succ_cons, List.drop_zero]
    rw [List.nodup_cons] at hnd
    cases i with
    | zero =>
      simp only [List.getElem?_cons_zero, Option.some.injEq] at hi
      subst hi
      have : l.findIdx? (· == a) = none := by
        rw [List.findIdx?_eq_none_iff]
        intro x hx
        simp only [beq_eq_false_iff_ne, ne_eq]
        rintro rfl; exact hnd.1 hx
      simp [this]
    | succ i =>
      simp only [List.getElem?_cons_succ] at hi
      rw [findIdx?_nodup hnd.2 hi]
      cases i with
      | zero => simp
      | succ i => simp

end Verif
