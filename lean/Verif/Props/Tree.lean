import Verif.View.Elems
/-!
# Properties of the displayed tree under reactions (C13-C17, C21, C22)

The state is a tree that is well formed inside its template (`Tree.Wf`) and the reactions are applicable
(`ReactionOk`): both are established for rendered views in `Props/Render.lean`.
-/
namespace Verif

variable {inline : String → Option (List Declaration)}

/-! ## A concrete view

`<body> <a *x="2 {xs}"/> <b ?="{c}"/> text </body>`: root 0, body 1, slots 2 and 3 of the repeat, the
conditional 4, a text 5. -/

def demoTree : Tree where
  ctx n :=
    if n = 0 then some { node := 0 }
    else if n = 1 then some { node := 1, tag := "body", children := [2, 3, 4, 5] }
    else if n = 5 then some { node := 5, text := some ⟨["a", "b"]⟩ }
    else if n < 6 then some { node := n, tag := "i", attrs := (fun k => if k = "id" then some "{ x }" else none), attrsBindings := (fun k => if k = "id" then some ⟨["{ x }"]⟩ else none) }
    else none
  kids n := if n = 0 then [1] else if n = 1 then [2, 3, 4, 5] else []
  par n := if n = 1 then some 0 else if 2 ≤ n ∧ n < 6 then some 1 else none
  next := 6

def demoStage : Stage := ⟨demoTree, fun _ => none⟩

theorem demo_slots (p : NodeId) :
    demoTree.slots 0 1 p = if p = 0 then [1] else if p = 1 then [2, 3, 4, 5] else [] := by
  unfold Tree.slots demoTree
  by_cases h0 : p = 0
  · simp [h0]
  · by_cases h1 : p = 1
    · simp [h1]
    · by_cases h5 : p = 5
      · simp [h5]
      · by_cases h6 : p < 6 <;> simp [h0, h1, h5, h6]

theorem demo_wf : demoTree.Wf 0 1 := by
  constructor
  · intro p c
    simp only [demoTree]
    by_cases h0 : p = 0
    · subst h0
      by_cases hc : c = 1 <;> simp [hc]
    · by_cases h1 : p = 1
      · subst h1
        by_cases hc : c = 1
        · simp [hc]
        · simp only [h0, if_false, if_true, hc, List.mem_cons, List.not_mem_nil, or_false]
          by_cases hr : 2 ≤ c ∧ c < 6
          · simp only [hr, and_self, if_true]
            have : c = 2 ∨ c = 3 ∨ c = 4 ∨ c = 5 := by unfold NodeId at *; omega
            simpa using this
          · simp only [hr, if_false]
            simp; unfold NodeId at *; omega
      · by_cases hc : c = 1
        · simp [hc, h0, h1, Ne.symm h0]
        · by_cases hr : 2 ≤ c ∧ c < 6 <;> simp [hc, hr, h0, h1, Ne.symm h1]
  · intro p
    simp only [demoTree]
    split
    · simp
    · split <;> simp
  · intro p c
    rw [demo_slots]; exact id
  · intro p; rw [demo_slots]
    split
    · simp
    · split <;> simp
  · intro p c; rw [demo_slots]
    split
    · rename_i h; simp only [List.mem_singleton]; rintro rfl; simp [h, demoTree]
    · split
      · rename_i h; subst h
        simp only [List.mem_cons, List.not_mem_nil, or_false]
        rintro (rfl | rfl | rfl | rfl) <;> simp [demoTree]
      · simp
  · intro p q c; rw [demo_slots, demo_slots]
    by_cases h0 : p = 0
    · by_cases g0 : q = 0
      · rw [h0, g0]; simp
      · by_cases g1 : q = 1
        · simp only [h0, g1, if_true]; simp; rintro rfl; simp
        · simp [g0, g1]
    · by_cases h1 : p = 1
      · by_cases g0 : q = 0
        · simp only [h1, g0, if_true]; simp; rintro h rfl; simp at h
        · by_cases g1 : q = 1
          · rw [h1, g1]; simp
          · simp [g0, g1]
      · simp [h0, h1]
  · intro n hn
    by_cases h : n < 6
    · exact h
    · exfalso
      have h0 : n ≠ 0 := by rintro rfl; simp at h
      have h1 : n ≠ 1 := by rintro rfl; simp at h
      have h5 : n ≠ 5 := by rintro rfl; simp at h
      simp [demoTree, h0, h1, h5, h] at hn
  · simp [demoTree]
  · intro n e he htag hn
    simp only [demoTree] at he
    rw [if_neg hn] at he
    exfalso
    by_cases h1 : n = 1
    · rw [if_pos h1] at he; injection he with he; subst he; simp at htag
    · rw [if_neg h1] at he
      by_cases h5 : n = 5
      · rw [if_pos h5] at he; injection he with he; subst he; simp at htag
      · rw [if_neg h5] at he
        by_cases h6 : n < 6
        · rw [if_pos h6] at he; injection he with he; subst he; simp at htag
        · simp [h6] at he

/-! ## C16 -/

/-- C16: a sequence of applicable reactions never fails and the displayed tree stays a tree inside its
template: parent and child links agree, no child occurs twice, every displayed child is a template child
of its parent, and remains applicable for further reactions. -/
theorem C16_tree_stays_tree {root body : NodeId} (s : Stage) (rs : List Reaction)
    (h : s.tree.Wf root body) (hrs : ∀ r ∈ rs, ReactionOk s.tree root body r) :
    ∃ s', updateTrees inline s rs = .ok s' ∧ s'.tree.Wf root body ∧
      ∀ r, ReactionOk s.tree root body r → ReactionOk s'.tree root body r := by
  obtain ⟨s', h1, h2, h3, -⟩ := updateTrees_steps (inline := inline) rs s h hrs
  exact ⟨s', h1, h2, fun r hr => h3.reactionOk hr⟩

/-- C16: a displayed node has exactly one parent. -/
theorem C16_one_parent {root body : NodeId} {t : Tree} (h : t.Wf root body) {p q c : NodeId}
    (hp : c ∈ t.kids p) (hq : c ∈ t.kids q) : p = q := by
  have h1 := (h.link p c).1 hp
  have h2 := (h.link q c).1 hq
  rw [h1] at h2; injection h2

/-- C16: there is no cycle: parents are older than their children. -/
theorem C16_acyclic {root body : NodeId} {t : Tree} (h : t.Wf root body) {p c : NodeId}
    (hp : c ∈ t.kids p) : p < c := (h.slotsYounger p c (h.sub p c hp)).1

/-! ## C13 -/

/-- C13: as long as no repeat concerns `p`, after any sequence of reactions (on `p` and elsewhere) the
displayed children of `p` are exactly the currently shown ones, in the order of the template. -/
theorem C13_conditional_order {root body p : NodeId} (s : Stage) (rs : List Reaction)
    (h : s.tree.Wf root body) (hrs : ∀ r ∈ rs, ReactionOk s.tree root body r) (hp : p ≠ root)
    (hno : ∀ i k j, Reaction.repeat p i k j ∉ rs) (shown : NodeId → Bool)
    (hk : s.tree.kids p = (s.tree.slots root body p).filter shown) :
    ∃ s', updateTrees inline s rs = .ok s' ∧
      s'.tree.kids p = (s.tree.slots root body p).filter (showAll (s.tree.slots root body p) p shown rs) := by
  induction rs generalizing s shown with
  | nil => exact ⟨s, rfl, hk⟩
  | cons r rs ih =>
    have hr := hrs r (by simp)
    obtain ⟨s1, h1, st⟩ := updateTree_step (inline := inline) h hr
    have hk1 : s1.tree.kids p =
        (s1.tree.slots root body p).filter (showStep (s.tree.slots root body p) p shown r) := by
      rw [st.same.slots]
      by_cases hm : r.moves p
      · cases r with
        | reattach q n v =>
          simp only [Reaction.moves] at hm; subst hm
          obtain ⟨e, he, hne⟩ := ctx_of_slot hr.1 hr.2.1
          have hsl := slots_of_ctx (body := body) hr.1 he
          obtain ⟨t', g1, g2⟩ := reattach_order (v := v) shown he (hsl ▸ h.slotsNodup q) hne
            ⟨h.exist q (by simp [he]), (h.slotsYounger q n hr.2.1).2.1⟩ (by rw [hk, hsl])
          simp only [updateTree, g1, bind, Except.bind, Except.ok.injEq] at h1
          subst h1
          rw [g2, hsl]
          simp [showStep]
        | «repeat» q i k j =>
          simp only [Reaction.moves] at hm; subst hm
          exact absurd (by simp) (hno i k j)
        | _ => exact absurd hm (by simp [Reaction.moves])
      · rw [st.kids p hm, hk]
        congr 1
        cases r with
        | reattach q n v =>
          simp only [Reaction.moves] at hm
          funext c; simp [showStep, hm]
        | «repeat» q i k j =>
          simp only [Reaction.moves] at hm
          funext c; simp [showStep, hm]
        | _ => rfl
    obtain ⟨s2, h2, hk2⟩ := ih s1 st.wf (fun r' hr' => st.same.reactionOk (hrs r' (by simp [hr'])))
      (fun i k j hmem => hno i k j (by simp [hmem])) _ hk1
    refine ⟨s2, by simp only [updateTrees, h1, bind, Except.bind]; exact h2, ?_⟩
    rw [hk2, st.same.slots]
    rfl

example : ∃ s', updateTrees inline demoStage
      [.reattach 1 4 false, .type 5 0 "z", .reattach 1 3 false, .reattach 1 4 true] = .ok s' ∧
    s'.tree.kids 1 = [2, 4, 5] := by
  obtain ⟨s', h1, h2⟩ := C13_conditional_order (inline := inline) (root := 0) (body := 1) (p := 1) demoStage
    [.reattach 1 4 false, .type 5 0 "z", .reattach 1 3 false, .reattach 1 4 true] demo_wf
    (by simp only [demoStage, ReactionOk, demo_slots]; simp [demoTree]) (by simp) (by simp) (fun _ => true)
    (by simp only [demoStage, demo_slots]; simp [demoTree])
  refine ⟨s', h1, ?_⟩
  rw [h2]
  simp [demoStage, demo_slots, showAll, showStep]

/-! ## C14 -/

/-- C14: after a repeat reaction the displayed members of the block `i..j` are exactly the slots before
the cursor; every other child of the same parent is displayed exactly if it was before and the others
keep their relative order; other parents keep their children. -/
theorem C14_first_k_slots {root body p : NodeId} {i k j : Nat} (s : Stage) (h : s.tree.Wf root body)
    (hr : ReactionOk s.tree root body (.repeat p i k j)) :
    ∃ s', updateTree inline s (.repeat p i k j) = .ok s' ∧
      (∀ c ∈ slice (s.tree.slots root body p) i j,
        c ∈ s'.tree.kids p ↔ c ∈ slice (s.tree.slots root body p) i k) ∧
      (s'.tree.kids p).filter (· ∉ slice (s.tree.slots root body p) i j)
        = (s.tree.kids p).filter (· ∉ slice (s.tree.slots root body p) i j) ∧
      (∀ q, q ≠ p → s'.tree.kids q = s.tree.kids q) ∧ s'.tree.ctx = s.tree.ctx := by
  obtain ⟨par', h1, h2, h3, h4⟩ := repeat_effect h hr
  have hik := hr.2.1
  have hkj := hr.2.2.1
  simp only [updateTree, h1, bind, Except.bind, Except.ok.injEq, exists_eq_left']
  refine ⟨?_, ?_, ?_, trivial⟩
  · intro c hc
    simp only [upd_same, h3, hc, if_true]
  · simp only [upd_same]
    generalize s.tree.slots root body p = D
    rw [List.filter_filter, List.filter_append]
    have z : ((slice D i k).filter (· ∉ s.tree.kids p)).filter
        (fun c => decide (c ∉ slice D i j) && decide (c ∉ slice D k j)) = [] := by
      rw [List.filter_eq_nil_iff]
      intro c hc
      have := mem_slice_le hkj (List.mem_filter.1 hc).1
      simp [this]
    rw [z, List.append_nil]
    apply List.filter_congr
    intro c _
    rw [slice_append D hik hkj]
    by_cases g1 : c ∈ slice D i k <;> by_cases g2 : c ∈ slice D k j <;> simp [g1, g2]
  · intro q hq
    exact upd_other _ _ hq

/-- C14 over histories: after any sequence of reactions, a template child of `p` is displayed exactly
when the last reaction about it said so. -/
theorem C14_history {root body p : NodeId} (s : Stage) (rs : List Reaction)
    (h : s.tree.Wf root body) (hrs : ∀ r ∈ rs, ReactionOk s.tree root body r) (hp : p ≠ root) :
    ∃ s', updateTrees inline s rs = .ok s' ∧ ∀ c, c ∈ s'.tree.kids p ↔ c ∈ s.tree.slots root body p ∧
      showAll (s.tree.slots root body p) p (fun c => decide (c ∈ s.tree.kids p)) rs c = true := by
  obtain ⟨s', h1, -, -, h4⟩ := updateTrees_steps (inline := inline) rs s h hrs
  exact ⟨s', h1, h4 p hp⟩

example : ReactionOk demoTree 0 1 (.repeat 1 0 1 2) := by
  simp only [ReactionOk, demo_slots]; simp [demoTree]

/-! ## C15 -/

theorem filter_mem_take {L : List NodeId} (h : L.Nodup) (a : Nat) :
    L.filter (fun c => decide (c ∈ L.take a)) = L.take a := by
  generalize hp : (fun c => decide (c ∈ L.take a)) = P
  rw [← List.take_append_drop a L] at h
  conv => lhs; rw [← List.take_append_drop a L]
  rw [List.filter_append]
  have y1 : (L.take a).filter P = L.take a := by
    apply filter_eq_self'; intro c hc; subst hp; simpa using hc
  have y2 : (L.drop a).filter P = [] := by
    rw [List.filter_eq_nil_iff]
    intro c hc hc2
    subst hp
    exact (List.nodup_append.1 h).2.2 c (by simpa using hc2) c hc rfl
  rw [y1, y2, List.append_nil]

/-- The reactions on the children of `p` a template with one repeat, which is its last child, can cause:
the repeat has the slots from `start` to the end, and conditionals are before it. -/
def RepeatLast (slots : List NodeId) (p : NodeId) (start : Nat) (r : Reaction) : Prop :=
  (∀ i k j, r = .repeat p i k j → i = start ∧ j = slots.length) ∧
  (∀ n v, r = .reattach p n v → n ∈ slots.take start)

/-- C15 (part): if the only repeat among the children of `p` is the last child of its template, children
appear in template order after any sequence of reactions.  Missing for the full property: a repeat that
is followed by siblings, where it is false (`C15_repeat_before_sibling`). -/
theorem C15_order_partial {root body p : NodeId} (start : Nat) (s : Stage) (rs : List Reaction)
    (h : s.tree.Wf root body) (hrs : ∀ r ∈ rs, ReactionOk s.tree root body r) (hp : p ≠ root)
    (hlast : ∀ r ∈ rs, RepeatLast (s.tree.slots root body p) p start r) (shown : NodeId → Bool) (a : Nat)
    (hk : s.tree.kids p = ((s.tree.slots root body p).take start).filter shown
      ++ ((s.tree.slots root body p).drop start).take a) :
    ∃ s' shown' a', updateTrees inline s rs = .ok s' ∧
      s'.tree.kids p = ((s.tree.slots root body p).take start).filter shown'
        ++ ((s.tree.slots root body p).drop start).take a' := by
  induction rs generalizing s shown a with
  | nil => exact ⟨s, shown, a, rfl, hk⟩
  | cons r rs ih =>
    have hr := hrs r (by simp)
    have hl := hlast r (by simp)
    obtain ⟨s1, h1, st⟩ := updateTree_step (inline := inline) h hr
    have hk1 : ∃ sh b, s1.tree.kids p = ((s1.tree.slots root body p).take start).filter sh
        ++ ((s1.tree.slots root body p).drop start).take b := by
      rw [st.same.slots]
      by_cases hm : r.moves p
      · cases r with
        | reattach q n v =>
          simp only [Reaction.moves] at hm; subst hm
          have hn := hl.2 n v rfl
          obtain ⟨e, he, hne⟩ := ctx_of_slot hr.1 hr.2.1
          have hsl := slots_of_ctx (body := body) hr.1 he
          generalize hD : s.tree.slots root body q = D at *
          have hDn : D.Nodup := hD ▸ h.slotsNodup q
          have hsplit : D = D.take start ++ D.drop start := (List.take_append_drop start D).symm
          have hdis : ∀ c, c ∈ D.take start → c ∈ D.drop start → False := by
            intro c c1 c2
            rw [hsplit] at hDn
            exact (List.nodup_append.1 hDn).2.2 c c1 c c2 rfl
          have hfil : D.filter (fun c => if c ∈ D.drop start then decide (c ∈ (D.drop start).take a)
              else shown c) = (D.take start).filter shown ++ (D.drop start).take a := by
            conv => lhs; rw [hsplit]
            rw [List.filter_append]
            congr 1
            · apply List.filter_congr
              intro c hc
              rw [if_neg]
              · intro h2; exact hdis c hc (by rwa [← hsplit] at h2)
            · rw [← hsplit]
              have : (D.drop start).filter (fun c => if c ∈ D.drop start then
                  decide (c ∈ (D.drop start).take a) else shown c)
                  = (D.drop start).filter (fun c => decide (c ∈ (D.drop start).take a)) := by
                apply List.filter_congr
                intro c hc; rw [if_pos hc]
              rw [this]
              exact filter_mem_take (hDn.sublist (List.drop_sublist _ _)) a
          obtain ⟨t', g1, g2⟩ := reattach_order (v := v)
            (fun c => if c ∈ D.drop start then decide (c ∈ (D.drop start).take a) else shown c)
            he (hsl ▸ hDn) hne
            ⟨h.exist q (by simp [he]), (h.slotsYounger q n (hD ▸ hr.2.1)).2.1⟩ (by rw [hk, ← hsl, hfil])
          simp only [updateTree, g1, bind, Except.bind, Except.ok.injEq] at h1
          subst h1
          refine ⟨fun c => if c = n then v else shown c, a, ?_⟩
          rw [g2, ← hsl]
          have hns : n ∉ D.drop start := fun h2 => hdis n hn h2
          conv => lhs; rw [hsplit]
          rw [List.filter_append]
          rw [← hsplit]
          congr 1
          · apply List.filter_congr
            intro c hc
            by_cases hcn : c = n
            · simp [hcn]
            · simp only [hcn, if_false]
              rw [if_neg (fun h2 => hdis c hc h2)]
          · rw [show (D.drop start).filter (fun c => if c = n then v else if c ∈ D.drop start then
                decide (c ∈ (D.drop start).take a) else shown c)
              = (D.drop start).filter (fun c => if c ∈ D.drop start then
                decide (c ∈ (D.drop start).take a) else shown c) from by
                apply List.filter_congr
                intro c hc
                rw [if_neg]; rintro rfl; exact hns hc]
            have := hfil
            conv at this => lhs; rw [hsplit]
            rw [List.filter_append, ← hsplit] at this
            refine List.append_inj_right this ?_
            congr 1
            apply List.filter_congr
            intro c hc
            rw [if_neg (fun h2 => hdis c hc h2)]
        | «repeat» q i k j =>
          simp only [Reaction.moves] at hm; subst hm
          obtain ⟨hi, hj⟩ := hl.1 i k j rfl
          obtain ⟨par', g1, -⟩ := repeat_effect h hr
          simp only [updateTree, g1, bind, Except.bind, Except.ok.injEq] at h1
          subst h1
          subst hi; subst hj
          refine ⟨shown, k - i, ?_⟩
          simp only [upd_same]
          have hik := hr.2.1
          have hDn := h.slotsNodup q
          generalize s.tree.slots root body q = D at *
          have e1 : slice D i k = (D.drop i).take (k - i) := by simp [slice, List.drop_take]
          have e2 : slice D k D.length = (D.drop i).drop (k - i) := by
            simp only [slice, List.take_length, List.drop_drop]; congr 1; omega
          rw [e1, e2, hk]
          exact repeat_order (A := D.take i) (B := D.drop i) (a := a) (b := k - i)
            (by rw [List.take_append_drop]; exact hDn)
        | _ => exact absurd hm (by simp [Reaction.moves])
      · exact ⟨shown, a, by rw [st.kids p hm, hk]⟩
    obtain ⟨sh, b, hk1⟩ := hk1
    obtain ⟨s2, sh2, a2, h2, hk2⟩ := ih s1 st.wf
      (fun r' hr' => st.same.reactionOk (hrs r' (by simp [hr'])))
      (fun r' hr' => by rw [st.same.slots]; exact hlast r' (by simp [hr'])) sh b hk1
    refine ⟨s2, sh2, a2, by simp only [updateTrees, h1, bind, Except.bind]; exact h2, ?_⟩
    rw [hk2, st.same.slots]

/-- Finding for C15: in `<a *x="2 {xs}"/> <b/> text`, shrinking the array to one item and growing it back
to two leaves the second item *after* its following siblings. -/
theorem C15_repeat_before_sibling :
    ∃ s', updateTrees inline demoStage [.repeat 1 0 1 2, .repeat 1 0 2 2] = .ok s' ∧
      s'.tree.kids 1 = [2, 4, 5, 3] ∧ s'.tree.slots 0 1 1 = [2, 3, 4, 5] := by
  refine ⟨_, rfl, ?_, ?_⟩
  · rfl
  · rfl

/-! ## C17 -/

/-- The last value written to span `j` of the text of `n` by a sequence of reactions. -/
def lastText (n : NodeId) (j : Nat) (old : String) : List Reaction → String
  | [] => old
  | .type m i x :: rs => lastText n j (if m = n ∧ i = j then x else old) rs
  | _ :: rs => lastText n j old rs

/-- C17: setting a span changes that span only; setting a span that does not exist changes nothing. -/
theorem C17_set (t : TextContent) (i : Nat) (v : String) (j : Nat) :
    (t.set i v).spans[j]? = if i = j then t.spans[j]?.map (fun _ => v) else t.spans[j]? := by
  unfold TextContent.set
  split
  · rename_i h
    by_cases hij : i = j
    · subst hij; simp [List.getElem?_eq_none h]
    · simp [hij]
  · rename_i h
    by_cases hij : i = j
    · subst hij
      simp [show i < t.spans.length by omega]
    · simp [hij]

/-- C17: the text shown is the concatenation of the spans. -/
theorem C17_concatenation (t : TextContent) : t.toString.toList = t.spans.flatMap String.toList := by
  unfold TextContent.toString
  have aux : ∀ (l : List String) (s : String), (l.foldl (· ++ ·) s).toList = s.toList ++ l.flatMap String.toList := by
    intro l
    induction l with
    | nil => simp
    | cons a l ih => intro s; simp [ih]
  simpa [String.join] using aux t.spans ""

/-- C17: after any sequence of reactions, every span of the text of an element shows the last value
written to that span. -/
theorem C17_spans_independent {root body n : NodeId} {e : Element} {tx : TextContent} (s : Stage)
    (rs : List Reaction) (h : s.tree.Wf root body) (hrs : ∀ r ∈ rs, ReactionOk s.tree root body r)
    (he : s.tree.ctx n = some e) (ht : e.text = some tx) :
    ∃ s' e' tx', updateTrees inline s rs = .ok s' ∧ s'.tree.ctx n = some e' ∧ e'.text = some tx' ∧
      ∀ (j : Nat), tx'.spans[j]? = tx.spans[j]?.map (fun old => lastText n j old rs) := by
  induction rs generalizing s e tx with
  | nil => exact ⟨s, e, tx, rfl, he, ht, fun j => by cases tx.spans[j]? <;> rfl⟩
  | cons r rs ih =>
    have hr := hrs r (by simp)
    obtain ⟨s1, h1, st⟩ := updateTree_step (inline := inline) h hr
    obtain ⟨e1, he1, ht1, -⟩ := updateTree_elem h hr h1 he
    have hrs1 : ∀ r' ∈ rs, ReactionOk s1.tree root body r' :=
      fun r' hr' => st.same.reactionOk (hrs r' (by simp [hr']))
    have step : ∀ {tx1 : TextContent}, e1.text = some tx1 →
        (∀ (j : Nat), tx1.spans[j]?.map (fun old => lastText n j old rs) =
          tx.spans[j]?.map (fun old => lastText n j old (r :: rs))) →
        ∃ s' e' tx', updateTrees inline s (r :: rs) = .ok s' ∧ s'.tree.ctx n = some e' ∧
          e'.text = some tx' ∧
          ∀ (j : Nat), tx'.spans[j]? = tx.spans[j]?.map (fun old => lastText n j old (r :: rs)) := by
      intro tx1 g1 g2
      obtain ⟨s2, e2, tx2, k1, k2, k3, k4⟩ := ih s1 st.wf hrs1 he1 g1
      exact ⟨s2, e2, tx2, by simp only [updateTrees, h1, bind, Except.bind]; exact k1, k2, k3,
        fun j => by rw [k4, g2]⟩
    cases r with
    | type m i x =>
      by_cases hm : m = n
      · subst hm
        apply step (tx1 := tx.set i x) (by rw [ht1]; simp [textStep, ht])
        intro j
        rw [C17_set]
        by_cases hij : i = j
        · subst hij; cases tx.spans[i]? <;> simp [lastText]
        · simp [hij, lastText]
      · apply step (tx1 := tx) (by rw [ht1]; simp [textStep, ht, hm])
        intro j; simp [lastText, hm]
    | _ =>
      apply step (tx1 := tx) (by rw [ht1]; simp [textStep, ht])
      intro j; simp [lastText]

example : ∃ s' e' tx', updateTrees inline demoStage
      [.type 5 0 "x", .type 5 7 "y", .reattach 1 4 false, .type 5 0 "w"] = .ok s' ∧
    s'.tree.ctx 5 = some e' ∧ e'.text = some tx' ∧ tx'.toString = "wb" := by
  refine ⟨_, _, _, rfl, rfl, rfl, ?_⟩
  rfl

/-! ## C21 -/

/-- The state of attribute `key` of `n` after the tag reactions of a sequence. -/
def lastTag (n : NodeId) (key : String) (old : Option String) : List Reaction → Option String
  | [] => old
  | .tag m k v :: rs => lastTag n key (if m = n ∧ k = key then (if v then some key else none) else old) rs
  | _ :: rs => lastTag n key old rs

/-- C21: after any sequence of reactions a boolean attribute is present, with its own name as value,
exactly when the last value notified to its `#name` binding was truthy; an attribute no reaction names
is unchanged.  (An attribute that also has an `@name` binding is excluded.) -/
theorem C21_boolean_attribute {root body n : NodeId} {e : Element} (key : String) (s : Stage)
    (rs : List Reaction) (h : s.tree.Wf root body) (hrs : ∀ r ∈ rs, ReactionOk s.tree root body r)
    (he : s.tree.ctx n = some e) (hno : ∀ i x, Reaction.bind n key i x ∉ rs) :
    ∃ s' e', updateTrees inline s rs = .ok s' ∧ s'.tree.ctx n = some e' ∧
      e'.attrs key = lastTag n key (e.attrs key) rs := by
  induction rs generalizing s e with
  | nil => exact ⟨s, e, rfl, he, rfl⟩
  | cons r rs ih =>
    have hr := hrs r (by simp)
    obtain ⟨s1, h1, st⟩ := updateTree_step (inline := inline) h hr
    obtain ⟨e1, he1, -, -, ha1, -⟩ := updateTree_elem h hr h1 he
    obtain ⟨s2, e2, k1, k2, k3⟩ := ih s1 st.wf
      (fun r' hr' => st.same.reactionOk (hrs r' (by simp [hr']))) he1
      (fun i x hm => hno i x (by simp [hm]))
    refine ⟨s2, e2, by simp only [updateTrees, h1, bind, Except.bind]; exact k1, k2, ?_⟩
    rw [k3, ha1]
    cases r with
    | tag m k v =>
      simp only [lastTag, attrStep]
      congr 1
      by_cases hm : m = n
      · by_cases hk : key = k
        · subst hk; cases v <;> simp [hm]
        · have hk' : ¬ k = key := fun e => hk e.symm
          cases v <;> simp [hm, hk', SMap.set_other _ _ hk, SMap.del_other _ hk]
      · simp [hm]
    | bind m k i x =>
      simp only [lastTag, attrStep]
      congr 1
      by_cases hm : m = n
      · have hk : key ≠ k := by
          rintro rfl; subst hm; exact hno i x (by simp)
        simp [hm, hk]
      · simp [hm]
    | _ => rfl

/-- C21: an attribute no reaction names is unchanged. -/
theorem C21_other_attributes_untouched {root body n : NodeId} {e : Element} (key : String) (s : Stage)
    (rs : List Reaction) (h : s.tree.Wf root body) (hrs : ∀ r ∈ rs, ReactionOk s.tree root body r)
    (he : s.tree.ctx n = some e) (hno : ∀ i x, Reaction.bind n key i x ∉ rs)
    (hnt : ∀ v, Reaction.tag n key v ∉ rs) :
    ∃ s' e', updateTrees inline s rs = .ok s' ∧ s'.tree.ctx n = some e' ∧ e'.attrs key = e.attrs key := by
  obtain ⟨s', e', h1, h2, h3⟩ := C21_boolean_attribute (inline := inline) key s rs h hrs he hno
  refine ⟨s', e', h1, h2, ?_⟩
  rw [h3]
  clear h1 h3 hrs hno
  generalize e.attrs key = old
  induction rs generalizing old with
  | nil => rfl
  | cons r rs ih =>
    cases r with
    | tag m k v =>
      simp only [lastTag]
      rw [if_neg (by rintro ⟨rfl, rfl⟩; exact hnt v (by simp))]
      exact ih (fun v hv => hnt v (by simp [hv])) old
    | _ => exact ih (fun v hv => hnt v (by simp [hv])) old

example : ∃ s' e', updateTrees inline demoStage [.tag 2 "checked" true, .tag 3 "checked" false,
      .tag 2 "other" true] = .ok s' ∧ s'.tree.ctx 2 = some e' ∧ e'.attrs "checked" = some "checked" := by
  exact ⟨_, _, rfl, rfl, rfl⟩

/-! ## C22 -/

/-- `view.rs` 440-444 `get_element_by_id`. -/
def getElementById (s : Stage) (id : String) : Option Element :=
  (s.identified id).bind s.tree.ctx

/-- Every registered id is the current id attribute of its element. -/
def IdsSound (s : Stage) : Prop :=
  ∀ x n, s.identified x = some n → ∃ e, s.tree.ctx n = some e ∧ e.attrs "id" = some x

/-- The elements whose id attribute a reaction writes. -/
def idWrites (rs : List Reaction) : List NodeId :=
  rs.filterMap fun r => match r with
    | .bind m k _ _ => if k = "id" then some m else none
    | .tag m k _ => if k = "id" then some m else none
    | _ => none

/-- C22 (part): if no element has its id written twice (nor once when it already had a registered id) and
no `#id` binding is used, every lookup by id returns an element that currently has that id.  Missing for
the full property: an id that changes again, where the old id still finds the element (`C22_stale_id`). -/
theorem C22_lookup_partial {root body : NodeId} (s : Stage) (rs : List Reaction)
    (h : s.tree.Wf root body) (hrs : ∀ r ∈ rs, ReactionOk s.tree root body r) (hs : IdsSound s)
    (hnt : ∀ n v, Reaction.tag n "id" v ∉ rs) (honce : (idWrites rs).Nodup)
    (hfresh : ∀ n ∈ idWrites rs, ∀ x, s.identified x ≠ some n) :
    ∃ s', updateTrees inline s rs = .ok s' ∧
      ∀ x e, getElementById s' x = some e → e.attrs "id" = some x := by
  suffices H : ∃ s', updateTrees inline s rs = .ok s' ∧ IdsSound s' by
    obtain ⟨s', h1, h2⟩ := H
    refine ⟨s', h1, ?_⟩
    intro x e hx
    unfold getElementById at hx
    rw [Option.bind_eq_some_iff] at hx
    obtain ⟨n, hn, he⟩ := hx
    obtain ⟨e', he', ha⟩ := h2 x n hn
    rw [he] at he'; injection he' with he'; subst he'; exact ha
  induction rs generalizing s with
  | nil => exact ⟨s, rfl, hs⟩
  | cons r rs ih =>
    have hr := hrs r (by simp)
    obtain ⟨s1, h1, st⟩ := updateTree_step (inline := inline) h hr
    have hrs1 : ∀ r' ∈ rs, ReactionOk s1.tree root body r' :=
      fun r' hr' => st.same.reactionOk (hrs r' (by simp [hr']))
    have hnt1 : ∀ n v, Reaction.tag n "id" v ∉ rs := fun n v hm => hnt n v (by simp [hm])
    have fin : IdsSound s1 → (idWrites rs).Nodup →
        (∀ n ∈ idWrites rs, ∀ x, s1.identified x ≠ some n) →
        ∃ s', updateTrees inline s (r :: rs) = .ok s' ∧ IdsSound s' := by
      intro g1 g2 g3
      obtain ⟨s2, k1, k2⟩ := ih s1 st.wf hrs1 g1 hnt1 g2 g3
      exact ⟨s2, by simp only [updateTrees, h1, bind, Except.bind]; exact k1, k2⟩
    rcases updateTree_identified h hr h1 with ⟨m, i, x, e, att, rfl, hm, hatt, hid⟩ | ⟨hne, hid⟩
    · have hw : idWrites (.bind m "id" i x :: rs) = m :: idWrites rs := by simp [idWrites]
      rw [hw] at honce hfresh
      have hn := List.nodup_cons.1 honce
      apply fin
      · intro y n hy
        rw [hid] at hy
        by_cases hyx : y = (att.set i x).toString
        · subst hyx
          simp only [SMap.set_same, Option.some.injEq] at hy; subst hy
          obtain ⟨e', he', -, -, ha', -⟩ := updateTree_elem h hr h1 hm
          exact ⟨e', he', by rw [ha']; simp [attrStep, hatt]⟩
        · rw [SMap.set_other _ _ hyx] at hy
          have hnm : n ≠ m := by rintro rfl; exact hfresh n (by simp) y hy
          obtain ⟨en, hen, han⟩ := hs y n hy
          obtain ⟨e', he', -, -, ha', -⟩ := updateTree_elem h hr h1 hen
          exact ⟨e', he', by rw [ha']; simp [attrStep, Ne.symm hnm, han]⟩
      · exact hn.2
      · intro n hnm y hy
        rw [hid] at hy
        by_cases hyx : y = (att.set i x).toString
        · subst hyx
          simp only [SMap.set_same, Option.some.injEq] at hy; subst hy
          exact hn.1 hnm
        · rw [SMap.set_other _ _ hyx] at hy
          exact hfresh n (by simp [hnm]) y hy
    · have hw : idWrites (r :: rs) = idWrites rs := by
        cases r with
        | bind m k i x =>
          have : k ≠ "id" := by rintro rfl; exact hne m i x rfl
          simp [idWrites, this]
        | tag m k v =>
          have : k ≠ "id" := by rintro rfl; exact hnt m v (by simp)
          simp [idWrites, this]
        | _ => simp [idWrites]
      rw [hw] at honce hfresh
      apply fin _ honce
      · intro n hn y; rw [hid]; exact hfresh n hn y
      · intro y n hy
        rw [hid] at hy
        obtain ⟨en, hen, han⟩ := hs y n hy
        obtain ⟨e', he', -, -, ha', -⟩ := updateTree_elem h hr h1 hen
        refine ⟨e', he', ?_⟩
        rw [ha', ← han]
        cases r with
        | bind m k i x =>
          have : "id" ≠ k := by rintro rfl; exact hne m i x rfl
          by_cases hm : m = n <;> simp [attrStep, hm, this]
        | tag m k v =>
          have : "id" ≠ k := by rintro rfl; exact hnt m v (by simp)
          by_cases hm : m = n
          · cases v <;> simp [attrStep, hm, SMap.set_other _ _ this, SMap.del_other _ this]
          · simp [attrStep, hm]
        | _ => rfl

example : IdsSound demoStage := by intro x n h; simp [demoStage] at h
example : ReactionOk demoTree 0 1 (.bind 2 "id" 0 "a") := by
  simp [ReactionOk, demoTree]

/-- Finding for C22: after the id of an element changed from `a` to `b`, looking up `a` still returns the
element, whose id is `b`. -/
theorem C22_stale_id :
    ∃ s' e, updateTrees inline demoStage [.bind 2 "id" 0 "a", .bind 2 "id" 0 "b"] = .ok s' ∧
      getElementById s' "a" = some e ∧ e.attrs "id" = some "b" := by
  exact ⟨_, _, rfl, rfl, rfl⟩

end Verif
