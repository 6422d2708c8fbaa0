import Verif.View.Counting
import Verif.Props.Idle
/-!
# C86: the metrics count what happens
-/
namespace Verif

variable {p : Platform}

theorem tally_fields (rules : Nat) (b : NodeId → Bool) (l : List (NodeId × CascadeStats)) : ∀ m : Metrics,
    l.foldl (fun m x => m.cascaded rules x.2 (b x.1)) m =
      { m with cascades := m.cascades + l.length
               layouts := m.layouts + l.countP (fun x => b x.1)
               styles := if l = [] then m.styles else rules
               matchesStatic := m.matchesStatic + (l.map (·.2.matchesStatic)).sum
               matchesDynamic := m.matchesDynamic + (l.map (·.2.matchesDynamic)).sum
               applyOk := m.applyOk + (l.map (·.2.applyOk)).sum
               applyError := m.applyError + (l.map (·.2.applyError)).sum } := by
  induction l with
  | nil => intro m; simp
  | cons x l ih =>
    intro m
    rw [List.foldl_cons, ih]
    simp only [Metrics.cascaded, List.length_cons, List.countP_cons, List.map_cons, List.sum_cons, Metrics.mk.injEq]
    refine ⟨trivial, trivial, by omega, ?_, ?_, by omega, by omega, by omega, by omega⟩
    · cases b x.1 <;> simp <;> omega
    · by_cases h : l = [] <;> simp [h]

/-- **C86.** Counting changes nothing: with and without it a program does the same. -/
theorem C86_counting_changes_nothing (p : Platform) (fuel : Nat) (a : App) (fs : List Frame) (m : Metrics) :
    (match a.runCounted p fuel fs m with | .ok (r, _) => .ok r | .error h => .error h) = a.run p fuel fs := by
  rw [← runCounted_uncounted p fuel fs a m]
  cases a.runCounted p fuel fs m <;> rfl

/-- An update of a program after whatever it has been through, with the counters before and after. -/
structure CountedUpdate (p : Platform) (document : Html) (css : Css) (a a' : App) (f : Frame) (out : Output) (m m' : Metrics) : Prop where
  history : ∃ fuel fuel' a0 fs outs, openApp p fuel document css = .ok a0 ∧ a0.run p fuel' fs = .ok (a, outs)
  update : ∃ fuel, a.updateCounted p fuel f.order f.input f.value m = .ok ((a', out), m')

section one
variable {document : Html} {css : Css} {a a' : App} {f : Frame} {out : Output} {m m' : Metrics}

/-- The parts of it. -/
theorem CountedUpdate.parts (h : CountedUpdate p document css a a' f out m m') :
    ∃ fuel v styled tree m1 l, a.screen.view.update p.inline f.value = .ok v ∧ v.stage.tree.Wf v.root v.body ∧ v.stage.tree.par v.body = some v.root ∧ v.stage.tree.Named ∧
      styleTreeCounted a.css.styles.length (a.env p fuel f.order f.input.time) fuel v.body ⟨16, 16, ⟨0, 0, 0, 0⟩, f.input.viewport.1, f.input.viewport.2⟩ (fun _ => none)
        (⟨v.stage.tree, upd a.layouts v.root (resizeRoot f.input.viewport (a.layouts v.root))⟩, { m with updates := m.updates + 1 }) = .ok (styled, m1) ∧
      Tally (a.env p fuel f.order f.input.time) a.css.styles.length ⟨v.stage.tree, upd a.layouts v.root (resizeRoot f.input.viewport (a.layouts v.root))⟩ styled v.body
        { m with updates := m.updates + 1 } m1 l ∧
      placeTreeCounted (p.solve (styled.recall f.order.recall)) fuel v.body (0, 0) 1 none (styled.tree, m1) = .ok (tree, m') ∧
      Restyled v.stage.tree styled.tree ∧ SameForm v.stage.tree a'.screen.view.stage.tree ∧
      a'.screen.view.root = v.root ∧ a'.screen.view.body = v.body ∧ a'.layouts = styled.layouts ∧ a.css = css := by
  obtain ⟨fuel0, fuel1, a0, fs, outs, ho, hr⟩ := h.history
  obtain ⟨fuel, hu⟩ := h.update
  have hl := living_run fs (Living.opened ho) hr
  have hn := named_run fs (Living.opened ho) (named_opened ho) hr
  have hplain : a.update p fuel f.order f.input f.value = .ok (a', out) := by
    have := updateCounted_uncounted p fuel f.order a f.input f.value m
    rw [hu] at this; exact this.symm
  obtain ⟨v, styled, tree, t', ui, m1, g1, g2, g3, g4, g5⟩ := updateCounted_parts hu
  obtain ⟨wf, -, hpar, -⟩ := hl.bound g1
  have hlink := linked_of_wf wf
  obtain ⟨l, hT⟩ := styleTreeCounted_tally (s := ⟨v.stage.tree, _⟩) fuel hlink g2
  have hst : Restyled v.stage.tree styled.tree := styleView_restyled (s := ⟨v.stage.tree, _⟩) wf (styleTreeCounted_plain g2)
  have hpl : Restyled styled.tree tree := by
    have := placeTreeCounted_uncounted (p.solve (styled.recall f.order.recall)) fuel v.body (0, 0) 1 none (styled.tree, m1)
    rw [g3] at this
    exact placeTree_restyled _ this.symm
  have hso := handleOutput_states (session_ok hl.session) g1 (hst.trans hpl) g4
  refine ⟨fuel, v, styled, tree, m1, l, g1, wf, hpar, named_bound hl hn g1, g2, hT, g3, hst, ?_, by rw [g5], by rw [g5], by rw [g5], ?_⟩
  · rw [g5]
    refine SameForm.trans (hst.trans hpl).form ?_
    exact Tree.Related.mono (fun e e' h => by rw [h]; exact ⟨rfl, rfl, rfl, rfl, rfl, rfl, rfl, rfl, rfl⟩) hso
  · obtain ⟨σ, hop⟩ := openApp_opened ho
    rw [(run_keeps fs hr).2]
    exact hop.sheet

/-- **C86.** Every update is counted once. -/
theorem C86_updates (h : CountedUpdate p document css a a' f out m m') : m'.updates = m.updates + 1 := by
  obtain ⟨fuel, v, styled, tree, m1, l, g1, wf, hpar, hn, hs, hT, hp, hr, hf, hroot, hbody, hlay, hcss⟩ := h.parts
  have h1 : m1.updates = m.updates + 1 := by rw [hT.sum, tally_fields _ (fun n => upd a.layouts v.root (resizeRoot f.input.viewport (a.layouts v.root)) n != styled.layouts n)]
  rw [← h1]
  exact placeTreeCounted_updates _ _ hp

/-- **C86.** The elements shown are counted: those and the texts one comes across walking over the view from its body. -/
theorem C86_elements_shown (h : CountedUpdate p document css a a' f out m m') {d : Nat} {shown : Shown} (hd : a'.screen.view.draw d = some shown) :
    m'.elementsShown = m.elementsShown + shown.size := by
  obtain ⟨fuel, v, styled, tree, m1, l, g1, wf, hpar, hn, hs, hT, hp, hr, hf, hroot, hbody, hlay, hcss⟩ := h.parts
  have hd' : styled.tree.draw d v.body = some shown := by
    rw [draw_form hr.form, ← draw_form hf, ← hbody]; exact hd
  rw [placeTreeCounted_shown _ _ hp (hn.restyled hr) hd']
  have h1 : m1.elementsShown = m.elementsShown := by rw [hT.sum, tally_fields _ (fun n => upd a.layouts v.root (resizeRoot f.input.viewport (a.layouts v.root)) n != styled.layouts n)]
  simp only [h1]

/-- **C86.** The cascades are counted: one for each element shown that has a style of its own. -/
theorem C86_cascades (h : CountedUpdate p document css a a' f out m m') {d : Nat} {shown : Shown} (hd : a'.screen.view.draw d = some shown) :
    m'.cascades = m.cascades + shown.styled := by
  obtain ⟨fuel, v, styled, tree, m1, l, g1, wf, hpar, hn, hs, hT, hp, hr, hf, hroot, hbody, hlay, hcss⟩ := h.parts
  have hd' : v.stage.tree.draw d v.body = some shown := by
    rw [← draw_form hf, ← hbody]; exact hd
  have h1 := styleTreeCounted_styled (s := ⟨v.stage.tree, _⟩) _ (linked_of_wf wf) hn hs hd'
  have hd2 : styled.tree.draw d v.body = some shown := by rw [draw_form hr.form]; exact hd'
  rw [placeTreeCounted_shown _ _ hp (hn.restyled hr) hd2]
  exact h1

/-- **C86.** The metrics have the number of rules of the stylesheet, as soon as an element was styled. -/
theorem C86_styles (h : CountedUpdate p document css a a' f out m m') {d : Nat} {shown : Shown} (hd : a'.screen.view.draw d = some shown) (hs : 0 < shown.styled) :
    m'.styles = css.styles.length := by
  have hc := C86_cascades h hd
  obtain ⟨fuel, v, styled, tree, m1, l, g1, wf, hpar, hn, hs', hT, hp, hr, hf, hroot, hbody, hlay, hcss⟩ := h.parts
  have hd2 : styled.tree.draw d v.body = some shown := by
    rw [draw_form hr.form, ← draw_form hf, ← hbody]; exact hd
  have hm := placeTreeCounted_shown _ _ hp (hn.restyled hr) hd2
  have h1 := hT.sum
  rw [tally_fields _ (fun n => upd a.layouts v.root (resizeRoot f.input.viewport (a.layouts v.root)) n != styled.layouts n)] at h1
  rw [hm, h1] at hc
  dsimp only at hc
  have hne : l ≠ [] := fun h => by rw [h] at hc; simp at hc; omega
  rw [hm, h1]
  simp only [if_neg hne]
  rw [hcss]

/-- **C86.** The changes of layout styles are counted: one for each node, the root aside, whose layout style is another than
before the update. -/
theorem C86_layouts (h : CountedUpdate p document css a a' f out m m') :
    m'.layouts = m.layouts + ((List.range a'.screen.view.stage.tree.next).filter fun n => n ≠ a'.screen.view.root ∧ a'.layouts n ≠ a.layouts n).length := by
  obtain ⟨fuel, v, styled, tree, m1, l, g1, wf, hpar, hn, hs, hT, hp, hr, hf, hroot, hbody, hlay, hcss⟩ := h.parts
  have h1 : m1.layouts = m.layouts + l.countP (fun x => upd a.layouts v.root (resizeRoot f.input.viewport (a.layouts v.root)) x.1 != styled.layouts x.1) := by
    rw [hT.sum, tally_fields _ (fun n => upd a.layouts v.root (resizeRoot f.input.viewport (a.layouts v.root)) n != styled.layouts n)]
  rw [placeTreeCounted_layouts _ _ hp, h1]
  congr 1
  rw [hf.next, hroot, hlay]
  have hlink := linked_of_wf wf
  have hlt : v.root < v.body := hlink.older _ _ hpar
  have hnr : ∀ x ∈ l, x.1 ≠ v.root := by
    intro x hx he
    have := (hT.below x hx).le hlink
    rw [he] at this
    unfold NodeId at *; omega
  have e1 : l.countP (fun x => upd a.layouts v.root (resizeRoot f.input.viewport (a.layouts v.root)) x.1 != styled.layouts x.1) =
      ((l.map (·.1)).filter fun n => decide (n ≠ v.root ∧ styled.layouts n ≠ a.layouts n)).length := by
    rw [← List.countP_eq_length_filter, List.countP_map]
    refine List.countP_congr (fun x hx => ?_)
    have := hnr x hx
    simp only [upd_other _ _ this, bne_iff_ne, ne_eq, Function.comp, decide_eq_true_eq]
    constructor
    · intro h; exact ⟨this, fun h' => h h'.symm⟩
    · intro h h'; exact h.2 h'.symm
  rw [e1]
  refine List.Perm.length_eq ((List.perm_ext_iff_of_nodup (hT.nodup.filter _) ((List.nodup_range).filter _)).2 (fun n => ?_))
  simp only [List.mem_filter, List.mem_range, decide_eq_true_eq]
  constructor
  · rintro ⟨hx, h2, h3⟩
    refine ⟨?_, h2, h3⟩
    obtain ⟨x, hx', rfl⟩ := List.mem_map.1 hx
    obtain ⟨_, _, _, e, _, _, _, _, _, _, _, _, _, he, -⟩ := hT.entries x hx'
    exact wf.exist _ (by rw [he]; rfl)
  · rintro ⟨-, h2, h3⟩
    refine ⟨?_, h2, h3⟩
    by_contra hx
    have := hT.rest n hx
    dsimp only at this
    rw [upd_other _ _ h2] at this
    exact h3 this

/-- The elements counted are those styling gets to from the body (`Styles`) that are not texts. -/
theorem tally_nodes {env : FrameEnv} {rules : Nat} {t t' : Tree} {layouts : NodeId → LayoutStyle} {styled : Styled} {b b' : NodeId} {l : List (NodeId × CascadeStats)}
    (hT : Tally env rules ⟨t, layouts⟩ styled b m m' l) (hf : SameForm t t') (hbody : b' = b) (n : NodeId) :
    n ∈ l.map (·.1) ↔ Styles t' b' n ∧ ∃ e, t'.ctx n = some e ∧ e.text = none := by
  constructor
  · intro hx
    obtain ⟨x, hx', rfl⟩ := List.mem_map.1 hx
    obtain ⟨_, _, _, e, _, _, _, _, _, _, _, _, _, he, ht, -⟩ := hT.entries x hx'
    obtain ⟨e', q1, q2⟩ := hf.there _ _ he
    refine ⟨?_, e', q1, by rw [q2.text]; exact ht⟩
    rw [hbody]
    exact (hT.own x hx').form hf
  · rintro ⟨h1, e', h2, h3⟩
    rw [hbody] at h1
    refine hT.all n (h1.unform hf) (fun e he => ?_)
    obtain ⟨e'', q1, q2⟩ := hf.there _ _ he
    rw [h2] at q1; injection q1 with q1; subst q1
    rw [← q2.text]; exact h3

/-- **C86.** The rules gone through are counted. The elements that are styled are those styling gets to from the body (`Styles`)
that are not texts; for each of them the rules kept for it are counted, by kind. -/
theorem C86_rules (h : CountedUpdate p document css a a' f out m m') :
    ∃ nodes : List NodeId, nodes.Nodup ∧
      (∀ n, n ∈ nodes ↔ Styles a'.screen.view.stage.tree a'.screen.view.body n ∧ ∃ e, a'.screen.view.stage.tree.ctx n = some e ∧ e.text = none) ∧
      m'.matchesStatic = m.matchesStatic + (nodes.map fun n => (a.kept n).countP fun r => match r with | .static _ => true | .dynamic _ => false).sum ∧
      m'.matchesDynamic = m.matchesDynamic + (nodes.map fun n => (a.kept n).countP fun r => match r with | .static _ => false | .dynamic _ => true).sum := by
  obtain ⟨fuel, v, styled, tree, m1, l, g1, wf, hpar, hn, hs, hT, hp, hr, hf, hroot, hbody, hlay, hcss⟩ := h.parts
  have hm1 := hT.sum
  rw [tally_fields _ (fun n => upd a.layouts v.root (resizeRoot f.input.viewport (a.layouts v.root)) n != styled.layouts n)] at hm1
  obtain ⟨k1, k2, k3, k4⟩ := placeTreeCounted_stats _ _ hp
  refine ⟨l.map (·.1), hT.nodup, tally_nodes hT hf hbody, ?_, ?_⟩
  · rw [k1, hm1]
    simp only [List.map_map]
    congr 2
    refine List.map_congr_left (fun x hx => ?_)
    obtain ⟨_, _, _, e, _, _, _, _, _, _, _, _, _, he, -, -, -, -, hc⟩ := hT.entries x hx
    rw [hc]; rfl
  · rw [k2, hm1]
    simp only [List.map_map]
    congr 2
    refine List.map_congr_left (fun x hx => ?_)
    obtain ⟨_, _, _, e, _, _, _, _, _, _, _, _, _, he, -, -, -, -, hc⟩ := hT.entries x hx
    rw [hc]; rfl

/-- **C86.** The properties applied are counted: for each element that is styled the entries of its style, as it is after
animations and transitions and as it gives the element its layout style; those that could be applied and those that could not. -/
theorem C86_properties (h : CountedUpdate p document css a a' f out m m') (hfair : f.order.Fair) :
    ∃ (nodes : List NodeId) (final : NodeId → ComputedStyle) (sizes : NodeId → Sizes) (fuel : Nat) (v : View), nodes.Nodup ∧
      a.screen.view.update p.inline f.value = .ok v ∧
      (∀ n, n ∈ nodes ↔ Styles a'.screen.view.stage.tree a'.screen.view.body n ∧ ∃ e, a'.screen.view.stage.tree.ctx n = some e ∧ e.text = none) ∧
      (∀ n ∈ nodes, ∃ parent vars e e' vars' rules declared animators animated transitions, v.stage.tree.ctx n = some e ∧
        Steps (a.env p fuel f.order f.input.time) v.stage.tree n parent (sizes n) vars
          (upd a.layouts v.root (resizeRoot f.input.viewport (a.layouts v.root)) n) e (a'.layouts n) e' vars' rules declared animators animated transitions (final n)) ∧
      m'.applyOk = m.applyOk + (nodes.map fun n => (final n).countP fun x => (assignment (sizes n) x.1.key x.2).2).sum ∧
      m'.applyError = m.applyError + (nodes.map fun n => (final n).countP fun x => !(assignment (sizes n) x.1.key x.2).2).sum := by
  obtain ⟨fuel, v, styled, tree, m1, l, g1, wf, hpar, hn, hs, hT, hp, hr, hf, hroot, hbody, hlay, hcss⟩ := h.parts
  have hex : ∀ n, ∃ r : ComputedStyle × Sizes, ∀ c, (n, c) ∈ l → c = elementStats (a.env p fuel f.order f.input.time) n r.2 r.1 ∧
      ∃ parent vars e e' vars' rules declared animators animated transitions, v.stage.tree.ctx n = some e ∧
        Steps (a.env p fuel f.order f.input.time) v.stage.tree n parent r.2 vars
          (upd a.layouts v.root (resizeRoot f.input.viewport (a.layouts v.root)) n) e (a'.layouts n) e' vars' rules declared animators animated transitions r.1 := by
    intro n
    by_cases hx : ∃ c, (n, c) ∈ l
    · obtain ⟨c, hc⟩ := hx
      obtain ⟨parent, sizes, vars, e, lay, e', vars', rules, declared, animators, animated, transitions, final, he, -, -, hl', hst, hcc⟩ := hT.entries _ hc
      refine ⟨(final, sizes), fun c' hc' => ?_⟩
      have : c' = c := by
        have := List.inj_on_of_nodup_map hT.nodup hc' hc rfl
        injection this
      rw [this]
      refine ⟨hcc, parent, vars, e, e', vars', rules, declared, animators, animated, transitions, he, ?_⟩
      rw [hlay, hl']
      exact hst
    · exact ⟨([], ⟨0, 0, ⟨0, 0, 0, 0⟩, 0, 0⟩), fun c hc => absurd ⟨c, hc⟩ hx⟩
  choose r hr' using hex
  have hm1 := hT.sum
  rw [tally_fields _ (fun n => upd a.layouts v.root (resizeRoot f.input.viewport (a.layouts v.root)) n != styled.layouts n)] at hm1
  obtain ⟨k1, k2, k3, k4⟩ := placeTreeCounted_stats _ _ hp
  refine ⟨l.map (·.1), fun n => (r n).1, fun n => (r n).2, fuel, v, hT.nodup, g1, tally_nodes hT hf hbody, fun n hx => ?_, ?_, ?_⟩
  · obtain ⟨x, hx', rfl⟩ := List.mem_map.1 hx
    exact (hr' x.1 x.2 hx').2
  · rw [k3, hm1]
    simp only [List.map_map]
    congr 2
    refine List.map_congr_left (fun x hx => ?_)
    rw [(hr' x.1 x.2 hx).1]
    exact (hfair.style _ _).countP_eq _
  · rw [k4, hm1]
    simp only [List.map_map]
    congr 2
    refine List.map_congr_left (fun x hx => ?_)
    rw [(hr' x.1 x.2 hx).1]
    exact (hfair.style _ _).countP_eq _

end one

end Verif
