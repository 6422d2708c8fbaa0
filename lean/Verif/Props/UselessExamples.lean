import Verif.Props.Useless
import Verif.Props.DataExamples
/-!
# C102: examples
-/
namespace Verif
open Sheet

theorem WithMore.refl {α : Type} {U : α → Prop} (l : List α) : WithMore U l l := by
  induction l with
  | nil => exact .nil
  | cons x l ih => exact .same ih

theorem WithMore.atEnd {α : Type} {U : α → Prop} {x : α} (hx : U x) (l : List α) : WithMore U l (l ++ [x]) := by
  induction l with
  | nil => exact .more hx .nil
  | cons y l ih => exact .same ih

/-- `.ghost > p, marquee { width: 3px }` and `p ul, p:visited, p::before { height: 3px }`. -/
def ghostRule : Style := ⟨[[.class "ghost", .combinator '>', .type "p"], [.type "marquee"]], [.property .Width [[.explicit (.dimension ⟨3, .px⟩)]]]⟩
def neverRule : Style := ⟨[[.type "p", .combinator ' ', .type "li"], [.type "p", .pseudoClass "visited"], [.type "p", .pseudoElement "before"]],
  [.property .Height [[.explicit (.dimension ⟨3, .px⟩)]]]⟩

/-- The stylesheet of `wholeDoc` with both. -/
def wholeMore : Css := { meaning wholeItems with styles := ghostRule :: (meaning wholeItems).styles ++ [neverRule] }

/-- The same run with two stylesheets. -/
theorem C102_example : ∃ a, openApp wholePlatform 100 wholeDoc ⟨[], fun _ => none⟩ = .ok a ∧
    WithMore (Style.Useless a.screen.view) (meaning wholeItems).styles wholeMore.styles ∧
    (∃ b n, openApp wholePlatform 100 wholeDoc wholeMore = .ok b ∧ .dynamic neverRule ∈ b.kept n) ∧
    ∃ r, played wholePlatform 100 100 wholeDoc (meaning wholeItems) wholeFrames = .ok r ∧ played wholePlatform 100 100 wholeDoc wholeMore wholeFrames = .ok r := by
  have h : (match openApp wholePlatform 100 wholeDoc ⟨[], fun _ => none⟩, renderView (docEnv wholePlatform.translate wholePlatform.inline wholeDoc) 100 (docBody wholeDoc),
      openApp wholePlatform 100 wholeDoc (meaning wholeItems), openApp wholePlatform 100 wholeDoc wholeMore with
    | .ok a, .ok (_, _, σ), .ok c, .ok b =>
      σ.regs.all (fun r => match r.2.params with | .tag _ "class" => false | .attribute _ "class" _ => false | _ => true) &&
      (List.range a.screen.view.stage.tree.next).all (fun n => match a.screen.view.stage.tree.ctx n with
        | none => true | some e => e.tag != "marquee" && e.attrs "class" == none) &&
      (b.kept 2).any (fun x => match x with | .dynamic s => decide (s.selectors = neverRule.selectors) | _ => false) &&
      (match c.evalRun wholePlatform 100 wholeFrames with | some (.ok _) => true | _ => false)
    | _, _, _, _ => false) = true := by decide +kernel
  split at h
  case h_2 => cases h
  rename_i a r1 r2 σ c b ha hσ hc hb
  simp only [Bool.and_eq_true, List.all_eq_true, List.any_eq_true, List.mem_range] at h
  obtain ⟨⟨⟨h1, h2⟩, x, hx, h3⟩, h4⟩ := h
  obtain ⟨σ', hop⟩ := openApp_opened ha
  obtain ⟨σ0, hσ0, hk⟩ := reached_kept (.opened hop.view)
  rw [hσ] at hσ0
  simp only [Except.ok.injEq, Prod.mk.injEq] at hσ0
  obtain ⟨-, -, rfl⟩ := hσ0
  have elem : ∀ n e, a.screen.view.stage.tree.ctx n = some e → e.tag ≠ "marquee" ∧ e.attrs "class" = none := by
    intro n e he
    have := h2 n (hk.good.wf.exist n (by rw [he]; rfl))
    rw [he] at this
    simpa using this
  have hbind : ∀ n, ¬ BindsAttr a.screen.view.vm.bindings n "class" := by
    rintro n ⟨path, bd, hm, hp⟩
    rw [hk.good.bindings, mem_lookupRegs] at hm
    have := h1 _ hm
    rcases hp with hp | ⟨i, hp⟩ <;> rw [hp] at this <;> simp at this
  have hghost : ghostRule.Useless a.screen.view := by
    refine ⟨?_, ?_⟩
    · intro s hs; simp only [ghostRule, List.mem_cons, List.not_mem_nil, or_false] at hs; rcases hs with rfl | rfl <;> simp
    · intro s hs
      simp only [ghostRule, List.mem_cons, List.not_mem_nil, or_false] at hs
      rcases hs with rfl | rfl
      · exact ⟨.class "ghost", by simp, fun n e he => ⟨hbind n, fun t ht => by rw [(elem n e he).2] at ht; cases ht⟩⟩
      · exact ⟨.type "marquee", by simp, fun n e he => (elem n e he).1⟩
  have hnever : neverRule.Useless a.screen.view := by
    refine ⟨?_, ?_⟩
    · intro s hs; simp only [neverRule, List.mem_cons, List.not_mem_nil, or_false] at hs; rcases hs with rfl | rfl | rfl <;> simp
    · intro s hs
      simp only [neverRule, List.mem_cons, List.not_mem_nil, or_false] at hs
      rcases hs with rfl | rfl | rfl
      · exact ⟨.combinator ' ', by simp, by decide, by decide⟩
      · exact ⟨.pseudoClass "visited", by simp, by simp [Simple.Hopeless]⟩
      · exact ⟨.pseudoElement "before", by simp, trivial⟩
  have hm : WithMore (Style.Useless a.screen.view) (meaning wholeItems).styles wholeMore.styles := .more hghost (.atEnd hnever _)
  have hd : .dynamic neverRule ∈ b.kept 2 := by
    have hmem : ∀ y ∈ b.kept 2, y.rule ∈ wholeMore.styles := by
      obtain ⟨τ, hop'⟩ := openApp_opened hb
      intro y hy
      rcases (keepRules_spec (renderView_ok hop'.rendered).wf _ hop'.kept).1 2 with hk | ⟨e, -, hl⟩
      · rw [hk] at hy; simp at hy
      · exact classify_mem hl y hy
    cases x with
    | static s => simp at h3
    | dynamic s =>
      have h3 : s.selectors = neverRule.selectors := by simpa using h3
      have hs : s ∈ wholeMore.styles := hmem _ hx
      simp only [wholeMore, meaning, wholeItems, List.mem_append, List.mem_cons, List.not_mem_nil, or_false, List.filterMap_cons, List.filterMap_nil] at hs
      rcases hs with (rfl | rfl | rfl) | rfl
      · simp [ghostRule, neverRule] at h3
      · simp [neverRule] at h3
      · simp [neverRule] at h3
      · exact hx
  split at h4
  case h_2 => cases h4
  rename_i r hr
  obtain ⟨c', outs⟩ := r
  have hp : played wholePlatform 100 100 wholeDoc (meaning wholeItems) wholeFrames = .ok (c'.screen, c'.layouts, outs) := by
    unfold played
    rw [hc]
    simp only
    rw [App.evalRun_sound _ hr]
  exact ⟨a, ha, hm, ⟨b, 2, hb, hd⟩, _, hp, by
    rw [C102_useless_rules (css := meaning wholeItems) (css' := wholeMore) ha hm rfl]; exact hp⟩

/-- Why `+` is excepted in C102: `.ghost + b` never matches anything, and with overflow checks the document cannot be opened
with it. -/
theorem C102_plus_counterexample : (∃ a, openApp wholePlatform 100 siblingsDoc ⟨[], fun _ => none⟩ = .ok a ∧
      (Simple.class "ghost").Hopeless a.screen.view) ∧
    openApp wholePlatform 100 siblingsDoc ⟨[⟨[[.class "ghost", .combinator '+', .type "b"]], []⟩], fun _ => none⟩ = .error .panic := by
  have h : (match openApp wholePlatform 100 siblingsDoc ⟨[], fun _ => none⟩, renderView (docEnv wholePlatform.translate wholePlatform.inline siblingsDoc) 100 (docBody siblingsDoc),
      openApp wholePlatform 100 siblingsDoc ⟨[⟨[[.class "ghost", .combinator '+', .type "b"]], []⟩], fun _ => none⟩ with
    | .ok a, .ok (_, _, σ), .error h => σ.regs.isEmpty &&
      (List.range a.screen.view.stage.tree.next).all (fun n => match a.screen.view.stage.tree.ctx n with
        | none => true | some e => e.attrs "class" == none) && decide (h = .panic)
    | _, _, _ => false) = true := by decide +kernel
  split at h
  case h_2 => cases h
  rename_i a r1 r2 σ f ha hσ hf
  simp only [Bool.and_eq_true, List.all_eq_true, List.mem_range, decide_eq_true_eq, List.isEmpty_iff] at h
  obtain ⟨⟨h1, h2⟩, rfl⟩ := h
  obtain ⟨σ', hop⟩ := openApp_opened ha
  obtain ⟨σ0, hσ0, hk⟩ := reached_kept (.opened hop.view)
  rw [hσ] at hσ0
  simp only [Except.ok.injEq, Prod.mk.injEq] at hσ0
  obtain ⟨-, -, rfl⟩ := hσ0
  refine ⟨⟨a, ha, fun n e he => ⟨?_, fun t ht => ?_⟩⟩, hf⟩
  · rintro ⟨path, bd, hm, -⟩
    rw [hk.good.bindings, mem_lookupRegs, h1] at hm
    cases hm
  · have := h2 n (hk.good.wf.exist n (by rw [he]; rfl))
    rw [he] at this
    simp only [beq_iff_eq] at this
    rw [this] at ht; cases ht

end Verif
