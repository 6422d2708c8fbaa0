import Verif.Props.Swaps
import Verif.Props.ReproducibleExamples
/-!
# C105: examples
-/
namespace Verif

/-- `p { gap: 1px; --w: 7px }`, `p { width: 10px; transition: width 1s }` and `* { height: var(--w) }`. -/
def gapRule : Style := ⟨[[.type "p"]], [.property .Gap [[.explicit (.dimension ⟨1, .px⟩)]], .variable "w" [.explicit (.dimension ⟨7, .px⟩)]]⟩
def widthRule : Style := ⟨[[.type "p"]], [.property .Width [[.explicit (.dimension ⟨10, .px⟩)]], .property .Transition [[.explicit (.keyword "width"), .explicit (.time 1)]]]⟩
def heightRule : Style := ⟨[[.all]], [.property .Height [[.var "w"]]]⟩

/-- The three, and with the second first or last. -/
def swapCss : Css := ⟨[widthRule, gapRule, heightRule], fun _ => none⟩
def swapCss' : Css := ⟨[gapRule, heightRule, widthRule], fun _ => none⟩

theorem sets_plain {K : PropertyKey} {values : List Shorthand} (h1 : K ∉ boxShorthands.map (·.1)) (h2 : K ∉ otherShorthands.map (·.1))
    {vars : Variables} {d : Descriptor} {v : ComputedValue} (h : (Declaration.property K values).Sets vars d v) : d.key = K := by
  obtain ⟨_, _, _, vs, he, _, _, h⟩ := h
  injection he with he1 he2
  subst he1
  rw [C44_other_shorthands_partial.2.1 _ h1 h2] at h
  split at h
  · simp only [List.mem_singleton, Prod.mk.injEq] at h; exact h.1
  · cases h

theorem sets_shorthand {K : PropertyKey} {longs : List PropertyKey} {values : List Shorthand} (hk : (K, longs) ∈ otherShorthands)
    {vars : Variables} {d : Descriptor} {v : ComputedValue} (h : (Declaration.property K values).Sets vars d v) : d.key ∈ K :: longs := by
  obtain ⟨_, _, _, vs, he, _, _, h⟩ := h
  injection he with he1 he2
  subst he1
  rcases C44_other_shorthands_partial.1 _ longs hk vs _ _ h with h | ⟨h, _⟩
  · exact List.mem_cons_of_mem _ h
  · rw [h]; exact List.mem_cons_self

theorem sets_none {k : String} {s : Shorthand} {vars : Variables} {d : Descriptor} {v : ComputedValue} (h : (Declaration.variable k s).Sets vars d v) : False := by
  obtain ⟨_, _, _, _, he, _⟩ := h
  cases he

theorem gapRule_keys {x : Declaration} (hx : x ∈ gapRule.declaration) {vars : Variables} {d : Descriptor} {v : ComputedValue} (h : x.Sets vars d v) :
    d.key ∈ [PropertyKey.Gap, .RowGap, .ColumnGap] := by
  simp only [gapRule, List.mem_cons, List.not_mem_nil, or_false] at hx
  rcases hx with rfl | rfl
  · exact sets_shorthand (longs := [.RowGap, .ColumnGap]) (by simp [otherShorthands]) h
  · exact (sets_none h).elim

theorem widthRule_keys {x : Declaration} (hx : x ∈ widthRule.declaration) {vars : Variables} {d : Descriptor} {v : ComputedValue} (h : x.Sets vars d v) :
    d.key ∈ [PropertyKey.Width, .Transition, .TransitionProperty, .TransitionDuration, .TransitionTimingFunction, .TransitionDelay] := by
  simp only [widthRule, List.mem_cons, List.not_mem_nil, or_false] at hx
  rcases hx with rfl | rfl
  · rw [sets_plain (by decide) (by decide) h]; decide
  · exact List.mem_cons_of_mem _ (sets_shorthand (longs := [.TransitionProperty, .TransitionDuration, .TransitionTimingFunction, .TransitionDelay])
      (by simp [otherShorthands]) h)

theorem heightRule_keys {x : Declaration} (hx : x ∈ heightRule.declaration) {vars : Variables} {d : Descriptor} {v : ComputedValue} (h : x.Sets vars d v) :
    d.key = .Height := by
  simp only [heightRule, List.mem_cons, List.not_mem_nil, or_false] at hx
  subst hx
  exact sets_plain (by decide) (by decide) h

theorem widthRule_noVariables : widthRule.NoVariables := by
  intro d hd
  simp only [widthRule, List.mem_cons, List.not_mem_nil, or_false] at hd
  rcases hd with rfl | rfl <;> intro v hv d hd <;> simp only [List.mem_cons, List.not_mem_nil, or_false] at hv <;> subst hv <;>
    simp only [List.mem_cons, List.not_mem_nil, or_false] at hd
  · subst hd; exact .explicit _
  · rcases hd with rfl | rfl <;> exact .explicit _

theorem width_gap_apart : widthRule.Apart gapRule :=
  ⟨fun x hx y hy vars vars' d v w h1 h2 => by
    have k1 := widthRule_keys hx h1
    have k2 := gapRule_keys hy h2
    simp only [List.mem_cons, List.not_mem_nil, or_false] at k1 k2
    rcases k2 with k2 | k2 | k2 <;> rw [k2] at k1 <;> simp at k1, .inr (.inl widthRule_noVariables)⟩

theorem width_height_apart : widthRule.Apart heightRule :=
  ⟨fun x hx y hy vars vars' d v w h1 h2 => by
    have k1 := widthRule_keys hx h1
    have k2 := heightRule_keys hy h2
    rw [k2] at k1
    simp at k1, .inr (.inl widthRule_noVariables)⟩

/-- The conditions of C105 are met by moving the first of three rules to the end, and the program runs. -/
theorem C105_example : Swapped Style.Apart swapCss.styles swapCss'.styles ∧ swapCss.Unlisted ∧ (∀ f ∈ lookFrames ++ [lookLast], f.order.Fair) ∧
    UnlistedDocument wholePlatform lookDoc ∧ ∃ r, played wholePlatform 100 100 lookDoc swapCss (lookFrames ++ [lookLast]) = .ok r ∧
      played wholePlatform 100 100 lookDoc swapCss' (lookFrames ++ [lookLast]) = .ok r ∧ (r.2.1 2).width = .length 10 ∧ (r.2.1 2).height = .length 7 := by
  have h1 : Swapped Style.Apart swapCss.styles swapCss'.styles := .trans (.swap _ width_gap_apart) (.same (.swap _ width_height_apart))
  have h2 : swapCss.Unlisted := by
    refine ⟨?_, fun name an h => by cases h⟩
    intro s hs x hx
    simp only [swapCss, List.mem_cons, List.not_mem_nil, or_false] at hs
    rcases hs with rfl | rfl | rfl <;> simp only [widthRule, gapRule, heightRule, List.mem_cons, List.not_mem_nil, or_false] at hx
    · rcases hx with rfl | rfl <;> exact .inl (by decide)
    · rcases hx with rfl | rfl
      · exact .inl (by decide)
      · trivial
    · subst hx; exact .inl (by decide)
  have h3 : ∀ f ∈ lookFrames ++ [lookLast], f.order.Fair := by
    intro f hf
    simp only [lookFrames, List.cons_append, List.nil_append, List.mem_cons, List.not_mem_nil, or_false] at hf
    rcases hf with rfl | rfl
    · exact orderId_fair
    · exact orderReverse_fair
  have h4 := C84_example.2.1
  refine ⟨h1, h2, h3, h4, ?_⟩
  have h : (match openApp wholePlatform 100 lookDoc swapCss with
    | .ok a => match a.evalRun wholePlatform 100 (lookFrames ++ [lookLast]) with
      | some (.ok (a', _)) => decide ((a'.layouts 2).width = .length 10) && decide ((a'.layouts 2).height = .length 7)
      | _ => false
    | _ => false) = true := by decide +kernel
  split at h
  case h_2 => cases h
  rename_i a ha
  split at h
  case h_2 => cases h
  rename_i a' o hra
  simp only [Bool.and_eq_true, decide_eq_true_eq] at h
  have hp : played wholePlatform 100 100 lookDoc swapCss (lookFrames ++ [lookLast]) = .ok (a'.screen, a'.layouts, o) := by
    unfold played
    rw [ha]
    simp only
    rw [App.evalRun_sound _ hra]
  exact ⟨_, hp, (C105_swapped_rules h1 rfl h2 h3 fun _ _ => .inl h4).trans hp, h.1, h.2⟩

/-- `p { gap: 1px }` and `p { row-gap: 2px }`. -/
def wideGap : Style := ⟨[[.type "p"]], [.property .Gap [[.explicit (.dimension ⟨1, .px⟩)]]]⟩
def rowGap : Style := ⟨[[.type "p"]], [.property .RowGap [[.explicit (.dimension ⟨2, .px⟩)]]]⟩

/-- Why both conditions of `Apart` are needed: exchanging a shorthand with one of its longhands, or the definition of a variable with its
use, makes a difference. -/
theorem C105_apart_counterexample :
    (∃ r r', played wholePlatform 100 100 lateDoc ⟨[wideGap, rowGap], fun _ => none⟩ [⟨orderId, {}, .null⟩] = .ok r ∧
      played wholePlatform 100 100 lateDoc ⟨[rowGap, wideGap], fun _ => none⟩ [⟨orderId, {}, .null⟩] = .ok r' ∧
      (r.2.1 2).gapHeight = .length 2 ∧ (r'.2.1 2).gapHeight = .length 1) ∧
    ∃ r r', played wholePlatform 100 100 lateDoc ⟨[gapRule, heightRule], fun _ => none⟩ [⟨orderId, {}, .null⟩] = .ok r ∧
      played wholePlatform 100 100 lateDoc ⟨[heightRule, gapRule], fun _ => none⟩ [⟨orderId, {}, .null⟩] = .ok r' ∧
      (r.2.1 2).height = .length 7 ∧ (r'.2.1 2).height = .auto := by
  have run : ∀ (css : Css) (P : LayoutStyle → Bool), (match openApp wholePlatform 100 lateDoc css with
    | .ok a => match a.evalRun wholePlatform 100 [⟨orderId, {}, .null⟩] with
      | some (.ok (a', _)) => P (a'.layouts 2)
      | _ => false
    | _ => false) = true → ∃ r, played wholePlatform 100 100 lateDoc css [⟨orderId, {}, .null⟩] = .ok r ∧ P (r.2.1 2) = true := by
    intro css P h
    split at h
    case h_2 => cases h
    rename_i a ha
    split at h
    case h_2 => cases h
    rename_i a' o hra
    refine ⟨(a'.screen, a'.layouts, o), ?_, h⟩
    unfold played
    rw [ha]
    simp only
    rw [App.evalRun_sound _ hra]
  obtain ⟨r1, p1, q1⟩ := run ⟨[wideGap, rowGap], fun _ => none⟩ (fun l => decide (l.gapHeight = .length 2)) (by decide +kernel)
  obtain ⟨r2, p2, q2⟩ := run ⟨[rowGap, wideGap], fun _ => none⟩ (fun l => decide (l.gapHeight = .length 1)) (by decide +kernel)
  obtain ⟨r3, p3, q3⟩ := run ⟨[gapRule, heightRule], fun _ => none⟩ (fun l => decide (l.height = .length 7)) (by decide +kernel)
  obtain ⟨r4, p4, q4⟩ := run ⟨[heightRule, gapRule], fun _ => none⟩ (fun l => decide (l.height = .auto)) (by decide +kernel)
  simp only [decide_eq_true_eq] at q1 q2 q3 q4
  exact ⟨⟨r1, r2, p1, p2, q1, q2⟩, r3, r4, p3, p4, q3, q4⟩

end Verif
