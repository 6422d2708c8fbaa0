import Verif.View.Copies
import Verif.Props.UselessExamples
/-!
# C104: rules written more than once make no difference
-/
namespace Verif
open Sheet

variable {p : Platform}

/-- **C104.** A rule that is written again before the place where it stands (if it has no variables), or twice in a row (if it defines
its variables first), makes no difference: opening fails alike or succeeds, and every series of updates fails alike or has the same outputs and ends
with the same view. -/
theorem C104_copied_rules {fuel fuel' : Nat} {document : Html} {css css' : Css} (hm : Copied Style.VariablesFirst Style.NoVariables css.styles css'.styles)
    (ha : css'.animations = css.animations) (fs : List Frame) :
    played p fuel fuel' document css' fs = played p fuel fuel' document css fs := by
  have h := openApp_copied (p := p) (fuel := fuel) (document := document) hm ha
  unfold played
  revert h
  generalize openApp p fuel document css = A
  generalize openApp p fuel document css' = B
  intro h
  cases h with
  | error e => rfl
  | ok h =>
    rename_i b b'
    have hr := App.Copies.run (p := p) (fuel := fuel') fs h
    simp only
    revert hr
    generalize b.run p fuel' fs = A
    generalize b'.run p fuel' fs = B
    intro hr
    cases hr with
    | error e => rfl
    | ok hr =>
      rename_i x y
      obtain ⟨x1, x2⟩ := x
      obtain ⟨y1, y2⟩ := y
      obtain ⟨h4, h5⟩ := hr
      simp only at h4 h5 ⊢
      rw [h5, h4.screen, h4.layouts]

/-- The rules of `wholeDoc`, the second also at the beginning, the first twice. -/
def wholeCopied : Css := { meaning wholeItems with styles := match (meaning wholeItems).styles with | [a, b] => [b, a, a, b] | l => l }

/-- The conditions of C104 are met, and the program runs. -/
theorem C104_example : Copied Style.VariablesFirst Style.NoVariables (meaning wholeItems).styles wholeCopied.styles ∧ wholeCopied.styles.length = 4 ∧
    ∃ r, played wholePlatform 100 100 wholeDoc (meaning wholeItems) wholeFrames = .ok r ∧ played wholePlatform 100 100 wholeDoc wholeCopied wholeFrames = .ok r := by
  have hm : Copied Style.VariablesFirst Style.NoVariables (meaning wholeItems).styles wholeCopied.styles := by
    refine .earlier ?_ (List.mem_cons_of_mem _ List.mem_cons_self) (.twice ⟨[], _, rfl, by simp, ?_⟩ (.same .nil))
    · intro d hd
      simp only [List.mem_cons, List.not_mem_nil, or_false] at hd
      rcases hd with rfl | rfl <;> intro v hv d hd <;> simp only [List.mem_cons, List.not_mem_nil, or_false] at hv <;> subst hv <;>
        simp only [List.mem_cons, List.not_mem_nil, or_false] at hd
      · subst hd; exact .explicit _
      · rcases hd with rfl | rfl <;> exact .explicit _
    · intro d hd
      simp only [List.mem_cons, List.not_mem_nil, or_false] at hd
      rcases hd with rfl | rfl <;> exact ⟨_, _, rfl⟩
  obtain ⟨a, -, -, -, r, h, -⟩ := C102_example
  exact ⟨hm, rfl, r, h, by rw [C104_copied_rules hm rfl]; exact h⟩

/-- A document with one paragraph, and a rule that uses its variable before defining it. -/
def lateDoc : Html := .mk "" [] none [.mk "body" [] none [.mk "p" [] none []]]
def lateRule : Style := ⟨[[.type "p"]], [.property .Width [[.var "a"]], .variable "a" [.explicit (.dimension ⟨3, .px⟩)]]⟩

/-- Why variables have to come first in C104: a rule that defines its variable after using it sets the width only when it is
written twice. -/
theorem C104_late_variable_counterexample : ∃ r r', played wholePlatform 100 100 lateDoc ⟨[lateRule], fun _ => none⟩ [⟨orderId, {}, .null⟩] = .ok r ∧
    played wholePlatform 100 100 lateDoc ⟨[lateRule, lateRule], fun _ => none⟩ [⟨orderId, {}, .null⟩] = .ok r' ∧
    (r.2.1 2).width = .auto ∧ (r'.2.1 2).width = .length 3 := by
  have h : (match openApp wholePlatform 100 lateDoc ⟨[lateRule], fun _ => none⟩, openApp wholePlatform 100 lateDoc ⟨[lateRule, lateRule], fun _ => none⟩ with
    | .ok a, .ok b => match a.evalRun wholePlatform 100 [⟨orderId, {}, .null⟩], b.evalRun wholePlatform 100 [⟨orderId, {}, .null⟩] with
      | some (.ok (a', _)), some (.ok (b', _)) => decide ((a'.layouts 2).width = .auto) && decide ((b'.layouts 2).width = .length 3)
      | _, _ => false
    | _, _ => false) = true := by decide +kernel
  split at h
  case h_2 => cases h
  rename_i a b ha hb
  split at h
  case h_2 => cases h
  rename_i a' o b' o' hra hrb
  simp only [Bool.and_eq_true, decide_eq_true_eq] at h
  refine ⟨(a'.screen, a'.layouts, o), (b'.screen, b'.layouts, o'), ?_, ?_, h.1, h.2⟩
  · unfold played
    rw [ha]
    simp only
    rw [App.evalRun_sound _ hra]
  · unfold played
    rw [hb]
    simp only
    rw [App.evalRun_sound _ hrb]

end Verif
