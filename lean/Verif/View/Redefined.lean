import Verif.Spec.Redefined
import Verif.View.Spelled
/-!
# Lemmas about variables that are defined again (C116)
-/
namespace Verif

theorem computeBlock_redefined (fuel : Nat) (x : String) (v : Shorthand) (b : List Declaration) {mid : List Declaration} (h : ∀ d ∈ mid, d.Literal ∨ ∃ y w, d = .«variable» y w) :
    ∀ {vars vars' : Variables}, (∀ y, y ≠ x → vars y = vars' y) → ∀ m,
      computeBlock fuel (mid ++ .«variable» x v :: b) vars m = computeBlock fuel (mid ++ .«variable» x v :: b) vars' m := by
  induction mid with
  | nil =>
    intro vars vars' hv m
    simp only [List.nil_append, computeBlock]
    congr 1
    funext y
    rw [set_set_other, set_set_other]
    by_cases hy : y = x
    · rw [if_pos hy, if_pos hy]
    · rw [if_neg hy, if_neg hy]; exact hv y hy
  | cons d mid ih =>
    have ih := fun {vars vars'} => ih (fun d hd => h d (List.mem_cons_of_mem _ hd)) (vars := vars) (vars' := vars')
    intro vars vars' hv m
    rw [List.cons_append]
    cases d with
    | «variable» k s =>
      simp only [computeBlock]
      refine ih (fun y hy => ?_) m
      rw [set_set_other, set_set_other, hv y hy]
    | property k values =>
      have hl : ∀ v ∈ values, ∀ d ∈ v, d.NoVar := by
        rcases h _ List.mem_cons_self with h | ⟨y, w, h⟩
        · exact h
        · cases h
      simp only [computeBlock, computeValues_noVar vars vars' fuel k hl]
      cases computeValues vars' fuel k 0 values m with
      | none => rfl
      | some m => exact ih hv m

theorem Redefined.block {l l' : List Declaration} (h : Redefined l l') (fuel : Nat) : ∀ vars m, computeBlock fuel l' vars m = computeBlock fuel l vars m := by
  induction h with
  | nil => exact fun _ _ => rfl
  | @same d l l' _ ih =>
    intro vars m
    cases d with
    | «variable» k s => simp only [computeBlock, ih]
    | property k vs => simp only [computeBlock, ih]
  | @drop x v v' mid b l' hm _ ih =>
    intro vars m
    rw [ih]
    simp only [computeBlock]
    refine computeBlock_redefined fuel x v' b hm (fun y hy => ?_) m
    rw [set_set_other, if_neg hy]

end Verif
