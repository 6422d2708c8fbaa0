import Verif.Spec.Joined
import Verif.View.Outdone
/-!
# Lemmas about neighbouring rules with the same selectors (C113)
-/
namespace Verif

theorem Joined.parts (fuel : Nat) {l l' : List Style} (h : Joined l l') : SameParts fuel l l' := by
  induction h with
  | nil => exact ⟨fun _ _ => .rfl, fun _ _ _ _ => rfl⟩
  | @same s l l' _ ih =>
    refine ⟨fun c hc => by simp only [List.map_cons, List.mem_cons, ih.selectors c hc], fun f rest vars m => ?_⟩
    simp only [List.filter_cons]
    split
    · simp only [List.map_cons, List.cons_append, computeBlocks, ih.effect f rest]
    · exact ih.effect f rest vars m
  | @join sel a b l l' _ ih =>
    refine ⟨fun c hc => by rw [ih.selectors c hc]; simp, fun f rest vars m => ?_⟩
    rw [ih.effect f rest vars m, computeBlocks_flatten, computeBlocks_flatten]
    simp only [List.filter_cons]
    split <;> simp only [List.map_cons, List.cons_append, List.flatten_cons, List.append_assoc]

end Verif
