import Verif.View.Outdone
/-!
# Lemmas about rules without declarations (C114)
-/
namespace Verif

theorem empty_parts (fuel : Nat) {l l' : List Style} (h : WithMore (fun s => s.declaration = [] ∧ s.NoPlus) l l') : SameParts fuel l l' := by
  induction h with
  | nil => exact ⟨fun _ _ => .rfl, fun _ _ _ _ => rfl⟩
  | @same s l l' _ ih =>
    refine ⟨fun c hc => by simp only [List.map_cons, List.mem_cons, ih.selectors c hc], fun f rest vars m => ?_⟩
    simp only [List.filter_cons]
    split
    · simp only [List.map_cons, List.cons_append, computeBlocks, ih.effect f rest]
    · exact ih.effect f rest vars m
  | @more s l l' hs _ ih =>
    obtain ⟨hd, hp⟩ := hs
    refine ⟨fun c hc => ?_, fun f rest vars m => ?_⟩
    · rw [← ih.selectors c hc]
      simp only [List.map_cons, List.mem_cons]
      refine ⟨fun h => h.resolve_left ?_, .inr⟩
      rintro rfl
      exact hc hp
    · simp only [List.filter_cons]
      split
      · simp only [List.map_cons, List.cons_append, computeBlocks, hd, computeBlock, ih.effect f rest]
      · exact ih.effect f rest vars m

end Verif
