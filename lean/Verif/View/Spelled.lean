import Verif.Spec.Spelled
import Verif.View.Outdone
/-!
# Lemmas about shorthands written out (C112)
-/
namespace Verif

variable {p : Platform}

theorem gather_explicit (vars : Variables) (fuel : Nat) (words : List ComputedValue) :
    gather (computeDef vars (fuel + 1)) (words.map Definition.explicit) = some words := by
  induction words with
  | nil => rfl
  | cons w words ih => simp only [List.map_cons, gather, computeDef, ih, List.cons_append, List.nil_append]

theorem computeBlock_declare (fuel : Nat) (key : PropertyKey) (words : List ComputedValue) (block : List Declaration) (vars : Variables) (m : ComputedStyle) :
    computeBlock (fuel + 1) (declare key words :: block) vars m = computeBlock (fuel + 1) block vars (overwrites 0 (expand key words) m) := by
  unfold declare
  simp only [computeBlock, computeValues, computeStyle, computeShorthand, gather_explicit]

theorem computeBlock_declare_zero (key : PropertyKey) {words : List ComputedValue} (h : words ≠ []) (block : List Declaration) (vars : Variables) (m : ComputedStyle) :
    computeBlock 0 (declare key words :: block) vars m = none := by
  cases words with
  | nil => exact absurd rfl h
  | cons w words => rfl

theorem StandsFor.block {d : Declaration} {ds : List Declaration} (h : StandsFor d ds) (fuel : Nat) (block : List Declaration) (vars : Variables) (m : ComputedStyle) :
    computeBlock fuel (ds ++ block) vars m = computeBlock fuel (d :: block) vars m := by
  cases fuel with
  | zero =>
    cases h with
    | box hk hs => cases hs <;> rfl
    | _ => rfl
  | succ fuel =>
    cases h with
    | box hk hs => cases hk <;> cases hs <;> (simp only [List.cons_append, List.nil_append, computeBlock_declare]; rfl)
    | axis v hk => cases hk <;> (simp only [List.cons_append, List.nil_append, computeBlock_declare]; rfl)
    | axes v w hk => cases hk <;> (simp only [List.cons_append, List.nil_append, computeBlock_declare]; rfl)
    | side w s c hk => cases hk <;> (simp only [List.cons_append, List.nil_append, computeBlock_declare]; rfl)
    | border w s c => cases w <;> (simp only [List.cons_append, List.nil_append, computeBlock_declare]; rfl)
    | _ => simp only [List.cons_append, List.nil_append, computeBlock_declare]; rfl

theorem WrittenOut.block {l l' : List Declaration} (h : WrittenOut l l') (fuel : Nat) : ∀ vars m, computeBlock fuel l' vars m = computeBlock fuel l vars m := by
  induction h with
  | nil => exact fun _ _ => rfl
  | @same d l l' _ ih =>
    intro vars m
    cases d with
    | «variable» k s => simp only [computeBlock, ih]
    | property k vs => simp only [computeBlock, ih]
  | @out d ds l l' hd _ ih =>
    intro vars m
    rw [← hd.block, computeBlock_append, computeBlock_append]
    congr 1
    funext r
    exact ih _ _

/-- Rules with the same selectors, whose blocks come to the same. -/
theorem SameParts.blocks {fuel : Nat} {l l' : List Style}
    (h : List.Forall₂ (fun s s' => s'.selectors = s.selectors ∧ ∀ vars m, computeBlock fuel s'.declaration vars m = computeBlock fuel s.declaration vars m) l l') : SameParts fuel l l' := by
  induction h with
  | nil => exact ⟨fun _ _ => .rfl, fun _ _ _ _ => rfl⟩
  | @cons s s' l l' hs _ ih =>
    refine ⟨fun c hc => by simp only [List.map_cons, List.mem_cons, ih.selectors c hc, hs.1], fun f rest vars m => ?_⟩
    simp only [List.filter_cons, hs.1]
    split
    · simp only [List.map_cons, List.cons_append, computeBlocks, hs.2, ih.effect f rest]
    · exact ih.effect f rest vars m

end Verif
