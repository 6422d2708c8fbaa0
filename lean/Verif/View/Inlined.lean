import Verif.Spec.Inlined
import Verif.View.Spelled
/-!
# Lemmas about variables replaced by their values (C115)
-/
namespace Verif

theorem gather_joined {α β : Type} (f : α → Option (List β)) (a b : List α) :
    gather f (a ++ b) = (gather f a).bind fun x => (gather f b).bind fun y => some (x ++ y) := by
  induction a with
  | nil => simp only [List.nil_append, gather]; cases gather f b <;> rfl
  | cons x a ih =>
    simp only [List.cons_append, gather, ih]
    cases f x with
    | none => rfl
    | some u =>
      cases gather f a with
      | none => rfl
      | some w =>
        cases gather f b with
        | none => rfl
        | some z => simp

/-- What is known of variables is so. -/
def Known (known : String → Option (List ComputedValue)) (vars : Variables) : Prop := ∀ x words, known x = some words → vars x = some (words.map .explicit)

theorem Replaced.gather {known : String → Option (List ComputedValue)} {vars : Variables} (hk : Known known vars) (fuel : Nat) {v v' : Shorthand} (h : Replaced known v v') :
    gather (computeDef vars (fuel + 2)) v' = gather (computeDef vars (fuel + 2)) v := by
  induction h with
  | nil => rfl
  | same _ ih => simp only [Verif.gather, ih]
  | @var x words v v' hx _ ih =>
    rw [gather_joined, gather_explicit, ih]
    simp only [Verif.gather, computeDef, hk x words hx, gather_explicit, Option.bind_some]
    cases Verif.gather (computeDef vars (fuel + 2)) v <;> simp

theorem computeValues_replaced {known : String → Option (List ComputedValue)} {vars : Variables} (hk : Known known vars) (fuel : Nat) (key : PropertyKey) {vs vs' : List Shorthand}
    (h : List.Forall₂ (Replaced known) vs vs') : ∀ i m, computeValues vars (fuel + 2) key i vs' m = computeValues vars (fuel + 2) key i vs m := by
  induction h with
  | nil => exact fun _ _ => rfl
  | cons hv _ ih =>
    intro i m
    simp only [computeValues, computeStyle, computeShorthand, hv.gather hk, ih]

theorem Inlined.block {known : String → Option (List ComputedValue)} {l l' : List Declaration} (h : Inlined known l l') (fuel : Nat) : ∀ {vars : Variables}, Known known vars → ∀ m,
    computeBlock (fuel + 2) l' vars m = computeBlock (fuel + 2) l vars m := by
  induction h with
  | nil => exact fun _ _ => rfl
  | @words known x words l l' _ ih =>
    intro vars hk m
    simp only [computeBlock]
    refine ih (fun y w hy => ?_) m
    rw [set_set_other]
    dsimp only at hy
    by_cases hyx : y = x
    · rw [if_pos hyx] at hy ⊢
      rw [Option.some.inj hy]
    · rw [if_neg hyx] at hy ⊢
      exact hk y w hy
  | @define known x v l l' _ ih =>
    intro vars hk m
    simp only [computeBlock]
    refine ih (fun y w hy => ?_) m
    rw [set_set_other]
    dsimp only at hy
    by_cases hyx : y = x
    · rw [if_pos hyx] at hy; cases hy
    · rw [if_neg hyx] at hy ⊢
      exact hk y w hy
  | @property known key vs vs' l l' hv _ ih =>
    intro vars hk m
    simp only [computeBlock, computeValues_replaced hk fuel key hv, ih hk]

end Verif
