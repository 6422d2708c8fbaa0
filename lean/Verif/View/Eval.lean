import Verif.View.View
import Verif.ViewModel.Eval
/-!
# Evaluating views on literals (for concrete witnesses only)
-/
namespace Verif
open Json

/-- `View.updates` with `evalValue`. -/
def View.evalUpdates (inline : String → Option (List Declaration)) (depth : Nat) (v : View) :
    List Json → Option (Except Fail View)
  | [] => some (.ok v)
  | x :: xs =>
    (evalValue v.vm.defaults depth v.vm.model x "" "").bind fun b =>
      match b with
      | none => some (.error .panic)
      | some b =>
        match updateTrees inline v.stage (b.notes.flatMap (reactAt v.vm.bindings v.vm.transformers)) with
        | .error f => some (.error f)
        | .ok stage => View.evalUpdates inline depth { v with vm := { v.vm with model := b.dst }, stage := stage } xs

theorem View.evalUpdates_sound (inline : String → Option (List Declaration)) (depth : Nat) (vs : List Json) :
    ∀ (v : View) r, v.evalUpdates inline depth vs = some r → v.updates inline vs = r := by
  induction vs with
  | nil => intro v r h; simpa [View.evalUpdates, View.updates] using h
  | cons x xs ih =>
    intro v r h
    simp only [View.evalUpdates, Option.bind_eq_some_iff] at h
    obtain ⟨b, hb, h⟩ := h
    have hb' := evalValue_sound hb
    unfold View.updates View.update ViewModel.bind
    rw [hb']
    cases b with
    | none => simpa using h
    | some b =>
      simp only [Option.map_some]
      simp only at h
      cases hu : updateTrees inline v.stage (b.notes.flatMap (reactAt v.vm.bindings v.vm.transformers)) with
      | error f => rw [hu] at h; simp only at h ⊢; simpa using h
      | ok stage => rw [hu] at h; simp only at h ⊢; exact ih _ _ h

/-- A check of a document on literals. -/
def checkView (doc : Html) (vs : List Json) (blank : Json) (P : View → Bool) : Bool :=
  match openView id (fun _ => none) (fun _ => none) 20 doc with
  | .error _ => false
  | .ok v0 => decide (v0.vm.model = blank) &&
    match v0.evalUpdates (fun _ => none) 20 vs with
    | some (.ok v) => P v
    | _ => false

theorem checkView_sound {doc : Html} {vs : List Json} {blank : Json} {P : View → Bool}
    (h : checkView doc vs blank P = true) :
    ∃ v0 v, openView id (fun _ => none) (fun _ => none) 20 doc = .ok v0 ∧ v0.vm.model = blank ∧
      v0.updates (fun _ => none) vs = .ok v ∧ P v = true := by
  unfold checkView at h
  cases ho : openView id (fun _ => none) (fun _ => none) 20 doc with
  | error e => rw [ho] at h; simp at h
  | ok v0 =>
    rw [ho] at h
    simp only [Bool.and_eq_true, decide_eq_true_eq] at h
    obtain ⟨h1, h2⟩ := h
    cases he : v0.evalUpdates (fun _ => none) 20 vs with
    | none => rw [he] at h2; simp at h2
    | some r =>
      rw [he] at h2
      cases r with
      | error f => simp at h2
      | ok v => exact ⟨v0, v, rfl, h1, View.evalUpdates_sound _ _ _ _ _ he, h2⟩

end Verif
