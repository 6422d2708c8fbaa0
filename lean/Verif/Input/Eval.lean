import Verif.Input.Session
import Verif.View.Eval
/-!
# Evaluating sessions on literals (for concrete witnesses only)
-/
namespace Verif

/-- A layout: positions and sizes. -/
abbrev Boxes := NodeId → (Rat × Rat) × (Rat × Rat)

def Tree.layout (t : Tree) (f : Boxes) : Tree :=
  { t with ctx := fun n => (t.ctx n).map fun e => { e with position := (f n).1, size := (f n).2 } }

theorem Tree.layout_restyled (t : Tree) (f : Boxes) : Restyled t (t.layout f) :=
  ⟨rfl, rfl, rfl, fun n hn => by simp [Tree.layout, hn],
    fun n e he => ⟨{ e with position := (f n).1, size := (f n).2 }, by simp only [Tree.layout, he, Option.map_some], ⟨rfl, rfl, rfl, rfl, rfl, rfl, rfl, rfl, rfl⟩, rfl⟩⟩

/-- One update of a session: value, layout and events. -/
structure Play where
  value : Json
  boxes : Boxes
  events : List InputEvent

def Screen.play (s : Screen) (x : Play) : Option (Screen × Output) :=
  match s.view.evalUpdates (fun _ => none) 20 [x.value] with
  | some (.ok v) =>
    match handleOutput v.emitter v.body x.events (v.stage.tree.layout x.boxes, s.ui) with
    | .ok ((t, u), out) => some (⟨{ v with stage := { v.stage with tree := t } }, u⟩, out)
    | .error _ => none
  | _ => none

theorem Screen.play_sound {s s' : Screen} {x : Play} {out : Output} (h : s.play x = some (s', out)) :
    s.Updates (fun _ => none) x.value x.events s' out := by
  unfold Screen.play at h
  split at h
  · rename_i v hv
    have := View.evalUpdates_sound _ _ _ _ _ hv
    simp only [View.updates] at this
    split at this
    · simp at this
    · rename_i v1 h1
      simp only [Except.ok.injEq] at this
      subst this
      split at h
      · rename_i t u out' ho
        simp only [Option.some.injEq, Prod.mk.injEq] at h
        obtain ⟨rfl, rfl⟩ := h
        exact ⟨v1, _, t, u, h1, Tree.layout_restyled _ _, ho, rfl⟩
      · simp at h
  · simp at h

def Screen.plays : Screen → List Play → Option Screen
  | s, [] => some s
  | s, x :: xs => match s.play x with
    | some (s, _) => s.plays xs
    | none => none

/-- A check of a document on literals: some updates, then one more. -/
def checkSession (doc : Html) (xs : List Play) (x : Play) (P : Screen → Screen → Output → Bool) : Bool :=
  match openView id (fun _ => none) (fun _ => none) 20 doc with
  | .error _ => false
  | .ok v0 =>
    match Screen.plays ⟨v0, {}⟩ xs with
    | none => false
    | some s =>
      match s.play x with
      | none => false
      | some (s', out) => P s s' out

theorem checkSession_sound {doc : Html} {xs : List Play} {x : Play} {P : Screen → Screen → Output → Bool}
    (h : checkSession doc xs x P = true) :
    ∃ s s' out, Session id (fun _ => none) (fun _ => none) 20 doc s ∧
      s.Updates (fun _ => none) x.value x.events s' out ∧
      Session id (fun _ => none) (fun _ => none) 20 doc s' ∧ P s s' out = true := by
  unfold checkSession at h
  split at h
  · simp at h
  · rename_i v0 h0
    have hplays : ∀ xs s1 s, Session id (fun _ => none) (fun _ => none) 20 doc s1 → Screen.plays s1 xs = some s →
        Session id (fun _ => none) (fun _ => none) 20 doc s := by
      intro xs
      induction xs with
      | nil => intro s1 s hs h; simp only [Screen.plays, Option.some.injEq] at h; rw [← h]; exact hs
      | cons y ys ih =>
        intro s1 s hs h
        simp only [Screen.plays] at h
        split at h
        · rename_i s2 o h2; exact ih s2 s (.updated hs (Screen.play_sound h2)) h
        · simp at h
    split at h
    · simp at h
    · rename_i s hs
      split at h
      · simp at h
      · rename_i s' out hp
        have h1 := hplays xs _ s (.opened h0) hs
        have h2 := Screen.play_sound hp
        exact ⟨s, s', out, h1, h2, .updated h1 h2, h⟩

end Verif
