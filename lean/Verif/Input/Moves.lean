import Verif.Input.Steps
/-!
# The mouse move as a whole (lemmas for C28, C29, C33, C38)
-/
namespace Verif

theorem HoverIs.congr {s : Desk} {S S' : NodeId → Prop} (h : HoverIs s S) (hS : ∀ n, S n ↔ S' n) : HoverIs s S' :=
  ⟨fun n e he => (h.hover n e he).trans (hS n), fun n => by
    obtain ⟨b, h1, h2⟩ := h.cross n; exact ⟨b, h1, h2.trans (hS n)⟩⟩

theorem leaveLoop_ok {env} {s : Desk} {previous : List NodeId} (hnd : previous.Nodup)
    (hex : ∀ n ∈ previous, (s.1.ctx n).isSome) (hH : HoverIs s (· ∈ previous)) :
    ∃ s', eachNode (leaveStep env) previous.reverse s = .ok s' ∧ Quiet env (MoveSends s.2.drag) s s' ∧ SameRest s s' ∧
      HoverIs s' (fun m => m ∈ previous ∧ m ∈ s.2.under) := by
  have := eachNode_ind (f := leaveStep env)
    (fun rem s' => Quiet env (MoveSends s.2.drag) s s' ∧ SameRest s s' ∧ rem.Nodup ∧
      HoverIs s' (fun m => m ∈ previous ∧ (m ∈ s.2.under ∨ m ∈ rem))) previous.reverse s
    ⟨.refl s, .refl s, by simpa using hnd, hH.congr fun n => by simp; exact fun h => .inr h⟩ ?_
  · obtain ⟨s', h1, h2, h3, -, h4⟩ := this
    exact ⟨s', h1, h2, h3, h4.congr fun n => by simp⟩
  · rintro n rest s1 ⟨hq, hr, hn, hh⟩ hmem
    have hp : n ∈ previous := by simpa using hmem
    obtain ⟨e, he⟩ := Option.isSome_iff_exists.1 (hex n hp)
    obtain ⟨e1, he1, -⟩ := hq.tree.there n e he
    obtain ⟨s2, g1, g2, g3, g4⟩ := leaveStep_ok (env := env) he1 hh ⟨hp, .inr (by simp)⟩
    rw [hr.drag] at g2
    refine ⟨s2, g1, hq.trans g2, SameRest.trans hq.tree hr g3, (List.nodup_cons.1 hn).2, g4.congr fun m => ?_⟩
    rw [hq.under]
    have hnr := (List.nodup_cons.1 hn).1
    simp only [List.mem_cons]
    constructor
    · rintro ⟨⟨h1, h2⟩, h3⟩
      refine ⟨h1, ?_⟩
      rcases h2 with h2 | h2 | h2
      · exact .inl h2
      · subst h2
        rcases h3 with h3 | h3
        · exact absurd rfl h3
        · exact .inl h3
      · exact .inr h2
    · rintro ⟨h1, h2⟩
      refine ⟨⟨h1, ?_⟩, ?_⟩
      · rcases h2 with h2 | h2
        · exact .inl h2
        · exact .inr (.inr h2)
      · by_cases hmn : m = n
        · subst hmn
          rcases h2 with h2 | h2
          · exact .inr h2
          · exact absurd h2 hnr
        · exact .inl hmn

theorem enterLoop_ok {env} {s : Desk} {previous current : List NodeId} (hnd : current.Nodup)
    (hex : ∀ n ∈ current, (s.1.ctx n).isSome) (hH : HoverIs s (fun m => m ∈ previous ∧ m ∈ current)) :
    ∃ s', eachNode (enterStep env previous) current.reverse s = .ok s' ∧ Quiet env (MoveSends s.2.drag) s s' ∧ SameRest s s' ∧
      HoverIs s' (· ∈ current) := by
  have := eachNode_ind (f := enterStep env previous)
    (fun rem s' => Quiet env (MoveSends s.2.drag) s s' ∧ SameRest s s' ∧ rem.Nodup ∧
      HoverIs s' (fun m => m ∈ current ∧ (m ∈ previous ∨ m ∉ rem))) current.reverse s
    ⟨.refl s, .refl s, by simpa using hnd, hH.congr fun n => by simp; tauto⟩ ?_
  · obtain ⟨s', h1, h2, h3, -, h4⟩ := this
    exact ⟨s', h1, h2, h3, h4.congr fun n => by simp⟩
  · rintro n rest s1 ⟨hq, hr, hn, hh⟩ hmem
    have hp : n ∈ current := by simpa using hmem
    obtain ⟨e, he⟩ := Option.isSome_iff_exists.1 (hex n hp)
    obtain ⟨e1, he1, -⟩ := hq.tree.there n e he
    obtain ⟨s2, g1, g2, g3, g4⟩ := enterStep_ok (env := env) (previous := previous) he1 hh (by simp [hp])
    rw [hr.drag] at g2
    refine ⟨s2, g1, hq.trans g2, SameRest.trans hq.tree hr g3, (List.nodup_cons.1 hn).2, g4.congr fun m => ?_⟩
    have hnr := (List.nodup_cons.1 hn).1
    simp only [List.mem_cons, not_or]
    constructor
    · rintro (⟨h1, h2 | ⟨-, h2⟩⟩ | rfl)
      · exact ⟨h1, .inl h2⟩
      · exact ⟨h1, .inr h2⟩
      · exact ⟨hp, .inr hnr⟩
    · rintro ⟨h1, h2⟩
      by_cases hmn : m = n
      · exact .inr hmn
      · refine .inl ⟨h1, ?_⟩
        rcases h2 with h2 | h2
        · exact .inl h2
        · exact .inr ⟨hmn, h2⟩

theorem moveMouse_ok {env root body} {s : Desk} (hw : s.1.Wf root body) (hb : (s.1.ctx body).isSome)
    (hnd : s.2.under.Nodup) (hex : ∀ n ∈ s.2.under, (s.1.ctx n).isSome) (hH : HoverIs s (· ∈ s.2.under)) (p : Rat × Rat)
    {current : List NodeId} (hc : current = (preorder s.1 s.1.next body).filter (pointedB s.1 p)) :
    ∃ s', moveMouse env body p s = .ok s' ∧ Quiet env (MoveSends s.2.drag) (s.1, { s.2 with under := current }) s' ∧
      SameRest s s' ∧ HoverIs s' (· ∈ current) ∧ current.Nodup ∧ (∀ n ∈ current, (s.1.ctx n).isSome) := by
  obtain ⟨t, u⟩ := s
  simp only at *
  have hle : t.next ≤ body + t.next := by unfold NodeId; omega
  have hu := underMouse_ok hw p t.next body hb hle
  have n1 : current.Nodup := hc ▸ (preorder_nodup hw t.next body hb hle).filter _
  have n2 : ∀ n ∈ current, (t.ctx n).isSome := by
    intro n hn
    rw [hc, List.mem_filter] at hn
    obtain ⟨e, he, -⟩ := (pointedB_iff t p n).1 hn.2
    rw [he]; rfl
  obtain ⟨s1, a1, a2, a3, a4⟩ := leaveLoop_ok (env := env) (s := (t, { u with under := current })) hnd hex ⟨hH.hover, hH.cross⟩
  obtain ⟨s2, b1, b2, b3, b4⟩ := enterLoop_ok (env := env) (s := s1) (previous := u.under) (current := current) n1
    (fun n hn => by rw [a2.tree.isSome]; exact n2 n hn) a4
  rw [a3.drag] at b2
  refine ⟨s2, ?_, a2.trans b2, ?_, b4, n1, n2⟩
  · simp only [moveMouse, hu, ← hc, a1, a2.under, b1]
  · exact SameRest.trans (a := (t, u)) a2.tree ⟨a3.drag, a3.focus, a3.inAction, a3.states⟩ b3

end Verif
