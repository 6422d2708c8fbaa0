import Verif.Input.Standing
/-!
# Who is sent what, in which order (lemmas for C29, C66)
-/
namespace Verif

theorem sentTo_append (h : String) (a b : List Tick) : sentTo h (a ++ b) = sentTo h a ++ sentTo h b := by
  simp [sentTo, List.filterMap_append]

theorem sentTo_emit {env} (h : String) (u : Ui) (n : NodeId) (e : Element) (k : String) (ev : Json) :
    sentTo h (u.emit env n e k ev).history = sentTo h u.history ++ (if k = h then [n] else []) := by
  rw [emit_history, sentTo_append]
  congr 1
  by_cases hk : k = h <;> simp [sentTo, hk]

theorem sentTo_emitMouse {env} (h : String) (u : Ui) (n : NodeId) (e : Element) (k : String) :
    sentTo h (u.emitMouse env n e k).history = sentTo h u.history ++ (if k = h then [n] else []) := sentTo_emit ..

/-- A loop whose rounds each add a piece. -/
theorem eachNode_adds {f : Desk → NodeId → Except Fail Desk} {h : String} {g : NodeId → List NodeId}
    (hf : ∀ s n s', f s n = .ok s' → sentTo h s'.2.history = sentTo h s.2.history ++ g n) (l : List NodeId) {s s' : Desk}
    (hs : eachNode f l s = .ok s') : sentTo h s'.2.history = sentTo h s.2.history ++ l.flatMap g := by
  induction l generalizing s with
  | nil => simp only [eachNode, Except.ok.injEq] at hs; subst hs; simp
  | cons n l ih =>
    simp only [eachNode] at hs
    split at hs
    · simp at hs
    · rename_i s1 h1
      rw [ih hs, hf _ _ _ h1]; simp

/-- The handlers whose order is described. -/
def Ordered (h : String) : Prop := h = "onmousedown" ∨ h = "onmouseup" ∨ h = "onmousemove"

theorem history_drag (u : Ui) (d : Option NodeId) : ({ u with drag := d } : Ui).history = u.history := rfl
theorem history_focus (u : Ui) (d : Option NodeId) : ({ u with focus := d } : Ui).history = u.history := rfl
theorem history_inAction (u : Ui) (d : List NodeId) : ({ u with inAction := d } : Ui).history = u.history := rfl
theorem history_under (u : Ui) (d : List NodeId) : ({ u with under := d } : Ui).history = u.history := rfl

theorem leaveStep_sentTo {env h} (hh : Ordered h) {s s' : Desk} {n : NodeId} (hs : leaveStep env s n = .ok s') :
    sentTo h s'.2.history = sentTo h s.2.history := by
  unfold leaveStep at hs
  split at hs
  · simp only [Except.ok.injEq] at hs; subst hs; rfl
  · split at hs
    · simp at hs
    · simp only [Except.ok.injEq] at hs; subst hs
      simp only
      split <;> rcases hh with rfl | rfl | rfl <;> simp [sentTo_append, sentTo]

theorem enterStep_sentTo {env h previous} (hh : Ordered h) {s s' : Desk} {n : NodeId} (hs : enterStep env previous s n = .ok s') :
    sentTo h s'.2.history = sentTo h s.2.history ++ (if h = "onmousemove" then [n] else []) := by
  unfold enterStep at hs
  split at hs
  · simp at hs
  · simp only [Except.ok.injEq] at hs; subst hs
    simp only
    by_cases hp : n ∈ previous
    · simp only [hp, if_true]
      split <;> rcases hh with rfl | rfl | rfl <;> simp [sentTo_append, sentTo]
    · simp only [hp, if_false]
      split <;> split <;> rcases hh with rfl | rfl | rfl <;> simp [sentTo_append, sentTo]

theorem moveMouse_sentTo {env h body p} (hh : Ordered h) {s s' : Desk} (hs : moveMouse env body p s = .ok s') :
    ∃ current, underMouse s.1 p s.1.next body = .ok current ∧
      sentTo h s'.2.history = sentTo h s.2.history ++ (if h = "onmousemove" then current.reverse else []) := by
  unfold moveMouse at hs
  simp only at hs
  split at hs
  · simp at hs
  · rename_i current hc
    refine ⟨current, hc, ?_⟩
    split at hs
    · simp at hs
    · rename_i s1 h1
      have hu : s1.2.under = current := by
        have : ∀ (l : List NodeId) (a b : Desk), eachNode (leaveStep env) l a = .ok b → b.2.under = a.2.under := by
          intro l
          induction l with
          | nil => intro a b hab; simp only [eachNode, Except.ok.injEq] at hab; subst hab; rfl
          | cons n l ih =>
            intro a b hab
            simp only [eachNode] at hab
            split at hab
            · simp at hab
            · rename_i c hc
              rw [ih _ _ hab]
              unfold leaveStep at hc
              split at hc
              · simp only [Except.ok.injEq] at hc; subst hc; rfl
              · split at hc
                · simp at hc
                · simp only [Except.ok.injEq] at hc; subst hc
                  simp only; split <;> rfl
        exact this _ _ _ h1
      have a1 := eachNode_adds (h := h) (g := fun _ => []) (fun s n s' hx => by rw [leaveStep_sentTo hh hx]; simp) _ h1
      have a2 := eachNode_adds (h := h) (g := fun n => if h = "onmousemove" then [n] else []) (fun s n s' hx => enterStep_sentTo hh hx) _ hs
      rw [a2, a1, hu]
      have : ({ s.2 with under := current } : Ui).history = s.2.history := rfl
      rw [this]
      by_cases hm : h = "onmousemove" <;> simp [hm]

theorem blurOutside_sentTo {env h} (hh : Ordered h) {s s' : Desk} (hs : blurOutside env s = .ok s') :
    sentTo h s'.2.history = sentTo h s.2.history ∧ s'.2.under = s.2.under := by
  unfold blurOutside at hs
  split at hs
  · simp only [Except.ok.injEq] at hs; subst hs; exact ⟨rfl, rfl⟩
  · split at hs
    · simp only [Except.ok.injEq] at hs; subst hs; exact ⟨rfl, rfl⟩
    · split at hs
      · simp at hs
      · simp only [Except.ok.injEq] at hs; subst hs
        refine ⟨?_, rfl⟩
        simp only [sentTo_emitMouse, history_focus]
        rcases hh with rfl | rfl | rfl <;> simp

theorem blurOther_sentTo {env h n} (hh : Ordered h) {s s' : Desk} (hs : blurOther env s n = .ok s') :
    sentTo h s'.2.history = sentTo h s.2.history := by
  unfold blurOther at hs
  split at hs
  · simp only [Except.ok.injEq] at hs; subst hs; rfl
  · split at hs
    · simp only [Except.ok.injEq] at hs; subst hs; rfl
    · split at hs
      · simp at hs
      · simp only [Except.ok.injEq] at hs; subst hs
        simp only [sentTo_emitMouse, history_focus]
        rcases hh with rfl | rfl | rfl <;> simp

theorem focusStep_sentTo {env h n} (hh : Ordered h) {s s' : Desk} (hs : focusStep env s n = .ok s') :
    sentTo h s'.2.history = sentTo h s.2.history := by
  unfold focusStep at hs
  split at hs
  · simp at hs
  · rename_i s1 h1
    rw [← blurOther_sentTo hh h1]
    split at hs
    · simp at hs
    · split at hs
      · simp only [Except.ok.injEq] at hs; subst hs; rfl
      · simp only [Except.ok.injEq] at hs; subst hs
        simp only [sentTo_emitMouse, history_focus]
        rcases hh with rfl | rfl | rfl <;> simp

theorem pressStep_sentTo {env h b} (hh : Ordered h) {s s' : Desk} {n : NodeId} (hs : pressStep env b s n = .ok s') :
    sentTo h s'.2.history = sentTo h s.2.history ++ (if h = "onmousedown" then [n] else []) := by
  unfold pressStep at hs
  split at hs
  · simp at hs
  · simp only at hs
    split at hs
    · simp at hs
    · rename_i s1 h1
      have e1 : sentTo h s1.2.history = sentTo h s.2.history := by
        split at h1
        · rw [focusStep_sentTo hh h1]; rfl
        · simp only [Except.ok.injEq] at h1; subst h1; rfl
      rw [← e1]
      split at hs
      · simp at hs
      · simp only [Except.ok.injEq] at hs; subst hs
        simp only
        split
        · simp only [history_drag, sentTo_emitMouse]
          rcases hh with rfl | rfl | rfl <;> simp
        · simp only [sentTo_emitMouse]
          rcases hh with rfl | rfl | rfl <;> simp

theorem pressMouse_sentTo {env h b} (hh : Ordered h) {s s' : Desk} (hs : pressMouse env b s = .ok s') :
    sentTo h s'.2.history = sentTo h s.2.history ++ (if h = "onmousedown" then s.2.under.reverse else []) := by
  unfold pressMouse at hs
  split at hs
  · simp at hs
  · rename_i s1 h1
    obtain ⟨e1, e2⟩ := blurOutside_sentTo hh h1
    have a2 := eachNode_adds (h := h) (g := fun n => if h = "onmousedown" then [n] else []) (fun s n s' hx => pressStep_sentTo hh hx) _ hs
    rw [a2, e1, e2]
    by_cases hm : h = "onmousedown" <;> simp [hm]

theorem releaseStep_sentTo {env h b} (hh : Ordered h) {s s' : Desk} {n : NodeId} (hs : releaseStep env b s n = .ok s') :
    sentTo h s'.2.history = sentTo h s.2.history ++ (if h = "onmouseup" then [n] else []) := by
  unfold releaseStep at hs
  split at hs
  · simp at hs
  · simp only at hs
    split at hs
    · split at hs
      · split at hs
        · simp at hs
        · simp only [Except.ok.injEq] at hs; subst hs
          simp only [sentTo_emitMouse, history_drag]
          rcases hh with rfl | rfl | rfl <;> simp
      · simp only [Except.ok.injEq] at hs; subst hs
        simp only [sentTo_emitMouse]
        rcases hh with rfl | rfl | rfl <;> simp
    · simp only [Except.ok.injEq] at hs; subst hs
      simp only
      split <;> split <;> simp only [sentTo_emitMouse] <;> rcases hh with rfl | rfl | rfl <;> simp

theorem releaseMouse_sentTo {env h b} (hh : Ordered h) {s s' : Desk} (hs : releaseMouse env b s = .ok s') :
    sentTo h s'.2.history = sentTo h s.2.history ++ (if h = "onmouseup" then s.2.under.reverse else []) := by
  unfold releaseMouse at hs
  split at hs
  · simp at hs
  · rename_i s1 h1
    have a1 := eachNode_adds (h := h) (g := fun n => if h = "onmouseup" then [n] else []) (fun s n s' hx => releaseStep_sentTo hh hx) _ h1
    have a2 := eachNode_adds (h := h) (g := fun _ => []) (fun s n s' hx => by
      unfold calmStep at hx
      split at hx
      · simp at hx
      · simp only [Except.ok.injEq] at hx; subst hx; simp) _ hs
    rw [a2, history_inAction, a1]
    by_cases hm : h = "onmouseup" <;> simp [hm]

theorem keyboard_sentTo {env h k ev} (hh : Ordered h) (hk : k ∈ ["onkeydown", "onkeyup", "oninput"]) {s s' : Desk}
    (hs : keyboard env k ev s = .ok s') : sentTo h s'.2.history = sentTo h s.2.history := by
  unfold keyboard at hs
  split at hs
  · simp only [Except.ok.injEq] at hs; subst hs; rfl
  · split at hs
    · simp at hs
    · simp only [Except.ok.injEq] at hs; subst hs
      simp only [sentTo_emit]
      simp only [List.mem_cons, List.not_mem_nil, or_false] at hk
      rcases hk with rfl | rfl | rfl <;> rcases hh with rfl | rfl | rfl <;> simp

/-- Alternation from the automaton. -/
theorem crossings_alternate (n : NodeId) (l : List Tick) (b b' : Bool) (h : accept (crossRule n) b l = some b') :
    Alternates (!b) (crossings n l) ∧ b' = (crossings n l).getLast?.getD b := by
  induction l generalizing b with
  | nil => simp only [accept, Option.some.injEq] at h; subst h; simp [crossings, Alternates]
  | cons x l ih =>
    simp only [accept] at h
    cases x with
    | input e u =>
      simp only [crossRule] at h
      have := ih b h
      simpa [crossings] using this
    | sent m k =>
      by_cases h1 : m = n ∧ k = "onmouseenter"
      · obtain ⟨rfl, rfl⟩ := h1
        cases b with
        | true => simp [crossRule] at h
        | false =>
          simp [crossRule] at h
          obtain ⟨a1, a2⟩ := ih true h
          have : crossings m (.sent m "onmouseenter" :: l) = true :: crossings m l := by simp [crossings]
          rw [this]
          exact ⟨⟨rfl, a1⟩, by rw [a2, List.getLast?_cons]; simp⟩
      · by_cases h2 : m = n ∧ k = "onmouseleave"
        · obtain ⟨rfl, rfl⟩ := h2
          cases b with
          | false => simp [crossRule] at h
          | true =>
            simp [crossRule] at h
            obtain ⟨a1, a2⟩ := ih false h
            have : crossings m (.sent m "onmouseleave" :: l) = false :: crossings m l := by simp [crossings]
            rw [this]
            exact ⟨⟨rfl, a1⟩, by rw [a2, List.getLast?_cons]; simp⟩
        · simp only [crossRule, h1, h2, if_false] at h
          have : crossings n (.sent m k :: l) = crossings n l := by
            unfold crossings
            rw [List.filterMap_cons]
            by_cases hm : m = n
            · have : k ≠ "onmouseenter" := fun hk => h1 ⟨hm, hk⟩
              have h2' : k ≠ "onmouseleave" := fun hk => h2 ⟨hm, hk⟩
              simp [hm, this, h2']
            · simp [hm]
          rw [this]; exact ih b h

end Verif
