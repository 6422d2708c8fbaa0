import Verif.View.Steady
/-!
# Updates do not return error values (lemmas for C74)
-/
namespace Verif

/-- Not an error value. -/
def Sane {α : Type} (r : Except Trouble α) : Prop := r ≠ .error .error

theorem sane_ok {α : Type} (a : α) : Sane (.ok a : Except Trouble α) := by intro h; cases h

theorem Sane.cast {α β : Type} {t : Trouble} (h : Sane (.error t : Except Trouble α)) : Sane (.error t : Except Trouble β) := by
  intro h'; injection h' with h'; subst h'; exact h rfl

theorem wrapTime_sane (d : Rat) (fuel : Nat) : ∀ t, Sane (wrapTime d fuel t) := by
  induction fuel with
  | zero => intro t h; cases h
  | succ fuel ih =>
    intro t
    unfold wrapTime
    split
    · exact ih _
    · exact sane_ok _

theorem animator_update_sane (fuel : Nat) (a : Animator) (time : Rat) : Sane (a.update fuel time) := by
  unfold Animator.update
  generalize (if a.running ∧ a.duration > 0 then { a with time := a.time + time } else a) = b
  simp only
  split
  · exact sane_ok _
  · split
    · rename_i e he
      exact Sane.cast (he ▸ wrapTime_sane _ _ _)
    · exact sane_ok _

theorem animateAt_sane (a b : ComputedValue) (p : Progress) : Sane (animateAt a b p) := by
  cases p with
  | value t => exact sane_ok _
  | nan =>
    show Sane (animateNan a b)
    unfold animateNan
    split <;> first | exact sane_ok _ | (intro h; cases h) | skip
    split <;> first | exact sane_ok _ | (intro h; cases h)

theorem trackValue_sane (frames : List (Nat × ComputedValue)) (t : Nat) : Sane (trackValue frames t) := by
  unfold trackValue
  simp only
  split <;> split <;> first | exact sane_ok _ | (intro h; cases h)

theorem playTracks_sane (t : Nat) (l : List Track) (style : ComputedStyle) : Sane (playTracks t l style) := by
  induction l generalizing style with
  | nil => exact sane_ok _
  | cons x l ih =>
    unfold playTracks
    split
    · rename_i e he
      exact Sane.cast (he ▸ trackValue_sane _ _)
    · exact ih _

theorem animator_play_sane (fuel : Nat) (a : Animator) (time : Rat) (tracks : List Track) (style : ComputedStyle) : Sane (a.play fuel time tracks style) := by
  unfold Animator.play
  split
  · rename_i e he
    exact Sane.cast (he ▸ animator_update_sane _ _ _)
  · exact sane_ok _
  · split
    · rename_i e he
      exact Sane.cast (he ▸ playTracks_sane _ _ _)
    · exact sane_ok _

theorem transition_loop_sane (key : PropertyKey) (p : Progress) (fuel : Nat) : ∀ index t style, Sane (Transition.loop key p fuel index t style) := by
  induction fuel with
  | zero => intro i t s h; cases h
  | succ fuel ih =>
    intro i t s
    unfold Transition.loop
    split
    · exact sane_ok _
    · split
      · exact ih _ _ _
      · split
        · rename_i e he
          exact Sane.cast (he ▸ animateAt_sane _ _ _)
        · exact ih _ _ _

theorem transition_play_sane (fuel : Nat) (t : Transition) (time : Rat) (style : ComputedStyle) : Sane (t.play fuel time style) := by
  unfold Transition.play
  split
  · exact sane_ok _
  · split
    · rename_i e he
      exact Sane.cast (he ▸ animator_update_sane _ _ _)
    · exact sane_ok _
    · exact transition_loop_sane _ _ _ _ _ _

theorem playAnimators_sane (env : FrameEnv) (n : NodeId) (vars : Variables) (l : List Animator) : ∀ i style, Sane (playAnimators env n vars i l style) := by
  induction l with
  | nil => intro i s; exact sane_ok _
  | cons a l ih =>
    intro i s
    unfold playAnimators
    split
    · split
      · rename_i e he
        exact Sane.cast (he ▸ ih _ _)
      · exact sane_ok _
    · split
      · intro h; cases h
      · split
        · rename_i e he
          exact Sane.cast (he ▸ animator_play_sane _ _ _ _ _)
        · split
          · rename_i e he
            exact Sane.cast (he ▸ ih _ _)
          · exact sane_ok _

theorem playTransitions_sane (fuel : Nat) (time : Rat) (l : List Transition) : ∀ style, Sane (playTransitions fuel time l style) := by
  induction l with
  | nil => intro s; exact sane_ok _
  | cons t l ih =>
    intro s
    unfold playTransitions
    split
    · rename_i e he
      exact Sane.cast (he ▸ transition_play_sane _ _ _ _)
    · split
      · rename_i e he
        exact Sane.cast (he ▸ ih _)
      · exact sane_ok _

theorem styleElement_sane (env : FrameEnv) (t : Tree) (n : NodeId) (parent : Element) (sizes : Sizes) (vars : Variables) (l : LayoutStyle) (e : Element) :
    Sane (styleElement env t n parent sizes vars l e) := by
  unfold styleElement
  simp only
  split
  · intro h; cases h
  · split
    · intro h; cases h
    · split
      · rename_i e he
        exact Sane.cast (he ▸ playAnimators_sane _ _ _ _ _ _)
      · split
        · rename_i e he
          exact Sane.cast (he ▸ playTransitions_sane _ _ _ _)
        · exact sane_ok _

theorem forEach_sane {σ : Type} {P : σ → Prop} {f : σ → NodeId → Except Trouble σ} (cs : List NodeId) (hf : ∀ s, ∀ c ∈ cs, P s → Sane (f s c) ∧ ∀ s', f s c = .ok s' → P s')
    {s : σ} (hp : P s) : Sane (forEach f cs s) := by
  induction cs generalizing s with
  | nil => exact sane_ok _
  | cons c cs ih =>
    obtain ⟨h1, h2⟩ := hf s c List.mem_cons_self hp
    unfold forEach
    split
    · rename_i e he
      exact Sane.cast (he ▸ h1)
    · rename_i s' he
      exact ih (fun s c hc => hf s c (List.mem_cons_of_mem _ hc)) (h2 s' he)

/-- Styling a part of a well-formed tree does not return an error value. -/
theorem styleTree_sane {env : FrameEnv} {t : Tree} {root body : NodeId} (hw : t.Wf root body) (depth : Nat) :
    ∀ {n p : NodeId} {sizes : Sizes} {vars : Variables} {s : Styled}, Restyled t s.tree → t.par n = some p → (t.ctx p).isSome → (t.ctx n).isSome →
      Sane (styleTree env depth n sizes vars s) := by
  induction depth with
  | zero => intro n p sizes vars s _ _ _ _ h; cases h
  | succ depth ih =>
    intro n p sizes vars s hr hp hpe hne
    obtain ⟨pe, hpe⟩ := Option.isSome_iff_exists.1 hpe
    obtain ⟨e, he⟩ := Option.isSome_iff_exists.1 hne
    obtain ⟨pe', hpe', -⟩ := hr.there p pe hpe
    obtain ⟨e', he', -⟩ := hr.there n e he
    rw [styleTree, hr.par, hp]
    simp only [Option.bind_some, hpe', he']
    split
    · exact sane_ok _
    · split
      · rename_i x hx
        exact Sane.cast (hx ▸ styleElement_sane _ _ _ _ _ _ _ _)
      · rename_i l e2 vars' hs
        obtain ⟨f1, f2, f3⟩ := styleElement_form hs
        split
        · exact sane_ok _
        · refine forEach_sane (P := fun s : Styled => Restyled t s.tree) _ ?_ (hr.trans (s.put_restyled he' f1 f2 l))
          intro s2 c hc hr2
          rw [hr.kids] at hc
          refine ⟨ih hr2 ((hw.link n c).1 hc) (by rw [he]; rfl) (hw.slotsYounger n c (hw.sub n c hc)).2.2, fun s3 h3 => ?_⟩
          exact hr2.trans (styleTree_spec depth (linked_of_wf (SameForm.wf (Tree.Related.mono (fun _ _ hx => hx.1) hr2) hw)) h3).1.restyled

theorem placeTree_sane {boxes : NodeId → Layout} {t : Tree} {root body : NodeId} (hw : t.Wf root body) (depth : Nat) :
    ∀ {n : NodeId} {location : Rat × Rat} {opacity : Rat} {clipping : Option Layout} {s : Tree}, Restyled t s → (t.ctx n).isSome →
      Sane (placeTree boxes depth n location opacity clipping s) := by
  induction depth with
  | zero => intro n location opacity clipping s _ _ h; cases h
  | succ depth ih =>
    intro n location opacity clipping s hr hne
    obtain ⟨e, he⟩ := Option.isSome_iff_exists.1 hne
    obtain ⟨e', he', -⟩ := hr.there n e he
    rw [placeTree]
    simp only [he']
    refine forEach_sane (P := fun s => Restyled t s) _ ?_ (hr.trans (restyled_setCtx he' (placed_form _ _ _ _).1 (placed_form _ _ _ _).2))
    intro s2 c hc hr2
    rw [hr.kids] at hc
    exact ⟨ih hr2 (hw.slotsYounger n c (hw.sub n c hc)).2.2, fun s3 h3 => hr2.trans (placeTree_restyled _ h3)⟩

/-- An update of a living view does not return an error value. -/
theorem Living.no_error {p : Platform} {fuel fuel' : Nat} {document : Html} {a : App} (h : Living p fuel document a) (order : FrameOrder) (input : Input) (value : Json) :
    a.update p fuel' order input value ≠ .error .error := by
  unfold App.update
  rcases h.bindings value with ⟨v, hv⟩ | hv
  · rw [hv]
    simp only
    obtain ⟨wf, -, hb, hbe⟩ := h.bound hv
    split
    · rename_i t ht
      have := styleTree_sane (env := a.env p fuel' order input.time) wf fuel' (sizes := ⟨16, 16, ⟨0, 0, 0, 0⟩, input.viewport.1, input.viewport.2⟩) (vars := fun _ => none)
        (s := ⟨v.stage.tree, upd a.layouts v.root (resizeRoot input.viewport (a.layouts v.root))⟩) (Restyled.refl _) hb wf.rootExists hbe
      cases t with
      | error => exact absurd ht this
      | _ => intro hx; cases hx
    · rename_i styled hs
      have hst : Restyled v.stage.tree styled.tree := styleView_restyled (s := ⟨v.stage.tree, _⟩) wf hs
      split
      · rename_i t ht
        have := placeTree_sane (boxes := p.solve (styled.recall order.recall)) wf fuel' (location := (0, 0)) (opacity := 1) (clipping := none) hst hbe
        cases t with
        | error => exact absurd ht this
        | _ => intro hx; cases hx
      · rename_i tree ht
        obtain ⟨t', u, out, h1, -, -⟩ := session_update (session_ok h.session) hv (hst.trans (placeTree_restyled _ ht)) input.events
        rw [h1]
        intro hx; cases hx
  · rw [hv]; intro hx; cases hx

end Verif
