import Verif.View.Swaps
import Verif.Props.Reproducible
import Verif.Props.Copies
/-!
# C105: rules in another order
-/
namespace Verif
open Sheet

variable {p : Platform}

theorem App.Swaps.update {fuel fuel' : Nat} {document : Html} {a a' : App} {f : Frame} {values : List Json} (hm : App.Swaps a a')
    (hu : Unlisted p fuel document a (f.value :: values)) (hf : f.order.Fair) :
    ExRel (fun r r' => App.Swaps r.1 r'.1 ∧ r'.2 = r.2) (a.update p fuel' f.order f.input f.value) (a'.update p fuel' f.order f.input f.value) := by
  obtain ⟨sc, css, kept, layouts⟩ := a
  obtain ⟨sc', css', kept', layouts'⟩ := a'
  obtain ⟨h1, h2, h3, h4⟩ := hm
  simp only at h1 h2 h3 h4
  subst h1 h2
  unfold App.update
  simp only
  cases hv : sc'.view.update p.inline f.value with
  | error f => exact .error _
  | ok v =>
    simp only
    have key := fun n sizes vars s hi => (styleTree_swapped (env := App.env p fuel' f.order ⟨sc', css, kept, layouts'⟩ f.input.time) hf (rules' := kept')
      h4 hu.rules hu.keyframes fuel' n sizes vars s hi).1
    have henv : App.env p fuel' f.order ⟨sc', css', kept', layouts'⟩ f.input.time =
        { App.env p fuel' f.order ⟨sc', css, kept, layouts'⟩ f.input.time with rules := kept' } := by
      unfold App.env; simp only [h3]
    unfold styleView
    rw [henv, ← key _ _ _ _ (hu.fed.bound hv)]
    split
    · exact .error _
    · split
      · exact .error _
      · split
        · exact .error _
        · exact .ok ⟨⟨rfl, rfl, h3, h4⟩, rfl⟩

theorem App.Swaps.run {fuel fuel' : Nat} {document : Html} (fs : List Frame) (hf : ∀ f ∈ fs, f.order.Fair) : ∀ {a a' : App}, App.Swaps a a' →
    Unlisted p fuel document a (fs.map (·.value)) → ExRel (fun r r' => App.Swaps r.1 r'.1 ∧ r'.2 = r.2) (a.run p fuel' fs) (a'.run p fuel' fs) := by
  induction fs with
  | nil => intro a a' hm _; exact .ok ⟨hm, rfl⟩
  | cons f fs ih =>
    intro a a' hm hl
    simp only [App.run]
    have hu := hm.update (fuel' := fuel') hl (hf f List.mem_cons_self)
    cases ha : a.update p fuel' f.order f.input f.value with
    | error e =>
      rw [ha] at hu
      revert hu
      generalize a'.update p fuel' f.order f.input f.value = B
      intro hu
      cases hu
      exact .error _
    | ok r =>
      obtain ⟨r1, o1⟩ := r
      have hl' := hl.updated ha
      rw [ha] at hu
      revert hu
      generalize a'.update p fuel' f.order f.input f.value = B
      intro hu
      cases hu with
      | ok hu =>
        rename_i r'
        obtain ⟨r2, o2⟩ := r'
        obtain ⟨h1, h2⟩ := hu
        simp only at h1 h2 ⊢
        subst h2
        have h3 := ih (fun f hf' => hf f (List.mem_cons_of_mem _ hf')) h1 hl'
        revert h3
        generalize r1.run p fuel' fs = A
        generalize r2.run p fuel' fs = B
        intro h3
        cases h3 with
        | error e => exact .error _
        | ok h3 =>
          rename_i x y
          obtain ⟨x1, x2⟩ := x
          obtain ⟨y1, y2⟩ := y
          obtain ⟨h4, h5⟩ := h3
          simp only at h4 h5 ⊢
          subst h5
          exact .ok ⟨h4, rfl⟩

/-- **C105.** Rules can be exchanged with their neighbours, any number of times, as long as rules that are exchanged have nothing to do with
each other and no rule or inline style lists values for a property that takes one: opening fails alike or succeeds, and every series of updates fails alike
or has the same outputs and ends with the same view. -/
theorem C105_swapped_rules {fuel fuel' : Nat} {document : Html} {css css' : Css} (hm : Swapped Style.Apart css.styles css'.styles)
    (ha : css'.animations = css.animations) (hc : css.Unlisted) {fs : List Frame} (hf : ∀ f ∈ fs, f.order.Fair)
    (hd : ∀ a, openApp p fuel document css = .ok a → UnlistedStyles p document a (fs.map (·.value))) :
    played p fuel fuel' document css' fs = played p fuel fuel' document css fs := by
  have h := openApp_swapped (p := p) (fuel := fuel) (document := document) hm ha
  unfold played
  cases hb : openApp p fuel document css with
  | error e =>
    rw [hb] at h
    revert h
    generalize openApp p fuel document css' = B
    intro h
    cases h
    rfl
  | ok b =>
    have hu := Unlisted.opened hb hc (hd b hb)
    rw [hb] at h
    revert h
    generalize openApp p fuel document css' = B
    intro h
    cases h with
    | ok h =>
      rename_i b'
      have hr := App.Swaps.run (p := p) (fuel' := fuel') fs hf h hu
      simp only
      revert hr
      generalize b.run p fuel' fs = A
      generalize b'.run p fuel' fs = B
      intro hr
      cases hr with
      | error e => rfl
      | ok hr =>
        rename_i x y
        obtain ⟨x1, x2⟩ := x
        obtain ⟨y1, y2⟩ := y
        obtain ⟨h4, h5⟩ := hr
        simp only at h4 h5 ⊢
        rw [h5, h4.screen, h4.layouts]

end Verif
