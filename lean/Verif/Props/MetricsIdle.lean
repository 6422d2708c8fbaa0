import Verif.Props.Metrics
import Verif.Props.IdleExamples
/-!
# C86: the metrics of a program left alone
-/
namespace Verif

variable {p : Platform}

theorem run_then {fuel : Nat} {fs gs : List Frame} {a a1 a' : App} {outs outs' : List Output} (h : a.run p fuel fs = .ok (a1, outs)) (h' : a1.run p fuel gs = .ok (a', outs')) :
    a.run p fuel (fs ++ gs) = .ok (a', outs ++ outs') := by
  induction fs generalizing a outs with
  | nil =>
    simp only [App.run, Except.ok.injEq, Prod.mk.injEq] at h
    obtain ⟨rfl, rfl⟩ := h
    exact h'
  | cons f fs ih =>
    obtain ⟨a2, out, outs2, h1, h2, rfl⟩ := run_cons h
    rw [List.cons_append, App.run, h1]
    simp only
    rw [ih h2]
    rfl

/-- **C86 (part).** A program left alone changes no layout styles: the counter of them stands still, and the one of updates goes
on. Missing: as in C85. -/
theorem C86_idle_partial {fuel fuel' : Nat} {document : Html} {css : Css} {a a0 a1 a2 : App} {outs outs' : List Output} {out : Output} {m m' : Metrics}
    (ho : openApp p fuel document css = .ok a)
    (hc : css.NeverMoves) (hl : ∀ s ∈ css.styles, ∀ x ∈ s.declaration, x.Singular) (hp : p.Reads) {fs : List Frame} {f : Frame} (hd : PlainStyles p document a (fs.map (·.value) ++ [f.value])) (hf : ∀ f ∈ fs, f.order.Fair)
    (hr : a.run p fuel' fs = .ok (a0, outs)) (hff : f.order.Fair) (hv : WfJson f.value) (hu : a0.update p fuel' f.anew.order f.input f.value = .ok (a1, out))
    (hs : css.SeesSame a0.screen.view.stage.tree a1.screen.view.stage.tree) {gs : List Frame} (hg : ∀ g ∈ gs, f.Idle g)
    (hi : a1.runCounted p fuel' (gs.map Frame.anew) m = .ok ((a2, outs'), m')) :
    m'.layouts = m.layouts ∧ m'.updates = m.updates + gs.length := by
  obtain ⟨o, -, -, -, hidle⟩ := C85_idle_partial ho hc hl hp hd hf hr hff hv hu hs
  have hstart : a.run p fuel' (fs ++ [f.anew]) = .ok (a1, outs ++ [out]) := run_snoc hr hu
  suffices ∀ (pre : List Frame) (b : App) (outs1 : List Output), (∀ g ∈ pre, f.Idle g) → a1.run p fuel' (pre.map Frame.anew) = .ok (b, outs1) →
      ∀ outs' m, b.runCounted p fuel' (gs.map Frame.anew) m = .ok ((a2, outs'), m') → m'.layouts = m.layouts ∧ m'.updates = m.updates + gs.length from
    this [] a1 [] (by simp) rfl outs' m hi
  clear hi
  induction gs with
  | nil =>
    intro pre b outs1 _ _ outs' m h
    simp only [List.map_nil, App.runCounted, Except.ok.injEq, Prod.mk.injEq] at h
    obtain ⟨-, rfl⟩ := h
    exact ⟨rfl, rfl⟩
  | cons g gs ih =>
    intro pre b outs1 hpre hb outs' m h
    rw [List.map_cons, App.runCounted] at h
    cases h1 : b.updateCounted p fuel' g.anew.order g.anew.input g.anew.value m with
    | error e => rw [h1] at h; cases h
    | ok r =>
      obtain ⟨⟨b', o1⟩, m1⟩ := r
      rw [h1] at h
      simp only at h
      cases h2 : b'.runCounted p fuel' (gs.map Frame.anew) m1 with
      | error e => rw [h2] at h; cases h
      | ok r =>
        obtain ⟨⟨b2, o2⟩, m2⟩ := r
        rw [h2] at h
        simp only [Except.ok.injEq, Prod.mk.injEq] at h
        obtain ⟨⟨rfl, rfl⟩, rfl⟩ := h
        have hpre' : ∀ x ∈ pre ++ [g], f.Idle x := by
          intro x hx
          rcases List.mem_append.1 hx with hx | hx
          · exact hpre x hx
          · rw [List.mem_singleton.1 hx]; exact hg g (by simp)
        have hplain : b.update p fuel' g.anew.order g.anew.input g.anew.value = .ok (b', o1) := by
          have := updateCounted_uncounted p fuel' g.anew.order b g.anew.input g.anew.value m
          rw [h1] at this; exact this.symm
        have hb' : a1.run p fuel' ((pre ++ [g]).map Frame.anew) = .ok (b', outs1 ++ [o1]) := by
          rw [List.map_append]; exact run_snoc hb hplain
        obtain ⟨c, q1, q2⟩ := hidle pre hpre
        rw [hb] at q1; injection q1 with q1; injection q1 with q1 _; subst q1
        obtain ⟨c', q3, q4⟩ := hidle (pre ++ [g]) hpre'
        rw [hb'] at q3; injection q3 with q3; injection q3 with q3 _; subst q3
        obtain ⟨k1, k2⟩ := ih (fun x hx => hg x (by simp [hx])) _ _ _ hpre' hb' _ _ h2
        have hcu : CountedUpdate p document css b b' g.anew o1 m m1 := ⟨⟨fuel, fuel', a, _, _, ho, run_then hstart hb⟩, fuel', h1⟩
        have e1 := C86_layouts hcu
        have e2 := C86_updates hcu
        have hlay : b'.layouts = b.layouts := by rw [show b'.layouts = a1.layouts by rw [q4], show b.layouts = a1.layouts by rw [q2]]
        rw [hlay] at e1
        simp only [ne_eq, not_true_eq_false, and_false, decide_false, List.filter_false, List.length_nil, Nat.add_zero] at e1
        refine ⟨k1.trans e1, ?_⟩
        rw [k2, e2, List.length_cons]; omega

end Verif
