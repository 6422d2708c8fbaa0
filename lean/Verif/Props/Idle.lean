import Verif.View.Idle
/-!
# C85: a program left alone stays as it is
-/
namespace Verif

variable {p : Platform}

/-- **C85 (part).** A program without animations and transitions that is updated with nothing new, however often, stays as it
is after the last update with something new, and says the same each time: whether it takes the input, what the pointer
looks like, and nothing else, unless an element under the pointer listens to its moves (it is told so every time).
Needed: the last update has not changed what the pseudo classes the stylesheet asks for hold of; see
`C85_flicker_counterexample`. Missing: lists of values for properties that take one value (C84). -/
theorem C85_idle_partial {fuel fuel' : Nat} {document : Html} {css : Css} {a a0 a1 : App} {outs : List Output} {out : Output} (ho : openApp p fuel document css = .ok a)
    (hc : css.NeverMoves) (hl : ∀ s ∈ css.styles, ∀ x ∈ s.declaration, x.Singular) (hp : p.Reads) {fs : List Frame} {f : Frame} (hd : PlainStyles p document a (fs.map (·.value) ++ [f.value])) (hf : ∀ f ∈ fs, f.order.Fair)
    (hr : a.run p fuel' fs = .ok (a0, outs)) (hff : f.order.Fair) (hv : WfJson f.value) (hu : a0.update p fuel' f.anew.order f.input f.value = .ok (a1, out))
    (hs : css.SeesSame a0.screen.view.stage.tree a1.screen.view.stage.tree) :
    ∃ out', out'.captured = out.captured ∧ out'.pointer = out.pointer ∧
      ((∀ n e, a1.screen.view.stage.tree.ctx n = some e → e.state.hover = true → e.listeners "onmousemove" = none ∧ e.listeners "ondragover" = none) → out'.messages = []) ∧
      ∀ gs : List Frame, (∀ g ∈ gs, f.Idle g) → ∃ a2, a1.run p fuel' (gs.map Frame.anew) = .ok (a2, List.replicate gs.length out') ∧ SameApp a1 a2 := by
  have hun := (Unmoved.opened ho hc (hd.styles ho)).run fs hf hr
  obtain ⟨σ, hop⟩ := openApp_opened ho
  have hk : a0.kept = a.kept := (run_keeps fs hr).1
  obtain ⟨m, L, h1, h2⟩ := hun.update_idle (css := css) (f := f.anew) (fun n r hr => by rw [hk] at hr; exact openApp_rules hop n r hr) hl hp ⟨hff.1, hff.2⟩ rfl hv hu hs
  refine ⟨⟨out.captured, out.pointer, m⟩, rfl, rfl, h2, fun gs hgs => ?_⟩
  suffices ∀ b, SameApp a1 b → ∃ a2, b.run p fuel' (gs.map Frame.anew) = .ok (a2, List.replicate gs.length ⟨out.captured, out.pointer, m⟩) ∧ SameApp a1 a2 from this a1 rfl
  induction gs with
  | nil => intro b hb; exact ⟨b, rfl, hb⟩
  | cons g gs ih =>
    intro b hb
    have hg := hgs g (by simp)
    have := h1 g.anew ⟨hg.value, hg.viewport, hg.events, ⟨hg.fair.1, hg.fair.2⟩⟩ rfl
    obtain ⟨b', k1, k2⟩ := update_unread hb hg.events this
    obtain ⟨a2, k3, k4⟩ := ih (fun g hg => hgs g (by simp [hg])) b' k2
    refine ⟨a2, ?_, k4⟩
    rw [List.map_cons, App.run, show b.update p fuel' g.anew.order g.anew.input g.anew.value = _ from k1]
    simp only
    rw [k3]
    rfl

/-- **C85 (part).** A program without animations, transitions and pseudo classes is settled after any one update. Missing: as
before. -/
theorem C85_settled_partial {fuel fuel' : Nat} {document : Html} {css : Css} {a a0 a1 : App} {outs : List Output} {out : Output} (ho : openApp p fuel document css = .ok a)
    (hc : css.NeverMoves) (hl : ∀ s ∈ css.styles, ∀ x ∈ s.declaration, x.Singular) (hn : ∀ name, ¬ css.Mentions name) (hp : p.Reads) {fs : List Frame} {f : Frame}
    (hd : PlainStyles p document a (fs.map (·.value) ++ [f.value])) (hf : ∀ f ∈ fs, f.order.Fair) (hr : a.run p fuel' fs = .ok (a0, outs)) (hff : f.order.Fair) (hv : WfJson f.value)
    (hu : a0.update p fuel' f.anew.order f.input f.value = .ok (a1, out)) (gs : List Frame) (hg : ∀ g ∈ gs, f.Idle g) :
    ∃ a2 outs', a1.run p fuel' (gs.map Frame.anew) = .ok (a2, outs') ∧ SameApp a1 a2 := by
  obtain ⟨out', -, -, -, h⟩ := C85_idle_partial ho hc hl hp hd hf hr hff hv hu (fun n e e' _ _ name h => absurd h (hn name))
  obtain ⟨a2, h1, h2⟩ := h gs hg
  exact ⟨a2, _, h1, h2⟩

theorem Cached.append {fuel : Nat} {a a1 a' : App} {m m1 m' : Memory} {fs fs' : List Frame} {outs outs' : List Output} (h : Cached p fuel a m fs a1 m1 outs)
    (h' : Cached p fuel a1 m1 fs' a' m' outs') : Cached p fuel a m (fs ++ fs') a' m' (outs ++ outs') := by
  induction h with
  | nil => exact h'
  | cons k1 k2 _ ih => exact .cons k1 k2 (ih h')

theorem SteadyFonts.of_append {fuel : Nat} {a : App} {fs fs' : List Frame} (h : SteadyFonts p fuel a (fs ++ fs')) : SteadyFonts p fuel a fs := by
  obtain ⟨face, h⟩ := h
  exact ⟨face, fun before f after he => h before f (after ++ fs') (by rw [he]; simp)⟩

theorem run_split {fuel : Nat} {fs gs : List Frame} {a a1 a' : App} {outs outs' : List Output} (h : a.run p fuel fs = .ok (a1, outs)) (h' : a.run p fuel (fs ++ gs) = .ok (a', outs')) :
    ∃ rest, a1.run p fuel gs = .ok (a', rest) ∧ outs' = outs ++ rest := by
  induction fs generalizing a outs outs' with
  | nil =>
    simp only [App.run, Except.ok.injEq, Prod.mk.injEq] at h
    obtain ⟨rfl, rfl⟩ := h
    exact ⟨outs', h', rfl⟩
  | cons f fs ih =>
    obtain ⟨a2, out, rest, h1, h2, rfl⟩ := run_cons h
    obtain ⟨a3, out3, rest3, h3, h4, rfl⟩ := run_cons (fs := fs ++ gs) h'
    rw [h1] at h3
    injection h3 with h3
    injection h3 with h3 h5
    subst h3; subst h5
    obtain ⟨r, h6, rfl⟩ := ih h2 h4
    exact ⟨r, h6, rfl⟩

/-- **C85 (part).** The same for the layout engine with the results it keeps (C82), if every text has the same font whenever it is
displayed. -/
theorem C85_engine_partial {fuel fuel' : Nat} {document : Html} {css : Css} {a a0 a1 a2 : App} {m0 m1 m2 : Memory} {outs outs' : List Output} {out : Output}
    (ho : openApp p fuel document css = .ok a) (hc : css.NeverMoves) (hl : ∀ s ∈ css.styles, ∀ x ∈ s.declaration, x.Singular) (hp : p.Reads)
    {fs gs : List Frame} {f : Frame} (hd : PlainStyles p document a (fs.map (·.value) ++ [f.value])) (hf : ∀ f ∈ fs, f.order.Fair) (hff : f.order.Fair) (hv : WfJson f.value) (hg : ∀ g ∈ gs, f.Idle g) (hr : Cached p fuel' a Memory.empty fs a0 m0 outs)
    (hu : Cached p fuel' a0 m0 [f] a1 m1 [out]) (hi : Cached p fuel' a1 m1 gs a2 m2 outs') (hfonts : SteadyFonts p fuel' a (fs ++ ([f] ++ gs)))
    (hs : css.SeesSame a0.screen.view.stage.tree a1.screen.view.stage.tree) :
    SameApp a1 a2 ∧ ∃ out', out'.captured = out.captured ∧ out'.pointer = out.pointer ∧ outs' = List.replicate gs.length out' := by
  have h1 := C82_as_if_computed_partial ho hr hfonts.of_append
  have h2 := C82_as_if_computed_partial ho (hr.append hu) (SteadyFonts.of_append (fs' := gs) (by rw [List.append_assoc]; exact hfonts))
  have h3 := C82_as_if_computed_partial ho (hr.append (hu.append hi)) hfonts
  rw [List.map_append] at h2 h3
  obtain ⟨r1, h4, h5⟩ := run_split h1 h2
  obtain ⟨r2, h6, h7⟩ := run_split h1 h3
  rw [List.map_append] at h6
  obtain ⟨r3, h8, h9⟩ := run_split h4 h6
  have e1 := List.append_cancel_left h5
  have e2 := List.append_cancel_left h7
  subst e1
  subst e2
  have e3 := List.append_cancel_left h9
  subst e3
  have hup : a0.update p fuel' f.anew.order f.input f.value = .ok (a1, out) := by
    obtain ⟨b, o, rest, k1, k2, k3⟩ := run_cons (fs := []) h4
    simp only [App.run, Except.ok.injEq, Prod.mk.injEq] at k2
    obtain ⟨rfl, rfl⟩ := k2
    injection k3 with k3
    subst k3
    exact k1
  obtain ⟨out', k1, k2, -, k3⟩ := C85_idle_partial ho hc hl hp (fs := fs.map Frame.anew) (by rw [List.map_map]; exact hd) (fun g hg => by
    obtain ⟨g', hg', rfl⟩ := List.mem_map.1 hg; exact ⟨(hf g' hg').1, (hf g' hg').2⟩) h1 hff hv hup hs
  obtain ⟨b, k4, k5⟩ := k3 gs hg
  rw [h8] at k4
  injection k4 with k4
  injection k4 with k4 k6
  subst k4
  exact ⟨k5, out', k1, k2, k6⟩

end Verif
