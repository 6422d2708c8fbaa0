import Verif.Props.Cache
import Verif.Props.ClockExamples
/-!
# C82: a font that changes
-/
namespace Verif

/-- An engine that makes texts as wide and high as their font, and all else 100 x 100. -/
def fontPlatform : Platform := ⟨true, id, fun _ => none, fun _ => none,
  fun s n => match s.tree.ctx n with
    | some e => if e.text.isSome then { width := e.font.size, height := e.font.size } else { width := 100, height := 100 }
    | none => {}⟩

/-- `p:hover{font-size:40px}`. -/
def hoverCss : Css := ⟨[⟨[[.type "p", .pseudoClass "hover"]], [.property .FontSize [[.explicit (.dimension ⟨40, .px⟩)]]]⟩], fun _ => none⟩

def hoverFrame : Frame := ⟨orderId, ⟨1, (800, 600), [.mouseMove (5, 5)]⟩, .obj []⟩
def awayFrame : Frame := ⟨orderId, ⟨1, (800, 600), [.mouseMove (500, 500)]⟩, .obj []⟩
def stillFrame : Frame := ⟨orderId, ⟨1, (800, 600), []⟩, .obj []⟩

/-- The whole of the program, kept. -/
def App.recallAll (a : App) (n : NodeId) : Option Measured := if n = 1 ∨ n = 2 ∨ n = 3 then some (a.content n) else none

/-- The font and the size of the text. -/
def App.third (a : App) : Option (FontFace × Rat × Rat) := (a.screen.view.stage.tree.ctx 3).map fun e => (e.font, e.size)

/-- Nothing else is a text. -/
def App.onlyThird (a : App) : Bool := (a.screen.view.stage.tree.ctx 1).all (·.text.isNone) && (a.screen.view.stage.tree.ctx 2).all (·.text.isNone)

/-- What is computed: after the update `f` and another one in which the engine computes everything again, and one in which it
recalls everything. -/
def twoCheck (f : Frame) (one all anew : Option (FontFace × Rat × Rat)) : Bool :=
  match openApp fontPlatform 100 fadeDoc hoverCss with
  | .error _ => false
  | .ok a => match a.evalRun fontPlatform 100 [f] with
    | some (.ok (a1, _)) => match a1.evalRun fontPlatform 100 [stillFrame] with
      | some (.ok (a2, _)) => match a1.evalRun fontPlatform 100 [stillFrame.recalling a1.recallAll] with
        | some (.ok (a3, _)) =>
          decide (a1.screen.view.body = 1 ∧ a1.screen.view.stage.tree.kids 1 = [2] ∧ a1.screen.view.stage.tree.kids 2 = [3] ∧ a1.screen.view.stage.tree.kids 3 = []) &&
          decide (a2.screen.view.body = 1 ∧ a2.screen.view.stage.tree.kids 1 = [2] ∧ a2.screen.view.stage.tree.kids 2 = [3] ∧ a2.screen.view.stage.tree.kids 3 = []) &&
          decide (a3.screen.view.body = 1 ∧ a3.screen.view.stage.tree.kids 1 = [2] ∧ a3.screen.view.stage.tree.kids 2 = [3] ∧ a3.screen.view.stage.tree.kids 3 = []) &&
          decide (a2.layouts 1 = a1.layouts 1 ∧ a2.layouts 2 = a1.layouts 2 ∧ a2.layouts 3 = a1.layouts 3) &&
          decide (a1.third = one ∧ a2.third = anew ∧ a3.third = all) && (a1.onlyThird && a3.onlyThird) &&
          (match renderView (docEnv fontPlatform.translate fontPlatform.inline fadeDoc) 100 (docBody fadeDoc) with
            | .error _ => false
            | .ok (_, _, σ) => σ.regs.isEmpty)
        | _ => false
      | _ => false
    | _ => false


theorem displayed_three {t : Tree} (h1 : t.kids 1 = [2]) (h2 : t.kids 2 = [3]) (h3 : t.kids 3 = []) (n : NodeId) : Displayed t 1 n ↔ n = 1 ∨ n = 2 ∨ n = 3 := by
  constructor
  · intro h
    induction h with
    | root => exact .inl rfl
    | child _ hc ih =>
      rcases ih with rfl | rfl | rfl
      · rw [h1] at hc; simp only [List.mem_singleton] at hc; exact .inr (.inl hc)
      · rw [h2] at hc; simp only [List.mem_singleton] at hc; exact .inr (.inr hc)
      · rw [h3] at hc; cases hc
  · rintro (rfl | rfl | rfl)
    · exact .root
    · exact .child .root (by rw [h1]; simp)
    · exact .child (p := 2) (.child .root (by rw [h1]; simp)) (by rw [h2]; simp)

/-- Without anything kept nothing is recalled. -/
theorem Living.recalls_nothing {p : Platform} {fuel fuel' : Nat} {document : Html} {a : App} (h : Living p fuel document a) {f : Frame} {m' : Memory}
    (hr : Recalls p fuel' a Memory.empty f m') : f.order.recall = fun _ => none := by
  obtain ⟨v, styled, hv, hs, hl⟩ := hr
  have := h.memory_bound (F := fun _ _ => False) hv (Current.empty _ _ _)
  funext n
  cases hx : f.order.recall n with
  | none => rfl
  | some c =>
    obtain ⟨-, a, hm⟩ := hl.recalls n c hx
    exact (this.font _ _ _ hm.1).elim

/-- With everything kept and nothing marked everything is recalled. -/
theorem Living.recalls_all {p : Platform} {fuel fuel' : Nat} {document : Html} {a1 a2 : App} (h : Living p fuel document a1) {f : Frame} {r : NodeId → Option Measured} {o : Output} {m1 m2 : Memory}
    (hreact : ∀ vm rs, a1.screen.view.vm.bind f.value = some (vm, rs) → rs = [])
    (hc : Current (fun n c => c = a1.content n) a1.screen.view.body ⟨a1.screen.view.stage.tree, a1.layouts⟩ m1) (hb : a2.screen.view.body = 1) (hm1 : ∃ n c, m1 1 n c)
    (hu : a1.update p fuel' f.order f.input f.value = .ok (a2, o)) (hd : ∀ n, Displayed a2.screen.view.stage.tree 1 n ↔ n = 1 ∨ n = 2 ∨ n = 3)
    (hl : ∀ n, (n = 1 ∨ n = 2 ∨ n = 3) → a2.layouts n = a1.layouts n) (hr : Recalls p fuel' a1 m1 (f.recalling r) m2) : r = a1.recallAll := by
  obtain ⟨v, styled, hv, hs, hlay⟩ := hr
  have hs' : styleView (a1.env p fuel' f.order f.input.time) fuel' v.body f.input.viewport
      ⟨v.stage.tree, upd a1.layouts v.root (resizeRoot f.input.viewport (a1.layouts v.root))⟩ = .ok styled :=
    (styleTree_recalling (a1.env p fuel' f.order f.input.time) r _ _ _ _ _).symm.trans hs
  obtain ⟨v1, styled1, tree, t', ui, g1, g2, g3, g4, g5⟩ := update_parts hu
  rw [show a1.screen.view.update p.inline f.value = .ok v from hv] at g1; injection g1 with g1; subst g1
  rw [hs'] at g2; injection g2 with g2; subst g2
  obtain ⟨wf, -⟩ := h.bound hv
  have hst : Restyled v.stage.tree styled.tree := styleView_restyled (s := ⟨v.stage.tree, _⟩) wf hs'
  have hform : SameForm v.stage.tree styled.tree := Tree.Related.mono (fun _ _ hx => hx.1) hst
  have hso := handleOutput_states (session_ok h.session) hv (hst.trans (placeTree_restyled _ g3)) g4
  have hkids : a2.screen.view.stage.tree.kids = styled.tree.kids := by
    rw [g5]; exact (SameStyled.related_trans (placeTree_styled _ g3) (stateOnly_styled hso)).kids
  have hdisp : ∀ n, Displayed styled.tree 1 n ↔ n = 1 ∨ n = 2 ∨ n = 3 := fun n => by
    rw [← hd n]
    exact ⟨fun hd => displayed_off (T := fun _ => False) (fun n _ => congrFun hkids n) hd (fun _ h => h.elim),
      fun hd => displayed_on (T := fun _ => False) (fun n _ => congrFun hkids n) hd (fun _ h => h.elim)⟩
  have hlays : ∀ n, Displayed styled.tree 1 n → styled.layouts n = a1.layouts n := by
    intro n hn
    rw [← hl n ((hdisp n).1 hn), g5]
  have hbound : Memory.bound p.inline a1.screen.view f.value m1 = m1 := by
    unfold Memory.bound
    cases hx : a1.screen.view.vm.bind f.value with
    | none => rfl
    | some q => obtain ⟨vm, rs⟩ := q; have := hreact vm rs hx; subst this; rfl
  have hv1 : v.body = 1 := by rw [← hb, g5]
  have hkeep : ∀ n c, m1 1 n c → ((Memory.bound p.inline a1.screen.view f.value m1).styled a1.layouts styled) 1 n c := by
    intro n c hn
    rw [hbound]
    refine ⟨hn, fun x hx hab => hx (hlays x ?_)⟩
    exact (above_displayed (hform.wf wf)).1 hab
  obtain ⟨n0, c0, hm1⟩ := hm1
  have hhit := hlay.hit ⟨n0, c0, by rw [hv1]; exact hkeep n0 c0 hm1⟩
  rw [hv1] at hhit
  funext n
  unfold App.recallAll
  split
  · rename_i hn
    obtain ⟨c, h1, h2⟩ := hhit n ((hdisp n).2 hn)
    rw [show r n = some c from h1]
    have h3 : m1 1 n c := by
      have := h2.1
      rw [show Memory.bound p.inline a1.screen.view (f.recalling r).value m1 = m1 from hbound] at this
      exact this
    rw [hc.font _ _ _ h3]
  · rename_i hn
    cases hx : r n with
    | none => rfl
    | some c =>
      have := (hlay.recalls n c hx).1
      rw [hv1] at this
      exact (hn ((hdisp n).1 this)).elim

/-- What an engine can recall in the two updates is determined: nothing in the first one, everything in the second one. -/
theorem two_updates {f : Frame} (hf : f.order = orderId) {one all anew : Option (FontFace × Rat × Rat)} (h : twoCheck f one all anew = true) :
    ∃ a a1 a2 a3 outs outs2 outs3, openApp fontPlatform 100 fadeDoc hoverCss = .ok a ∧ a.run fontPlatform 100 [f] = .ok (a1, outs) ∧
      a.run fontPlatform 100 [f, stillFrame] = .ok (a2, outs2) ∧
      a.run fontPlatform 100 [f, stillFrame.recalling a1.recallAll] = .ok (a3, outs3) ∧ a1.third = one ∧ a2.third = anew ∧ a3.third = all ∧
      (∀ b ∈ [a1, a3], b.onlyThird = true ∧ ∀ n, Displayed b.screen.view.stage.tree b.screen.view.body n ↔ n = 1 ∨ n = 2 ∨ n = 3) ∧
      (∃ r1 r2 a' m' outs', Cached fontPlatform 100 a Memory.empty [f.recalling r1, stillFrame.recalling r2] a' m' outs') ∧
      ∀ r1 r2 a' m' outs', Cached fontPlatform 100 a Memory.empty [f.recalling r1, stillFrame.recalling r2] a' m' outs' →
        f.recalling r1 = f ∧ r2 = a1.recallAll ∧ a' = a3 := by
  unfold twoCheck at h
  split at h
  · cases h
  rename_i a ha
  split at h
  case h_2 => cases h
  rename_i a1 outs hr1
  split at h
  case h_2 => cases h
  rename_i a2 outs2 hr2
  split at h
  case h_2 => cases h
  rename_i a3 outs3 hr3
  simp only [Bool.and_eq_true, decide_eq_true_eq] at h
  obtain ⟨⟨⟨⟨⟨⟨⟨hb1, k11, k12, k13⟩, hb2, k21, k22, k23⟩, hb3, k31, k32, k33⟩, l1, l2, l3⟩, t1, t2, t3⟩, o13, o33⟩, hregs⟩ := h
  have hr1 := App.evalRun_sound _ hr1
  have hr2 := App.evalRun_sound _ hr2
  have hr3 := App.evalRun_sound _ hr3
  have hl := Living.opened ha
  have hl1 := living_run [f] hl hr1
  have u1 : ∃ o, a.update fontPlatform 100 f.order f.input f.value = .ok (a1, o) := by
    simp only [App.run] at hr1
    cases hx : a.update fontPlatform 100 f.order f.input f.value with
    | error e => rw [hx] at hr1; cases hr1
    | ok q => obtain ⟨b, o⟩ := q; rw [hx] at hr1; simp only [Except.ok.injEq, Prod.mk.injEq] at hr1; rw [hr1.1]; exact ⟨o, rfl⟩
  have u2 : ∃ o, a1.update fontPlatform 100 orderId stillFrame.input stillFrame.value = .ok (a2, o) := by
    simp only [App.run] at hr2
    cases hx : a1.update fontPlatform 100 orderId stillFrame.input stillFrame.value with
    | error e => rw [show a1.update fontPlatform 100 stillFrame.order stillFrame.input stillFrame.value = _ from hx] at hr2; cases hr2
    | ok q =>
      obtain ⟨b, o⟩ := q
      rw [show a1.update fontPlatform 100 stillFrame.order stillFrame.input stillFrame.value = _ from hx] at hr2
      simp only [Except.ok.injEq, Prod.mk.injEq] at hr2; rw [hr2.1]; exact ⟨o, rfl⟩
  obtain ⟨o1, u1⟩ := u1
  obtain ⟨o2, u2⟩ := u2
  have hf1 : f.recalling (fun _ => none) = f := by obtain ⟨o, i, v⟩ := f; simp only at hf; subst hf; rfl
  have hrun : ∀ g b os, a1.run fontPlatform 100 [g] = .ok (b, os) → ∃ os', a.run fontPlatform 100 [f, g] = .ok (b, os') := by
    intro g b os hx
    refine ⟨o1 :: os, ?_⟩
    rw [App.run, u1]
    simp only [hx]
  obtain ⟨outs2', hr2'⟩ := hrun _ _ _ hr2
  obtain ⟨outs3', hr3'⟩ := hrun _ _ _ hr3
  have d1 := displayed_three k11 k12 k13
  have d2 := displayed_three k21 k22 k23
  have d3 := displayed_three k31 k32 k33
  refine ⟨a, a1, a2, a3, outs, outs2', outs3', ha, hr1, hr2', hr3', t1, t2, t3, ?_, ?_, ?_⟩
  · intro b hb
    simp only [List.mem_cons, List.not_mem_nil, or_false] at hb
    rcases hb with rfl | rfl
    · exact ⟨o13, fun n => by rw [hb1]; exact d1 n⟩
    · exact ⟨o33, fun n => by rw [hb3]; exact d3 n⟩
  · obtain ⟨r1, b1, m1, p1, c1⟩ := C82_engine_goes_on (last := f) ha .nil u1
    have c1' := c1
    cases c1' with
    | cons hx hy hz =>
      cases hz
      have hr : r1 = fun _ => none := hl.recalls_nothing hy
      subst hr
      rw [show (⟨{ f.order with recall := fun _ => none }, f.input, f.value⟩ : Frame) = f from hf1] at c1 hx
      rw [u1] at hx
      simp only [Except.ok.injEq, Prod.mk.injEq] at hx
      obtain ⟨rfl, rfl⟩ := hx
      obtain ⟨r2, b2, m2, p2, c2⟩ := C82_engine_goes_on (last := stillFrame) ha c1 u2
      exact ⟨fun _ => none, r2, b2, m2, _, by rw [hf1]; exact c2⟩
  · intro r1 r2 a' m' outs' hc
    cases hc with
    | cons hx hy hz =>
      cases hz with
      | cons hx2 hy2 hz2 =>
      cases hz2
      have hr : r1 = fun _ => none := hl.recalls_nothing hy
      subst hr
      rw [hf1] at hx hy
      rw [u1] at hx
      simp only [Except.ok.injEq, Prod.mk.injEq] at hx
      obtain ⟨rfl, rfl⟩ := hx
      refine ⟨hf1, ?_⟩
      rename_i m1 _ _
      have hc1 := hl.recalls (F := fun n c => c = a1.content n) u1 (Current.empty _ _ _) hy (fun _ _ => rfl)
      have key : r2 = a1.recallAll := by
        refine hl1.recalls_all (f := stillFrame) ?_ hc1.1 hb2 ?_ u2 d2 ?_ hy2
        · intro vm rs hx
          obtain ⟨v0, hr0, htw0⟩ := (session_ok hl1.session).twin
          obtain ⟨σ, hσ, hk⟩ := reached_kept hr0
          rw [hσ] at hregs
          simp only [List.isEmpty_iff] at hregs
          rw [List.eq_nil_iff_forall_not_mem]
          intro r hr
          obtain ⟨rg, h1, -⟩ := bind_reactions hx (by rw [htw0.vm]; exact hk.good.bindings) hr
          rw [hregs] at h1; cases h1
        · obtain ⟨v, styled, hv, hs, hlay⟩ := hy
          obtain ⟨-, -, h3, -⟩ := hl.bound hv
          obtain ⟨v1, styled1, tree, t', ui, g1, g2, g3, g4, g5⟩ := update_parts u1
          rw [hv] at g1; injection g1 with g1; subst g1
          have : v.body = 1 := by rw [← hb1, g5]
          have := hlay.body v.body .root
          rename_i hvb
          rw [hvb] at this
          exact ⟨1, _, this⟩
        · rintro n (rfl | rfl | rfl)
          · exact l1
          · exact l2
          · exact l3
      subst key
      refine ⟨rfl, ?_⟩
      simp only [App.run, hx2, Except.ok.injEq, Prod.mk.injEq] at hr3
      exact hr3.1

/-- Finding for C82: a text whose font changes keeps the box of its old font. The mouse is over the `p`, so that its font is 40 px in
the second update; whatever the engine keeps and recalls, the text has this font and a box of 16 x 16, where computing
the layout again gives one of 40 x 40. -/
theorem C82_font_counterexample : ∃ a, openApp fontPlatform 100 fadeDoc hoverCss = .ok a ∧
    (∃ r1 r2 a' m' outs, Cached fontPlatform 100 a Memory.empty [hoverFrame.recalling r1, stillFrame.recalling r2] a' m' outs) ∧
    (∀ r1 r2 a' m' outs, Cached fontPlatform 100 a Memory.empty [hoverFrame.recalling r1, stillFrame.recalling r2] a' m' outs →
      ∃ e, a'.screen.view.stage.tree.ctx 3 = some e ∧ e.font.size = 40 ∧ e.size = (16, 16)) ∧
    ∃ a' outs e, a.run fontPlatform 100 ([hoverFrame, stillFrame].map Frame.anew) = .ok (a', outs) ∧
      a'.screen.view.stage.tree.ctx 3 = some e ∧ e.font.size = 40 ∧ e.size = (40, 40) := by
  obtain ⟨a, a1, a2, a3, outs, outs2, outs3, h1, h2, h3, h4, t1, t2, t3, -, h6, h7⟩ :=
    two_updates (f := hoverFrame) rfl (one := some ({}, 16, 16)) (all := some ({ size := 40 }, 16, 16)) (anew := some ({ size := 40 }, 40, 40)) (by decide +kernel)
  have third : ∀ (b : App) x y, b.third = some (x, y) → ∃ e, b.screen.view.stage.tree.ctx 3 = some e ∧ e.font.size = x.size ∧ e.size = y := by
    intro b x y hb
    unfold App.third at hb
    rw [Option.map_eq_some_iff] at hb
    obtain ⟨e, he, hx⟩ := hb
    simp only [Prod.mk.injEq] at hx
    exact ⟨e, he, by rw [hx.1], hx.2⟩
  refine ⟨a, h1, h6, fun r1 r2 a' m' outs' hc => ?_, ?_⟩
  · obtain ⟨-, -, rfl⟩ := h7 _ _ _ _ _ hc
    exact third _ _ _ t3
  · obtain ⟨e, he⟩ := third _ _ _ t2
    exact ⟨a2, outs2, e, h3, he⟩

/-- The conditions of C82_as_if_computed_partial are met: with the mouse elsewhere the font stays the same, and the engine recalls the
whole of the first layout in the second update. -/
theorem C82_example : ∃ a r1 r2 a' m' outs, openApp fontPlatform 100 fadeDoc hoverCss = .ok a ∧
    Cached fontPlatform 100 a Memory.empty [awayFrame.recalling r1, stillFrame.recalling r2] a' m' outs ∧
    SteadyFonts fontPlatform 100 a [awayFrame.recalling r1, stillFrame.recalling r2] ∧
    (r2 1).isSome ∧ (r2 2).isSome ∧ (r2 3).isSome := by
  obtain ⟨a, a1, a2, a3, outs, outs2, outs3, h1, h2, h3, h4, t1, t2, t3, h5, ⟨r1, r2, a', m', outs', h6⟩, h7⟩ :=
    two_updates (f := awayFrame) rfl (one := some ({}, 16, 16)) (all := some ({}, 16, 16)) (anew := some ({}, 16, 16)) (by decide +kernel)
  obtain ⟨g1, g2, g3⟩ := h7 _ _ _ _ _ h6
  subst g2 g3
  refine ⟨a, r1, _, a', m', outs', h1, h6, ⟨fun _ => {}, ?_⟩, rfl, rfl, rfl⟩
  have faces : ∀ b ∈ [a1, a'], b.third = some ({}, 16, 16) → b.Faces fun _ => {} := by
    intro b hb ht n e hd he htext
    obtain ⟨o1, o2⟩ := h5 b hb
    unfold App.onlyThird at o1
    rw [Bool.and_eq_true] at o1
    rcases (o2 n).1 hd with rfl | rfl | rfl
    · rw [he] at o1; simp only [Option.all_some] at o1; rw [Option.isNone_iff_eq_none.1 o1.1] at htext; cases htext
    · rw [he] at o1; simp only [Option.all_some] at o1; rw [Option.isNone_iff_eq_none.1 o1.2] at htext; cases htext
    · unfold App.third at ht
      rw [he] at ht
      simp only [Option.map_some, Option.some.injEq, Prod.mk.injEq] at ht
      exact ht.1
  rw [g1]
  intro before f after hf b os hb
  match before, hf with
  | [], hf =>
    simp only [List.nil_append, List.cons.injEq] at hf
    obtain ⟨rfl, -⟩ := hf
    rw [List.nil_append, h2] at hb
    simp only [Except.ok.injEq, Prod.mk.injEq] at hb
    obtain ⟨rfl, -⟩ := hb
    exact faces _ (by simp) t1
  | [x], hf =>
    simp only [List.cons_append, List.nil_append, List.cons.injEq] at hf
    obtain ⟨rfl, rfl, -⟩ := hf
    rw [List.singleton_append, h4] at hb
    simp only [Except.ok.injEq, Prod.mk.injEq] at hb
    obtain ⟨rfl, -⟩ := hb
    exact faces _ (by simp) t3
  | x :: y :: l, hf =>
    have := congrArg List.length hf
    simp at this

end Verif
