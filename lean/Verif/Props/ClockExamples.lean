import Verif.Props.Clock
import Verif.Props.LookExamples
/-!
# C81: an animation
-/
namespace Verif

/-- `<html><body><p>Hi</p></body></html>`. -/
def fadeDoc : Html := .mk "html" [] none [.mk "body" [] none [.mk "p" [] none [.mk "" [] (some [.string "Hi"]) []]]]

/-- `@keyframes fade { from { opacity: 0 } to { opacity: 1 } }`. -/
def fade : Animation := ⟨"fade", [⟨0, [.property .Opacity [[.explicit (.number 0)]]]⟩, ⟨100, [.property .Opacity [[.explicit (.number 1)]]]⟩]⟩

/-- `p{animation-name:fade;animation-duration:2s}`. -/
def fadeCss : Css := ⟨[⟨[[.type "p"]], [.property .AnimationName [[.explicit (.keyword "fade")]], .property .AnimationDuration [[.explicit (.time 2)]]]⟩],
  fun name => if name = "fade" then some fade else none⟩

def fadeFrames : List Frame := [⟨orderId, ⟨1, (800, 600), []⟩, .obj []⟩, ⟨orderId, ⟨1 / 2, (800, 600), []⟩, .obj []⟩]
def fadeLast : Frame := ⟨orderReverse, ⟨1 / 4, (800, 600), []⟩, .obj []⟩

def fadeAnimator : Animator := { name := "fade", duration := 2, time := 1 / 2 }

/-- What is computed about the program. -/
def fadeFacts (v : View) (a' : App) : Bool :=
  match v.stage.tree.ctx 1, v.stage.tree.ctx 2, a'.screen.view.stage.tree.ctx 2 with
  | some e1, some e2, some e =>
    decide (v.body = 1 ∧ v.stage.tree.par 2 = some 1 ∧ v.stage.tree.kids 1 = [2]) &&
    decide (e1.text = none ∧ e1.tag = "body" ∧ e1.style.length = 0) &&
    decide (e2.text = none ∧ e2.animators = [fadeAnimator] ∧ e2.transitions.length = 0 ∧ e2.style.length = 0) &&
    decide (fadeCss.styles.map (matchesNow true viewPseudo v.stage.tree 1) = [false]) &&
    decide (fadeCss.styles.map (matchesNow true viewPseudo v.stage.tree 2) = [true]) &&
    decide (e.selfOpacity = 37 / 100)
  | _, _, _ => false

def fadeCheck : Bool :=
  match openApp wholePlatform 100 fadeDoc fadeCss with
  | .error _ => false
  | .ok a => match a.evalRun wholePlatform 100 fadeFrames with
    | some (.ok (a1, _)) => match a1.screen.view.evalUpdates wholePlatform.inline 100 [fadeLast.value] with
      | some (.ok v) => match a1.rest wholePlatform 100 fadeLast.order fadeLast.input (.ok v) with
        | .ok (a', _) => fadeFacts v a' &&
          (match renderView (docEnv wholePlatform.translate wholePlatform.inline fadeDoc) 100 (docBody fadeDoc) with
            | .error _ => false
            | .ok (_, _, σ) => σ.regs.all (fun r => match r.2.params with | .tag _ _ => false | _ => true))
        | _ => false
      | _ => false
    | _ => false

theorem fadeCheck_true : fadeCheck = true := by decide +kernel

theorem fadeCss_supported : fadeCss.Supported := by
  intro s hs
  simp only [fadeCss, List.mem_cons, List.not_mem_nil, or_false] at hs
  subst hs
  simp [Simple.Faithful, Declaration.Singular]

/-- The conditions of C81 are met: an animation of 2 seconds is declared in a first update and plays in two more, of 1/2 and 1/4
seconds, so that it has come to 3/8; in whole percents that is 37%, and the opacity is 0.37. -/
theorem C81_example : ∃ a v a' e0 e vars, Animated wholePlatform fadeDoc fadeCss 100 a fadeFrames fadeLast v a' 2 e0 ∧ e0.animators = [fadeAnimator] ∧ e0.transitions = [] ∧
    a.playing wholePlatform 100 2 0 (fadeFrames ++ [fadeLast]) = 3 / 4 ∧ fadeAnimator.ProgressAt (3 / 4) (3 / 8) ∧
    (∀ name l, vars name = some l ↔ fadeCss.Gives v.stage.tree v.body name l 2) ∧
    fadeCss.Animates vars (fun i => a.playing wholePlatform 100 2 i (fadeFrames ++ [fadeLast])) 0 e0.animators (fadeCss.Says v.stage.tree v.body 2) ⟨.Opacity, 0⟩ (.number (37 / 100)) ∧
    a'.screen.view.stage.tree.ctx 2 = some e ∧ e.selfOpacity = 37 / 100 := by
  have h := fadeCheck_true
  unfold fadeCheck at h
  split at h
  · cases h
  rename_i a ha
  split at h
  case h_2 => cases h
  rename_i a1 outs hr
  split at h
  case h_2 => cases h
  rename_i v hv
  split at h
  case h_2 => cases h
  rename_i a' out hu
  have hr' := App.evalRun_sound _ hr
  have hv' : a1.screen.view.update wholePlatform.inline fadeLast.value = .ok v := by
    have := View.evalUpdates_sound _ _ _ _ _ hv
    simp only [View.updates] at this
    cases hx : a1.screen.view.update wholePlatform.inline fadeLast.value with
    | error f => rw [hx] at this; cases this
    | ok w => rw [hx] at this; injection this with this; rw [this]
  have hu' : a1.update wholePlatform 100 fadeLast.order fadeLast.input fadeLast.value = .ok (a', out) := by
    rw [App.update_rest, hv']; exact hu
  rw [Bool.and_eq_true] at h
  obtain ⟨h, hregs⟩ := h
  have hl := living_run fadeFrames (Living.opened ha) hr'
  obtain ⟨wf, -, -, -⟩ := hl.bound hv'
  unfold fadeFacts at h
  split at h
  case h_2 => cases h
  rename_i e1 e2 e he1 he2 he
  simp only [Bool.and_eq_true, decide_eq_true_eq, List.length_eq_zero_iff] at h
  obtain ⟨⟨⟨⟨⟨⟨hb, hpar, hkids⟩, ht1, htag1, hs1⟩, ht2, ha2, htr2, hs2⟩, hm1⟩, hm2⟩, ho⟩ := h
  have hbind : ∀ path b, b ∈ v.vm.bindings path → ∀ n k, b.params ≠ .tag n k := by
    obtain ⟨v0, hr0, htw0⟩ := (session_ok hl.session).twin
    obtain ⟨v2, hr2, htw, -⟩ := twin_update hr0 htw0 hv'
    obtain ⟨σ, hσ, hk⟩ := reached_kept hr2
    rw [hσ] at hregs
    rw [List.all_eq_true] at hregs
    intro path b hb n k hbk
    rw [htw.vm, hk.good.bindings, mem_lookupRegs] at hb
    have := hregs _ hb
    simp [hbk] at this
  have hspaces : ∀ s ∈ fadeCss.styles, ∀ c ∈ s.selectors, ∀ x ∈ c, x.PlainIn v.stage.tree := by
    intro s hs
    simp only [fadeCss, List.mem_cons, List.not_mem_nil, or_false] at hs
    subst hs
    simp [Simple.PlainIn]
  have hund : fadeCss.Undisturbed v.vm.bindings := by
    refine ⟨fun path b hb n => ⟨hbind path b hb n _, hbind path b hb n _⟩, ?_⟩
    intro s hs hch m k _ ht
    simp only [fadeCss, List.mem_cons, List.not_mem_nil, or_false] at hs
    subst hs
    simp [Style.HasChild] at hch
  have hd1 := declarationsFor_now true wf he1 hspaces fadeCss_supported
  have hd2 := declarationsFor_now true wf he2 hspaces fadeCss_supported
  simp only [fadeCss, List.map_cons, List.map_nil, List.cons.injEq, and_true] at hm1 hm2
  rw [hs1] at hd1
  rw [hs2] at hd2
  simp only [fadeCss, List.filter_cons, List.filter_nil, hm1, hm2, if_true, Bool.false_eq_true, if_false,
    List.map_cons, List.map_nil, List.flatten_cons, List.flatten_nil, List.append_nil] at hd1 hd2
  have hreached : Styles v.stage.tree v.body 2 := by
    rw [hb]
    exact .child .body he1 ht1 (by rw [htag1]; decide) (by rw [hkids]; simp)
  have hA : Animated wholePlatform fadeDoc fadeCss 100 a fadeFrames fadeLast v a' 2 e2 := by
    refine ⟨⟨100, a1, outs, out, ha, hr', hv', hu'⟩, orderReverse_fair, fadeCss_supported, hund, hspaces, hreached, he2, ht2, by rw [hs2]; simp, ?_⟩
    intro x hx an han
    rw [ha2] at hx
    simp only [List.mem_singleton] at hx
    subst hx
    simp only [fadeCss, fadeAnimator, if_true, Option.some.injEq] at han
    subst han
    refine ⟨by decide +kernel, ?_, ?_⟩
    · intro m hm
      simp only [fadeAnimator, AnimationIterations.number.injEq] at hm
      rw [← hm]; decide +kernel
    · intro k hk y hy
      simp only [fade, List.mem_cons, List.not_mem_nil, or_false] at hk
      rcases hk with rfl | rfl <;> (simp only [List.mem_singleton] at hy; subst hy; exact .inl (by simp))
  have hT : a.playing wholePlatform 100 2 0 (fadeFrames ++ [fadeLast]) = 3 / 4 := by
    rw [← hA.clock (i := 0) (x := fadeAnimator) (an := fade) (by rw [ha2]; rfl) rfl]; decide +kernel
  have hP : fadeAnimator.ProgressAt (3 / 4) (3 / 8) := ⟨by decide +kernel, by decide +kernel, 0, by decide +kernel, by simp⟩
  refine ⟨a, v, a', e2, e, fun _ => none, hA, ha2, htr2, hT, hP, ?_, ?_, he, ho⟩
  · intro name l
    simp only [reduceCtorEq, false_iff]
    intro hg
    cases hg with
    | here hg =>
      rw [show fadeCss.declarationsFor v.stage.tree 2 = _ from hd2] at hg
      simp [givenTo] at hg
    | up h1 h2 h3 h4 =>
      rw [hpar] at h3; injection h3 with h3; subst h3
      cases h4 with
      | here hg =>
        rw [show fadeCss.declarationsFor v.stage.tree 1 = _ from hd1] at hg
        simp [givenTo] at hg
      | up h1 => exact h1 hb.symm
  · have hop : ∀ x : Rat, Declaration.Sets (fun _ => none) (.property .Opacity [[.explicit (.number x)]]) ⟨.Opacity, 0⟩ (.number x) := by
      intro x
      refine ⟨.Opacity, _, _, [.number x], rfl, rfl, .explicit .nil, ?_⟩
      show _ ∈ plainValue .Opacity [.number x]
      simp [plainValue]
    rw [ha2]
    have hk : fadeCss.animations fadeAnimator.name = some fade := rfl
    simp only [Css.Animates, hk, hT]
    refine .inr ⟨by decide +kernel, 3 / 8, hP, 37, by decide +kernel, by decide +kernel, .inr (.inr ⟨?_, 0, 100, .number 0, .number 1, by decide, by decide, ?_, ?_, ?_, ?_⟩)⟩
    · exact ⟨_, List.mem_cons_self, _, List.mem_cons_self, _, hop 0⟩
    · exact .inl ⟨_, rfl, [], _, [], rfl, hop 0, by simp⟩
    · exact .inl ⟨_, rfl, [], _, [], rfl, hop 1, by simp⟩
    · rintro s h1 h2 w (⟨k, hk, -⟩ | ⟨-, h3, -⟩)
      · have : fade.keyframes.filter (·.step == s) = [] := by
          have : (0 == s) = false ∧ (100 == s) = false := by simp only [beq_eq_false_iff_ne]; omega
          simp only [fade, List.filter_cons, this.1, this.2, List.filter_nil, Bool.false_eq_true, if_false]
        rw [this] at hk; cases hk
      · omega
    · rw [(C54_linear _ _ _ .px).1]; decide +kernel

/-- `<html><body><p @class="{k}">Hi</p></body></html>` with `.on{animation-name:fade;animation-duration:2s}`. -/
def onDoc : Html := .mk "html" [] none [.mk "body" [] none [.mk "p" [.attribute "class" [.binder (path1 "k")]] none [.mk "" [] (some [.string "Hi"]) []]]]
def onCss : Css := { fadeCss with styles := [⟨[[.class "on"]], [.property .AnimationName [[.explicit (.keyword "fade")]], .property .AnimationDuration [[.explicit (.time 2)]]]⟩] }
def onFrames : List Frame := [⟨orderId, ⟨1, (800, 600), []⟩, .obj [("k", .str "on")]⟩, ⟨orderId, ⟨1 / 2, (800, 600), []⟩, .obj [("k", .str "")]⟩,
  ⟨orderId, ⟨1 / 4, (800, 600), []⟩, .obj [("k", .str "")]⟩]

/-- What is looked at after the last update. -/
def onFacts (r : Except Halt (App × List Output)) : Bool :=
  match r with
  | .ok (a', _) => (a'.screen.view.stage.tree.ctx 2).any fun e => decide (e.attrs "class" = some "" ∧
      onCss.styles.map (matchesNow true viewPseudo a'.screen.view.stage.tree 2) = [false] ∧ e.selfOpacity = 37 / 100)
  | .error _ => false

def onCheck : Bool :=
  match openApp wholePlatform 100 onDoc onCss with
  | .error _ => false
  | .ok a => match a.evalRun wholePlatform 100 onFrames with
    | some r => onFacts r
    | none => false

/-- Finding for C81: an animation is never taken away. Here the class that declares it is gone after the first update, no rule
matches the element any more, and the animation, which has not even begun then, plays in all the updates that follow. -/
theorem C81_undeclared_counterexample : ∃ a, openApp wholePlatform 100 onDoc onCss = .ok a ∧
    onFacts (a.run wholePlatform 100 onFrames) = true := by
  have h : onCheck = true := by decide +kernel
  unfold onCheck at h
  split at h
  · cases h
  rename_i a ha
  split at h
  case h_2 => cases h
  rename_i r hr
  exact ⟨a, ha, by rw [App.evalRun_sound _ hr]; exact h⟩

end Verif
