import Verif.Props.SetUp
import Verif.Props.ClockExamples
/-!
# C88: an animation that is set up, and what the code makes of it
-/
namespace Verif

/-- `p{animation-name:fade;animation-duration:2s;animation-direction:reverse;animation-timing-function:ease-in;animation-iteration-count:infinite;transition-property:width}`. -/
def turnBlock : List Declaration :=
  [.property .AnimationName [[.explicit (.keyword "fade")]], .property .AnimationDuration [[.explicit (.time 2)]], .property .AnimationDirection [[.explicit (.keyword "reverse")]],
   .property .AnimationTimingFunction [[.explicit (.keyword "ease-in")]], .property .AnimationIterationCount [[.explicit (.keyword "infinite")]],
   .property .TransitionProperty [[.explicit (.keyword "width")]]]
def turnCss : Css := ⟨[⟨[[.type "p"]], turnBlock⟩], fun name => if name = "fade" then some fade else none⟩

def turnAnimator : Animator := { name := "fade", duration := 2, direction := .reverse, timing := .easeIn, iterations := .infinite, time := 1 / 2 }

/-- What is computed about the program. -/
def turnFacts (v : View) (a' : App) : Bool :=
  match v.stage.tree.ctx 1, v.stage.tree.ctx 2, a'.screen.view.stage.tree.ctx 2 with
  | some e1, some e2, some e =>
    decide (v.body = 1 ∧ v.stage.tree.par 2 = some 1 ∧ v.stage.tree.kids 1 = [2]) &&
    decide (e1.text = none ∧ e1.tag = "body" ∧ e1.style.length = 0) &&
    decide (e2.text = none ∧ e2.animators = [turnAnimator] ∧ e2.transitions.map (·.key) = [some .Width] ∧ e2.style.length = 0) &&
    decide (turnCss.styles.map (matchesNow true viewPseudo v.stage.tree 1) = [false]) &&
    decide (turnCss.styles.map (matchesNow true viewPseudo v.stage.tree 2) = [true]) &&
    decide (e.selfOpacity = 37 / 100 ∧ e.animators = [{ turnAnimator with time := 3 / 4 }])
  | _, _, _ => false

def turnCheck : Bool :=
  match openApp wholePlatform 100 fadeDoc turnCss with
  | .error _ => false
  | .ok a => match a.evalRun wholePlatform 100 fadeFrames with
    | some (.ok (a1, _)) => match a1.screen.view.evalUpdates wholePlatform.inline 100 [fadeLast.value] with
      | some (.ok v) => match a1.rest wholePlatform 100 fadeLast.order fadeLast.input (.ok v) with
        | .ok (a', _) => turnFacts v a' &&
          (match renderView (docEnv wholePlatform.translate wholePlatform.inline fadeDoc) 100 (docBody fadeDoc) with
            | .error _ => false
            | .ok (_, _, σ) => σ.regs.all (fun r => match r.2.params with | .tag _ _ => false | _ => true))
        | _ => false
      | _ => false
    | _ => false

theorem turnCheck_true : turnCheck = true := by decide +kernel

theorem turnCss_supported : turnCss.Supported := by
  intro s hs
  simp only [turnCss, List.mem_cons, List.not_mem_nil, or_false] at hs
  subst hs
  simp [turnBlock, Simple.Faithful, Declaration.Singular]

/-- Nothing after the direction is about it. -/
theorem turnBlock_after {vars : Variables} {j : Nat} {w : ComputedValue} (h : SetsAt vars turnBlock j ⟨.AnimationDirection, 0⟩ w) : j ≤ 2 := by
  obtain ⟨x, hx, key, values, sh, vs, rfl, hv, hcomp, hmem⟩ := h
  match j with
  | 0 => omega
  | 1 => omega
  | 2 => omega
  | 3 =>
    simp only [turnBlock, List.getElem?_cons_succ, List.getElem?_cons_zero, Option.some.injEq, Declaration.property.injEq] at hx
    obtain ⟨rfl, rfl⟩ := hx
    have : expand .AnimationTimingFunction vs = plainValue .AnimationTimingFunction vs := rfl
    rw [this] at hmem
    exact absurd (plainValue_key hmem) (by simp)
  | 4 =>
    simp only [turnBlock, List.getElem?_cons_succ, List.getElem?_cons_zero, Option.some.injEq, Declaration.property.injEq] at hx
    obtain ⟨rfl, rfl⟩ := hx
    have : expand .AnimationIterationCount vs = plainValue .AnimationIterationCount vs := rfl
    rw [this] at hmem
    exact absurd (plainValue_key hmem) (by simp)
  | 5 =>
    simp only [turnBlock, List.getElem?_cons_succ, List.getElem?_cons_zero, Option.some.injEq, Declaration.property.injEq] at hx
    obtain ⟨rfl, rfl⟩ := hx
    have : expand .TransitionProperty vs = plainValue .TransitionProperty vs := rfl
    rw [this] at hmem
    exact absurd (plainValue_key hmem) (by simp)
  | j + 6 => simp [turnBlock] at hx

/-- The conditions of C88 are met, and its conclusion says something: an animation of two seconds plays with the parameters that
are declared. But it goes on as if it were played forward and evenly: the opacity is 0.37 after 3/4 seconds. -/
theorem C88_shape_counterexample : ∃ a v a' e0 e, Animated wholePlatform fadeDoc turnCss 100 a fadeFrames fadeLast v a' 2 e0 ∧ e0.transitions.map (·.key) = [some .Width] ∧
    turnCss.NoKeyframe e0 .AnimationDirection ∧ turnCss.Says v.stage.tree v.body 2 ⟨.AnimationDirection, 0⟩ (.keyword "reverse") ∧
    a'.animator 2 0 = some { turnAnimator with time := 3 / 4 } ∧ a'.screen.view.stage.tree.ctx 2 = some e ∧ e.selfOpacity = 37 / 100 := by
  have h := turnCheck_true
  unfold turnCheck at h
  split at h
  · cases h
  rename_i a ha
  split at h
  case h_2 => cases h
  rename_i a1 outs hr
  split at h
  case h_2 => cases h
  rename_i v hv
  split at h
  case h_2 => cases h
  rename_i a' out hu
  have hr' := App.evalRun_sound _ hr
  have hv' : a1.screen.view.update wholePlatform.inline fadeLast.value = .ok v := by
    have := View.evalUpdates_sound _ _ _ _ _ hv
    simp only [View.updates] at this
    cases hx : a1.screen.view.update wholePlatform.inline fadeLast.value with
    | error f => rw [hx] at this; cases this
    | ok w => rw [hx] at this; injection this with this; rw [this]
  have hu' : a1.update wholePlatform 100 fadeLast.order fadeLast.input fadeLast.value = .ok (a', out) := by
    rw [App.update_rest, hv']; exact hu
  rw [Bool.and_eq_true] at h
  obtain ⟨h, hregs⟩ := h
  have hl := living_run fadeFrames (Living.opened ha) hr'
  obtain ⟨wf, -, -, -⟩ := hl.bound hv'
  unfold turnFacts at h
  split at h
  case h_2 => cases h
  rename_i e1 e2 e he1 he2 he
  simp only [Bool.and_eq_true, decide_eq_true_eq, List.length_eq_zero_iff] at h
  obtain ⟨⟨⟨⟨⟨⟨hb, hpar, hkids⟩, ht1, htag1, hs1⟩, ht2, ha2, htr2, hs2⟩, hm1⟩, hm2⟩, ho, ho2⟩ := h
  have hbind : ∀ path b, b ∈ v.vm.bindings path → ∀ n k, b.params ≠ .tag n k := by
    obtain ⟨v0, hr0, htw0⟩ := (session_ok hl.session).twin
    obtain ⟨v2, hr2, htw, -⟩ := twin_update hr0 htw0 hv'
    obtain ⟨σ, hσ, hk⟩ := reached_kept hr2
    rw [hσ] at hregs
    rw [List.all_eq_true] at hregs
    intro path b hb n k hbk
    rw [htw.vm, hk.good.bindings, mem_lookupRegs] at hb
    have := hregs _ hb
    simp [hbk] at this
  have hspaces : ∀ s ∈ turnCss.styles, ∀ c ∈ s.selectors, ∀ x ∈ c, x.PlainIn v.stage.tree := by
    intro s hs
    simp only [turnCss, List.mem_cons, List.not_mem_nil, or_false] at hs
    subst hs
    simp [Simple.PlainIn]
  have hund : turnCss.Undisturbed v.vm.bindings := by
    refine ⟨fun path b hb n => ⟨hbind path b hb n _, hbind path b hb n _⟩, ?_⟩
    intro s hs hch m k _ ht
    simp only [turnCss, List.mem_cons, List.not_mem_nil, or_false] at hs
    subst hs
    simp [Style.HasChild] at hch
  have hd1 := declarationsFor_now true wf he1 hspaces turnCss_supported
  have hd2 := declarationsFor_now true wf he2 hspaces turnCss_supported
  simp only [turnCss, List.map_cons, List.map_nil, List.cons.injEq, and_true] at hm1 hm2
  rw [hs1] at hd1
  rw [hs2] at hd2
  simp only [turnCss, List.filter_cons, List.filter_nil, hm1, hm2, if_true, Bool.false_eq_true, if_false,
    List.map_cons, List.map_nil, List.flatten_cons, List.flatten_nil, List.append_nil] at hd1 hd2
  have hreached : Styles v.stage.tree v.body 2 := by
    rw [hb]
    exact .child .body he1 ht1 (by rw [htag1]; decide) (by rw [hkids]; simp)
  have hA : Animated wholePlatform fadeDoc turnCss 100 a fadeFrames fadeLast v a' 2 e2 := by
    refine ⟨⟨100, a1, outs, out, ha, hr', hv', hu'⟩, orderReverse_fair, turnCss_supported, hund, hspaces, hreached, he2, ht2, by rw [hs2]; simp, ?_⟩
    intro x hx an han
    rw [ha2] at hx
    simp only [List.mem_singleton] at hx
    subst hx
    simp only [turnCss, turnAnimator, if_true, Option.some.injEq] at han
    subst han
    refine ⟨by decide +kernel, ?_, ?_⟩
    · intro m hm
      cases hm
    · intro k hk y hy
      simp only [fade, List.mem_cons, List.not_mem_nil, or_false] at hk
      rcases hk with rfl | rfl <;> (simp only [List.mem_singleton] at hy; subst hy; exact .inl (by simp))
  replace hd2 : turnCss.declarationsFor v.stage.tree 2 = turnBlock := hd2
  refine ⟨a, v, a', e2, e, hA, htr2, ?_, ⟨fun _ => none, 2, ?_, ?_, ?_⟩, ?_, he, ho⟩
  · intro x hx an han k hk y hy hf
    rw [ha2] at hx
    simp only [List.mem_singleton] at hx
    subst hx
    simp only [turnCss, turnAnimator, if_true, Option.some.injEq] at han
    subst han
    obtain ⟨vars, index, w, key, values, sh, vs, rfl, hv, hcomp, hmem⟩ := hf
    have hkey : key = .Opacity := by
      simp only [fade, List.mem_cons, List.not_mem_nil, or_false] at hk
      rcases hk with rfl | rfl <;> (simp only [List.mem_singleton, Declaration.property.injEq] at hy; exact hy.1)
    subst hkey
    have : expand .Opacity vs = plainValue .Opacity vs := rfl
    rw [this] at hmem
    exact absurd (plainValue_key hmem) (by simp)
  · intro name l
    simp only [reduceCtorEq, false_iff]
    rintro ⟨-, q, hq, hg⟩
    rw [hpar] at hq; injection hq with hq; subst hq
    cases hg with
    | here hg =>
      rw [show turnCss.declarationsFor v.stage.tree 1 = _ from hd1] at hg
      simp [givenTo] at hg
    | up h1 => exact h1 hb.symm
  · rw [hd2]
    exact ⟨_, rfl, .AnimationDirection, _, _, [.keyword "reverse"], rfl, rfl, .explicit .nil, by decide +kernel⟩
  · intro j w hj hs
    rw [hd2] at hs
    have := turnBlock_after hs
    omega
  · simp [App.animator, he, ho2]

/-- **C88 (part).** In general: direction, fill mode and timing function of an animation change nothing of what it makes of an element. -/
theorem C88_shape_ignored {fuel : Nat} {x : Animator} {time : Rat} {tracks : List Track} {s s' : ComputedStyle} {x' : Animator}
    (h : x.play fuel time tracks s = .ok (x', s')) (direction : AnimationDirection) (fillMode : AnimationFillMode) (timing : TimingFunction) :
    ({ x with direction := direction, fillMode := fillMode, timing := timing } : Animator).play fuel time tracks s =
      .ok ({ x' with direction := direction, fillMode := fillMode, timing := timing }, s') := by
  have hup : ∀ {y : Animator} {pr : Option Progress}, x.update fuel time = .ok (y, pr) →
      ({ x with direction := direction, fillMode := fillMode, timing := timing } : Animator).update fuel time =
        .ok ({ y with direction := direction, fillMode := fillMode, timing := timing }, pr) := by
    intro y pr hu
    unfold Animator.update at hu ⊢
    by_cases hr : x.running = true ∧ x.duration > 0
    · simp only [hr, and_self, if_true] at hu ⊢
      split at hu
      · rename_i hlt; rw [if_pos hlt]; injection hu with hu; injection hu with h1 h2; subst h1 h2; rfl
      · rename_i hlt
        rw [if_neg hlt]
        split at hu
        · cases hu
        · injection hu with hu; injection hu with h1 h2; subst h1 h2; rfl
    · simp only [hr, if_false] at hu ⊢
      split at hu
      · rename_i hlt; rw [if_pos hlt]; injection hu with hu; injection hu with h1 h2; subst h1 h2; rfl
      · rename_i hlt
        rw [if_neg hlt]
        split at hu
        · cases hu
        · injection hu with hu; injection hu with h1 h2; subst h1 h2; rfl
  unfold Animator.play at h ⊢
  split at h
  · cases h
  · rename_i hu; rw [hup hu]; injection h with h; injection h with h1 h2; subst h1 h2; rfl
  · rename_i hu
    rw [hup hu]
    split at h
    · cases h
    · rename_i hp; simp only [hp]; injection h with h; injection h with h1 h2; subst h1 h2; rfl

end Verif
