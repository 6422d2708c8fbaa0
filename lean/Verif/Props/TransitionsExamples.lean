import Verif.Props.Transitions
import Verif.Props.ClockExamples
/-!
# C83: a transition
-/
namespace Verif

/-- `p{transition-property:opacity;transition-duration:2s;opacity:0} .on{opacity:1}`. -/
def slideCss : Css := ⟨[⟨[[.type "p"]], [.property .TransitionProperty [[.explicit (.keyword "opacity")]], .property .TransitionDuration [[.explicit (.time 2)]],
    .property .Opacity [[.explicit (.number 0)]]]⟩, ⟨[[.class "on"]], [.property .Opacity [[.explicit (.number 1)]]]⟩], fun _ => none⟩

def slideStart : List Frame := [⟨orderId, ⟨1, (800, 600), []⟩, .obj [("k", .str "")]⟩]
def slideFirst : Frame := ⟨orderReverse, ⟨1, (800, 600), []⟩, .obj [("k", .str "")]⟩
def slideChange : Frame := ⟨orderReverse, ⟨2, (800, 600), []⟩, .obj [("k", .str "on")]⟩
def slideLast : Frame := ⟨orderReverse, ⟨1 / 2, (800, 600), []⟩, .obj [("k", .str "on")]⟩

theorem slideCss_supported : slideCss.Supported := by
  intro s hs
  simp only [slideCss, List.mem_cons, List.not_mem_nil, or_false] at hs
  rcases hs with rfl | rfl <;> simp [Simple.Faithful, Declaration.Singular, CssSpace]

/-- What is computed about one update. -/
def slideFacts (on : Bool) (shown : Rat) (v : View) (a' : App) : Bool :=
  match v.stage.tree.ctx 1, v.stage.tree.ctx 2, a'.screen.view.stage.tree.ctx 2 with
  | some e1, some e2, some e =>
    decide (v.body = 1 ∧ v.stage.tree.par 2 = some 1 ∧ v.stage.tree.kids 1 = [2]) &&
    decide (e1.text = none ∧ e1.tag = "body" ∧ e1.style.length = 0) &&
    decide (e2.text = none ∧ e2.animators.length = 0 ∧ e2.transitions.length = 1 ∧ e2.style.length = 0) &&
    (e2.transitions.all fun t => decide (t.key = some .Opacity ∧ t.animator.running = true ∧ t.animator.delay = 0 ∧ t.animator.iterations = .number 1 ∧ t.animator.duration = 2)) &&
    decide (slideCss.styles.map (matchesNow true viewPseudo v.stage.tree 1) = [false, false]) &&
    decide (slideCss.styles.map (matchesNow true viewPseudo v.stage.tree 2) = [true, on]) &&
    ((List.range v.stage.tree.next).all fun n => match v.stage.tree.ctx n with
      | some e => match e.attrs "class" with
        | some c => c.toList.all fun c => decide (CssSpace c → c = ' ')
        | none => true
      | none => true) &&
    decide (e.selfOpacity = shown)
  | _, _, _ => false

/-- One update, if the facts are so. -/
def slideStep (on : Bool) (shown : Rat) (f : Frame) (a1 : App) : Option (View × App × Output) :=
  match a1.screen.view.evalUpdates wholePlatform.inline 100 [f.value] with
  | some (.ok v) => match a1.rest wholePlatform 100 f.order f.input (.ok v) with
    | .ok (a', out) => if slideFacts on shown v a' then some (v, a', out) else none
    | _ => none
  | _ => none

def slideRegs : Bool :=
  match renderView (docEnv wholePlatform.translate wholePlatform.inline onDoc) 100 (docBody onDoc) with
  | .error _ => false
  | .ok (_, _, σ) => σ.regs.all (fun r => match r.2.params with | .tag _ _ => false | _ => true)

def slideCheck : Bool :=
  match openApp wholePlatform 100 onDoc slideCss with
  | .error _ => false
  | .ok a => match a.evalRun wholePlatform 100 slideStart with
    | some (.ok (a1, _)) =>
      ((slideStep false 0 slideFirst a1).bind fun r => (slideStep true 0 slideChange r.2.1).bind fun r => slideStep true (1 / 4) slideLast r.2.1).isSome
    | _ => false

theorem slideCheck_true : slideCheck = true := by decide +kernel
theorem slideRegs_true : slideRegs = true := by decide +kernel

/-- A block of plain values. -/
def plainBlock (l : List (PropertyKey × ComputedValue)) : List Declaration := l.map fun x => .property x.1 [[.explicit x.2]]

theorem plainBlock_scope (l : List (PropertyKey × ComputedValue)) (i : Nat) : scopeAfter (fun _ => none) ((plainBlock l).take i) = fun _ => none := by
  funext name
  have : givenTo name ((plainBlock l).take i) = [] := by
    unfold givenTo
    rw [List.filterMap_eq_nil_iff]
    intro x hx
    obtain ⟨y, -, rfl⟩ := List.mem_map.1 (List.mem_of_mem_take hx)
    rfl
  simp [scopeAfter, this]

/-- The opacity a block of plain values ends with. -/
theorem slide_says {t : Tree} {pre : List (PropertyKey × ComputedValue)} {x : Rat} (hd : slideCss.declarationsFor t 2 = plainBlock (pre ++ [(.Opacity, .number x)]))
    (hg : ∀ name l, (fun _ => none : Variables) name = some l ↔ 2 ≠ 1 ∧ ∃ p, t.par 2 = some p ∧ slideCss.Gives t 1 name l p) :
    slideCss.Says t 1 2 ⟨.Opacity, 0⟩ (.number x) ∧ ∀ w, ¬ slideCss.Says t 1 2 ⟨.Opacity, 1⟩ w := by
  constructor
  · refine ⟨fun _ => none, pre.length, hg, ?_, ?_⟩
    · rw [hd]
      refine ⟨.property .Opacity [[.explicit (.number x)]], by simp [plainBlock], ?_⟩
      rw [plainBlock_scope]
      refine ⟨.Opacity, _, _, [.number x], rfl, rfl, .explicit .nil, ?_⟩
      show _ ∈ plainValue .Opacity [.number x]
      simp [plainValue]
    · rintro j w hj ⟨y, hy, -⟩
      rw [hd] at hy
      rw [List.getElem?_eq_none (by simp [plainBlock]; omega)] at hy
      cases hy
  · rintro w ⟨vars, j, -, ⟨y, hy, hs⟩, -⟩
    rw [hd] at hy
    obtain ⟨z, -, rfl⟩ := List.mem_map.1 (List.mem_of_getElem? hy)
    obtain ⟨key, values, sh, vs, h1, h2, -⟩ := hs
    injection h1 with h1 h1'
    subst h1'
    simp at h2

/-- One update of the program. -/
theorem slide_turns {a a1 a' : App} {fs : List Frame} {outs : List Output} {out : Output} {f : Frame} {v : View} {on : Bool} {shown : Rat}
    (ha : openApp wholePlatform 100 onDoc slideCss = .ok a) (hr : a.run wholePlatform 100 fs = .ok (a1, outs)) (hf : f.order = orderReverse)
    (hs : slideStep on shown f a1 = some (v, a', out)) :
    a.run wholePlatform 100 (fs ++ [f]) = .ok (a', outs ++ [out]) ∧ a1.screen.view.update wholePlatform.inline f.value = .ok v ∧
      Turns wholePlatform onDoc slideCss 100 a fs f 2 0 .Opacity 2 (.number (if on then 1 else 0)) ∧
      ∃ e, a'.screen.view.stage.tree.ctx 2 = some e ∧ e.selfOpacity = shown := by
  unfold slideStep at hs
  split at hs
  case h_2 => cases hs
  rename_i v' hv
  split at hs
  case h_2 => cases hs
  rename_i a2 out' hu
  split at hs
  case isFalse => cases hs
  rename_i h
  simp only [Option.some.injEq, Prod.mk.injEq] at hs
  obtain ⟨rfl, rfl, rfl⟩ := hs
  have hv' : a1.screen.view.update wholePlatform.inline f.value = .ok v' := by
    have := View.evalUpdates_sound _ _ _ _ _ hv
    simp only [View.updates] at this
    cases hx : a1.screen.view.update wholePlatform.inline f.value with
    | error f => rw [hx] at this; cases this
    | ok w => rw [hx] at this; injection this with this; rw [this]
  have hu' : a1.update wholePlatform 100 f.order f.input f.value = .ok (a2, out') := by
    rw [App.update_rest, hv']; exact hu
  have hregs := slideRegs_true
  unfold slideRegs at hregs
  have hl := living_run fs (Living.opened ha) hr
  obtain ⟨wf, -, -, -⟩ := hl.bound hv'
  unfold slideFacts at h
  split at h
  case h_2 => cases h
  rename_i e1 e2 e he1 he2 he
  simp only [Bool.and_eq_true, decide_eq_true_eq, List.length_eq_zero_iff] at h
  obtain ⟨⟨⟨⟨⟨⟨⟨⟨hb, hpar, hkids⟩, ht1, htag1, hs1⟩, ht2, ha2, htr2, hs2⟩, hall⟩, hm1⟩, hm2⟩, hplain⟩, ho⟩ := h
  have hbind : ∀ path b, b ∈ v'.vm.bindings path → ∀ n k, b.params ≠ .tag n k := by
    obtain ⟨v0, hr0, htw0⟩ := (session_ok hl.session).twin
    obtain ⟨v2, hr2, htw, -⟩ := twin_update hr0 htw0 hv'
    obtain ⟨σ, hσ, hk⟩ := reached_kept hr2
    rw [hσ] at hregs
    rw [List.all_eq_true] at hregs
    intro path b hb n k hbk
    rw [htw.vm, hk.good.bindings, mem_lookupRegs] at hb
    have := hregs _ hb
    simp [hbk] at this
  have hspaces : ∀ s ∈ slideCss.styles, ∀ c ∈ s.selectors, ∀ x ∈ c, x.PlainIn v'.stage.tree := by
    have : v'.stage.tree.PlainAt "class" := by
      intro n e x hn hx c hcx hsp
      have := List.all_eq_true.1 hplain n (List.mem_range.2 (wf.exist n (by rw [hn]; rfl)))
      simp only [hn, hx] at this
      exact of_decide_eq_true (List.all_eq_true.1 this c hcx) hsp
    intro s hs
    simp only [slideCss, List.mem_cons, List.not_mem_nil, or_false] at hs
    rcases hs with rfl | rfl <;> simp [Simple.PlainIn, this]
  have hund : slideCss.Undisturbed v'.vm.bindings := by
    refine ⟨fun path b hb n => ⟨hbind path b hb n _, hbind path b hb n _⟩, ?_⟩
    intro s hs hch m k _ ht
    simp only [slideCss, List.mem_cons, List.not_mem_nil, or_false] at hs
    rcases hs with rfl | rfl <;> simp [Style.HasChild] at hch
  have hd1 := declarationsFor_now true wf he1 hspaces slideCss_supported
  have hd2 := declarationsFor_now true wf he2 hspaces slideCss_supported
  simp only [slideCss, List.map_cons, List.map_nil, List.cons.injEq, and_true] at hm1 hm2
  obtain ⟨a11, a12⟩ := hm1
  obtain ⟨a21, a22⟩ := hm2
  rw [hs1] at hd1
  rw [hs2] at hd2
  simp only [slideCss, List.filter_cons, List.filter_nil, a11, a12, a21, a22, if_true, Bool.false_eq_true, if_false,
    List.map_cons, List.map_nil, List.flatten_cons, List.flatten_nil, List.append_nil] at hd1 hd2
  have hreached : Styles v'.stage.tree v'.body 2 := by
    rw [hb]
    exact .child .body he1 ht1 (by rw [htag1]; decide) (by rw [hkids]; simp)
  have hA : Animated wholePlatform onDoc slideCss 100 a fs f v' a2 2 e2 := by
    refine ⟨⟨100, a1, outs, out', ha, hr, hv', hu'⟩, by rw [hf]; exact orderReverse_fair, slideCss_supported, hund, hspaces, hreached, he2, ht2, by rw [hs2]; simp, ?_⟩
    intro x hx
    rw [ha2] at hx; cases hx
  obtain ⟨tr, htr⟩ := List.length_eq_one_iff.1 htr2
  rw [htr] at hall
  simp only [List.all_cons, List.all_nil, Bool.and_true, decide_eq_true_eq] at hall
  have hg1 : ∀ name l, ¬ slideCss.Gives v'.stage.tree 1 name l 1 := by
    intro name l hg
    cases hg with
    | here hg =>
      rw [show slideCss.declarationsFor v'.stage.tree 1 = _ from hd1] at hg
      simp [givenTo] at hg
    | up h1 => exact h1 rfl
  have hblock : slideCss.declarationsFor v'.stage.tree 2 = plainBlock ((if on then
      [(.TransitionProperty, .keyword "opacity"), (.TransitionDuration, .time 2), (.Opacity, .number 0)] else
      [(.TransitionProperty, .keyword "opacity"), (.TransitionDuration, .time 2)]) ++ [(.Opacity, .number (if on then 1 else 0))]) := by
    rw [show slideCss.declarationsFor v'.stage.tree 2 = _ from hd2]
    cases on <;> rfl
  have hg2 : ∀ name l, ¬ slideCss.Gives v'.stage.tree 1 name l 2 := by
    intro name l hg
    cases hg with
    | here hg =>
      have : givenTo name (slideCss.declarationsFor v'.stage.tree 2) = [] := by
        rw [hblock]
        unfold givenTo
        rw [List.filterMap_eq_nil_iff]
        intro x hx
        obtain ⟨y, -, rfl⟩ := List.mem_map.1 hx
        rfl
      rw [this] at hg; cases hg
    | up h1 h2 h3 h4 =>
      rw [hpar] at h3; injection h3 with h3; subst h3
      exact hg1 name l h4
  obtain ⟨says1, says2⟩ := slide_says hblock (fun name l => by
    simp only [reduceCtorEq, false_iff]
    rintro ⟨-, q, h3, h4⟩
    rw [hpar] at h3; injection h3 with h3; subst h3
    exact hg1 name l h4)
  refine ⟨run_snoc hr hu', hv', ⟨v', a2, e2, tr, fun _ => none, hA, by rw [htr]; rfl, ⟨hall.1, hall.2.1, hall.2.2.1, hall.2.2.2.1, by rw [hall.2.2.2.2]; decide +kernel⟩, hall.2.2.2.2, ?_, ?_, ?_, ?_⟩,
    e, he, ho⟩
  · intro j u hj hne
    rw [htr] at hj
    have : j < [tr].length := (List.getElem?_eq_some_iff.1 hj).1
    simp at this
    omega
  · intro name l
    rw [hb]
    simp only [reduceCtorEq, false_iff]
    exact hg2 name l
  · rw [ha2, hb]; exact says1
  · rw [ha2, hb]; exact says2

/-- The conditions of C83 are met: the opacity of the `p` is 0 in a first update and becomes 1 in the next one, in which it is still
displayed as 0; half a second after it, of the 2 seconds of the transition, it is 0.25. -/
theorem C83_example : ∃ a a' outs e, (∀ pre f post, slideFirst :: [] = pre ++ f :: post → Turns wholePlatform onDoc slideCss 100 a (slideStart ++ pre) f 2 0 .Opacity 2 (.number 0)) ∧
    (∀ pre f post, slideChange :: [slideLast] = pre ++ f :: post → Turns wholePlatform onDoc slideCss 100 a (slideStart ++ slideFirst :: [] ++ pre) f 2 0 .Opacity 2 (.number 1)) ∧
    2 ≤ timeOf ([] ++ [slideChange]) ∧ timeOf [slideLast] = 1 / 2 ∧ animate (.number 0) (.number 1) (1 / 2 / 2) = .number (1 / 4) ∧
    a.run wholePlatform 100 (slideStart ++ slideFirst :: [] ++ slideChange :: [slideLast]) = .ok (a', outs) ∧ a'.screen.view.stage.tree.ctx 2 = some e ∧ e.selfOpacity = 1 / 4 := by
  have h := slideCheck_true
  unfold slideCheck at h
  split at h
  · cases h
  rename_i a ha
  split at h
  case h_2 => cases h
  rename_i a1 outs hr
  have hr' := App.evalRun_sound _ hr
  rw [Option.isSome_iff_exists] at h
  obtain ⟨r3, h⟩ := h
  rw [Option.bind_eq_some_iff] at h
  obtain ⟨⟨v1, b1, o1⟩, h1, h⟩ := h
  rw [Option.bind_eq_some_iff] at h
  obtain ⟨⟨v2, b2, o2⟩, h2, h3⟩ := h
  obtain ⟨v3, b3, o3⟩ := r3
  obtain ⟨k1, -, t1, -⟩ := slide_turns ha hr' rfl h1
  obtain ⟨k2, -, t2, -⟩ := slide_turns ha k1 rfl h2
  obtain ⟨k3, -, t3, e, he, ho⟩ := slide_turns ha k2 rfl h3
  simp only [Bool.false_eq_true, if_false, if_true] at t1 t2 t3
  refine ⟨a, b3, _, e, ?_, ?_, by decide +kernel, by decide +kernel, by rw [(C54_linear _ _ _ .px).1]; decide +kernel, by simpa using k3, he, ho⟩
  · intro pre f post hx
    match pre with
    | [] => simp only [List.nil_append, List.cons.injEq] at hx; rw [← hx.1]; simpa using t1
    | g :: pre => simp at hx
  · intro pre f post hx
    match pre with
    | [] => simp only [List.nil_append, List.cons.injEq] at hx; rw [← hx.1]; simpa using t2
    | [g] =>
      simp only [List.cons_append, List.nil_append, List.cons.injEq] at hx
      obtain ⟨rfl, rfl, -⟩ := hx
      simpa using t3
    | g :: g' :: pre => simp at hx

end Verif
