import Verif.Props.Look
import Verif.Props.WholeExamples
/-!
# C77: an element
-/
namespace Verif

/-- `<html><body><p @class="{k}">Hi</p></body></html>`. -/
def lookDoc : Html := .mk "html" [] none [.mk "body" [] none [.mk "p" [.attribute "class" [.binder (path1 "k")]] none [.mk "" [] (some [.string "Hi"]) []]]]

/-- `body{--c:#f00;font-size:20px} p{color:#00f;width:2em} .big{color:var(--c)} body>p{height:1rem} p:hover{opacity:0.5}`. -/
def lookCss : Css := ⟨[⟨[[.type "body"]], [.variable "--c" [.explicit (.color ⟨255, 0, 0, 255⟩)], .property .FontSize [[.explicit (.dimension ⟨20, .px⟩)]]]⟩,
  ⟨[[.type "p"]], [.property .Color [[.explicit (.color ⟨0, 0, 255, 255⟩)]], .property .Width [[.explicit (.dimension ⟨2, .em⟩)]]]⟩,
  ⟨[[.class "big"]], [.property .Color [[.var "--c"]]]⟩,
  ⟨[[.type "body", .combinator '>', .type "p"]], [.property .Height [[.explicit (.dimension ⟨1, .rem⟩)]]]⟩,
  ⟨[[.type "p", .pseudoClass "hover"]], [.property .Opacity [[.explicit (.number (1 / 2))]]]⟩], fun _ => none⟩

def lookFrames : List Frame := [⟨orderId, ⟨1, (800, 600), [.mouseMove (5, 5)]⟩, .obj [("k", .str "")]⟩]
def lookLast : Frame := ⟨orderReverse, ⟨1, (1000, 700), []⟩, .obj [("k", .str "very big")]⟩

theorem lookCss_supported : lookCss.Supported := by
  intro s hs
  simp only [lookCss, List.mem_cons, List.not_mem_nil, or_false] at hs
  rcases hs with rfl | rfl | rfl | rfl | rfl <;> simp [Simple.Faithful, Declaration.Singular, CssSpace]

instance (c : Char) : Decidable (CssSpace c) := by unfold CssSpace; infer_instance

/-- What is computed about the program. -/
def lookFacts (v : View) (a' : App) : Bool :=
  match v.stage.tree.ctx 1, v.stage.tree.ctx 2, a'.screen.view.stage.tree.ctx 2 with
  | some e1, some e2, some e =>
    decide (v.body = 1 ∧ v.stage.tree.par 2 = some 1 ∧ v.stage.tree.kids 1 = [2]) &&
    decide (e1.text = none ∧ e1.tag = "body" ∧ e1.style.length = 0) &&
    decide (e2.text = none ∧ e2.animators.length = 0 ∧ e2.transitions.length = 0 ∧ e2.style.length = 0) &&
    decide (lookCss.styles.map (matchesNow true viewPseudo v.stage.tree 1) = [true, false, false, false, false]) &&
    decide (lookCss.styles.map (matchesNow true viewPseudo v.stage.tree 2) = [false, true, true, true, true]) &&
    ((List.range v.stage.tree.next).all fun n => match v.stage.tree.ctx n with
      | some e => match e.attrs "class" with
        | some c => c.toList.all fun c => decide (CssSpace c → c = ' ')
        | none => true
      | none => true) &&
    decide (e.color = ⟨255, 0, 0, 255⟩ ∧ (a'.layouts 2).width = .length 40 ∧ e.selfOpacity = 1 / 2)
  | _, _, _ => false

def lookCheck : Bool :=
  match openApp wholePlatform 100 lookDoc lookCss with
  | .error _ => false
  | .ok a => match a.evalRun wholePlatform 100 lookFrames with
    | some (.ok (a1, _)) => match a1.screen.view.evalUpdates wholePlatform.inline 100 [lookLast.value] with
      | some (.ok v) => match a1.rest wholePlatform 100 lookLast.order lookLast.input (.ok v) with
        | .ok (a', _) => lookFacts v a' &&
          (match renderView (docEnv wholePlatform.translate wholePlatform.inline lookDoc) 100 (docBody lookDoc) with
            | .error _ => false
            | .ok (_, _, σ) => σ.regs.all (fun r => match r.2.params with | .tag _ _ => false | _ => true))
        | _ => false
      | _ => false
    | _ => false

theorem lookCheck_true : lookCheck = true := by decide +kernel

/-- The variables at the body. -/
def lookVars : Variables := fun name => if name = "--c" then some [.explicit (.color ⟨255, 0, 0, 255⟩)] else none

def lookBlock : List Declaration := [.property .Color [[.explicit (.color ⟨0, 0, 255, 255⟩)]], .property .Width [[.explicit (.dimension ⟨2, .em⟩)]],
  .property .Color [[.var "--c"]], .property .Height [[.explicit (.dimension ⟨1, .rem⟩)]], .property .Opacity [[.explicit (.number (1 / 2))]]]

theorem plainValue_key {k key : PropertyKey} {w : ComputedValue} {vs : List ComputedValue} (h : (k, w) ∈ plainValue key vs) : k = key := by
  unfold plainValue at h
  split at h
  · simp only [List.mem_singleton, Prod.mk.injEq] at h; exact h.1
  · cases h

/-- Only these indices of the block set something else than the rest. -/
theorem lookBlock_sets {j : Nat} {d : Descriptor} {w : ComputedValue} (h : SetsAt lookVars lookBlock j d w) :
    j = 0 ∧ d.key = .Color ∨ j = 1 ∧ d.key = .Width ∨ j = 2 ∧ d.key = .Color ∨ j = 3 ∧ d.key = .Height ∨ j = 4 ∧ d.key = .Opacity := by
  obtain ⟨x, hx, key, values, sh, vs, rfl, hv, hcomp, hmem⟩ := h
  match j with
  | 0 =>
    simp only [lookBlock, List.getElem?_cons_zero, Option.some.injEq, Declaration.property.injEq] at hx
    obtain ⟨rfl, rfl⟩ := hx
    have : expand .Color vs = plainValue .Color vs := rfl
    rw [this] at hmem
    simp [plainValue_key hmem]
  | 1 =>
    simp only [lookBlock, List.getElem?_cons_succ, List.getElem?_cons_zero, Option.some.injEq, Declaration.property.injEq] at hx
    obtain ⟨rfl, rfl⟩ := hx
    have : expand .Width vs = plainValue .Width vs := rfl
    rw [this] at hmem
    simp [plainValue_key hmem]
  | 2 =>
    simp only [lookBlock, List.getElem?_cons_succ, List.getElem?_cons_zero, Option.some.injEq, Declaration.property.injEq] at hx
    obtain ⟨rfl, rfl⟩ := hx
    have : expand .Color vs = plainValue .Color vs := rfl
    rw [this] at hmem
    simp [plainValue_key hmem]
  | 3 =>
    simp only [lookBlock, List.getElem?_cons_succ, List.getElem?_cons_zero, Option.some.injEq, Declaration.property.injEq] at hx
    obtain ⟨rfl, rfl⟩ := hx
    have : expand .Height vs = plainValue .Height vs := rfl
    rw [this] at hmem
    simp [plainValue_key hmem]
  | 4 =>
    simp only [lookBlock, List.getElem?_cons_succ, List.getElem?_cons_zero, Option.some.injEq, Declaration.property.injEq] at hx
    obtain ⟨rfl, rfl⟩ := hx
    have : expand .Opacity vs = plainValue .Opacity vs := rfl
    rw [this] at hmem
    simp [plainValue_key hmem]
  | j + 5 => simp [lookBlock] at hx

/-- The conditions of C77 are met: in the last update the `p` has the class `big` and the mouse is over it; it is red, with
the red of the variable of the body, although blue comes first, it is 40 pixels wide, which is twice the font size
of the body, and half transparent. -/
theorem C77_example : ∃ v a' e, Presents wholePlatform lookDoc lookCss lookLast v a' 2 ⟨.Color, 0⟩ (.color ⟨255, 0, 0, 255⟩) ∧
    Presents wholePlatform lookDoc lookCss lookLast v a' 2 ⟨.Width, 0⟩ (.dimension ⟨2, .em⟩) ∧
    Presents wholePlatform lookDoc lookCss lookLast v a' 2 ⟨.Opacity, 0⟩ (.number (1 / 2)) ∧
    a'.screen.view.stage.tree.ctx 2 = some e ∧ e.color = ⟨255, 0, 0, 255⟩ ∧ (a'.layouts 2).width = .length 40 ∧ e.selfOpacity = 1 / 2 := by
  have h := lookCheck_true
  unfold lookCheck at h
  split at h
  · cases h
  rename_i a ha
  split at h
  case h_2 => cases h
  rename_i a1 outs hr
  split at h
  case h_2 => cases h
  rename_i v hv
  split at h
  case h_2 => cases h
  rename_i a' out hu
  have hr' := App.evalRun_sound _ hr
  have hv' : a1.screen.view.update wholePlatform.inline lookLast.value = .ok v := by
    have := View.evalUpdates_sound _ _ _ _ _ hv
    simp only [View.updates] at this
    cases hx : a1.screen.view.update wholePlatform.inline lookLast.value with
    | error f => rw [hx] at this; cases this
    | ok w => rw [hx] at this; injection this with this; rw [this]
  have hu' : a1.update wholePlatform 100 lookLast.order lookLast.input lookLast.value = .ok (a', out) := by
    rw [App.update_rest, hv']; exact hu
  rw [Bool.and_eq_true] at h
  obtain ⟨h, hregs⟩ := h
  have hl := living_run lookFrames (Living.opened ha) hr'
  obtain ⟨wf, -, -, -⟩ := hl.bound hv'
  unfold lookFacts at h
  split at h
  case h_2 => cases h
  rename_i e1 e2 e he1 he2 he
  simp only [Bool.and_eq_true, decide_eq_true_eq, List.length_eq_zero_iff] at h
  obtain ⟨⟨⟨⟨⟨⟨⟨hb, hpar, hkids⟩, ht1, htag1, hs1⟩, ht2, ha2, htr2, hs2⟩, hm1⟩, hm2⟩, hplain⟩, hc, hw, ho⟩ := h
  have hbind : ∀ path b, b ∈ v.vm.bindings path → ∀ n k, b.params ≠ .tag n k := by
    obtain ⟨v0, hr0, htw0⟩ := (session_ok hl.session).twin
    obtain ⟨v2, hr2, htw, -⟩ := twin_update hr0 htw0 hv'
    obtain ⟨σ, hσ, hk⟩ := reached_kept hr2
    rw [hσ] at hregs
    rw [List.all_eq_true] at hregs
    intro path b hb n k hbk
    rw [htw.vm, hk.good.bindings, mem_lookupRegs] at hb
    have := hregs _ hb
    simp [hbk] at this
  have hspaces : ∀ s ∈ lookCss.styles, ∀ c ∈ s.selectors, ∀ x ∈ c, x.PlainIn v.stage.tree := by
    have : v.stage.tree.PlainAt "class" := by
      intro n e x hn hx c hcx hsp
      have := List.all_eq_true.1 hplain n (List.mem_range.2 (wf.exist n (by rw [hn]; rfl)))
      simp only [hn, hx] at this
      exact of_decide_eq_true (List.all_eq_true.1 this c hcx) hsp
    intro s hs
    simp only [lookCss, List.mem_cons, List.not_mem_nil, or_false] at hs
    rcases hs with rfl | rfl | rfl | rfl | rfl <;> simp [Simple.PlainIn, this]
  have hund : lookCss.Undisturbed v.vm.bindings := by
    refine ⟨fun path b hb n => ⟨hbind path b hb n _, hbind path b hb n _⟩, ?_⟩
    intro s hs hch m k _ ht
    simp only [lookCss, List.mem_cons, List.not_mem_nil, or_false] at hs
    rcases hs with rfl | rfl | rfl | rfl | rfl
    case inr.inr.inr.inl => simp [Style.Tests] at ht
    all_goals simp [Style.HasChild] at hch
  have hlu : LastUpdate wholePlatform lookDoc lookCss lookLast v a' :=
    ⟨⟨100, 100, a, lookFrames, a1, outs, out, ha, hr', hv', hu'⟩, orderReverse_fair, lookCss_supported, hund, hspaces⟩
  have hd1 := declarationsFor_now true wf he1 hspaces lookCss_supported
  have hd2 := declarationsFor_now true wf he2 hspaces lookCss_supported
  simp only [lookCss, List.map_cons, List.map_nil, List.cons.injEq, and_true] at hm1 hm2
  obtain ⟨a11, a12, a13, a14, a15⟩ := hm1
  obtain ⟨a21, a22, a23, a24, a25⟩ := hm2
  rw [hs1] at hd1
  rw [hs2] at hd2
  simp only [lookCss, List.filter_cons, List.filter_nil, a11, a12, a13, a14, a15, a21, a22, a23, a24, a25, if_true, Bool.false_eq_true, if_false,
    List.map_cons, List.map_nil, List.flatten_cons, List.flatten_nil, List.append_nil, List.cons_append, List.nil_append] at hd1 hd2
  replace hd2 : lookCss.declarationsFor v.stage.tree 2 = lookBlock := hd2
  have hvars : ∀ name l, lookVars name = some l ↔ 2 ≠ v.body ∧ ∃ p, v.stage.tree.par 2 = some p ∧ lookCss.Gives v.stage.tree v.body name l p := by
    intro name l
    rw [hb, hpar]
    have hlast : (givenTo name (lookCss.declarationsFor v.stage.tree 1)).getLast? = lookVars name := by
      rw [show lookCss.declarationsFor v.stage.tree 1 = _ from hd1]
      unfold lookVars
      by_cases hn : "--c" = name
      · subst hn; simp [givenTo]
      · rw [if_neg (Ne.symm hn)]; simp [givenTo, hn]
    constructor
    · intro h
      exact ⟨by decide, 1, rfl, .here (by rw [hlast]; exact h)⟩
    · rintro ⟨-, p, hp, hg⟩
      injection hp with hp; subst hp
      cases hg with
      | here hg => rw [← hlast]; exact hg
      | up hne => exact absurd rfl hne
  have mk : ∀ d val i, SetsAt lookVars lookBlock i d val → (∀ j w, i < j → ¬ SetsAt lookVars lookBlock j d w) →
      Presents wholePlatform lookDoc lookCss lookLast v a' 2 d val := by
    intro d val i h1 h2
    refine ⟨hlu, ?_, ⟨e2, he2, ht2, ha2, htr2, by rw [hs2]; simp⟩, lookVars, i, hvars, by rw [hd2]; exact h1, by rw [hd2]; exact h2⟩
    rw [hb]
    exact .child .body he1 ht1 (by rw [htag1]; decide) (by rw [hkids]; simp)
  refine ⟨v, a', e, mk _ _ 2 ?_ ?_, mk _ _ 1 ?_ ?_, mk _ _ 4 ?_ ?_, he, hc, hw, ho⟩
  · refine ⟨_, rfl, .Color, _, _, [.color ⟨255, 0, 0, 255⟩], rfl, rfl, ?_, by decide +kernel⟩
    have := Computes.known (vars := scopeAfter lookVars (lookBlock.take 2)) (name := "--c") (ds := []) (b := []) (a := [.color ⟨255, 0, 0, 255⟩])
      (by simp [scopeAfter, lookBlock, givenTo, lookVars]) (.explicit .nil) .nil
    exact this
  · intro j w hj hs
    rcases lookBlock_sets hs with h | h | h | h | h <;> first | omega | exact absurd h.2 (by decide)
  · exact ⟨_, rfl, .Width, _, _, [.dimension ⟨2, .em⟩], rfl, rfl, .explicit .nil, by decide +kernel⟩
  · intro j w hj hs
    rcases lookBlock_sets hs with h | h | h | h | h <;> first | omega | exact absurd h.2 (by decide)
  · exact ⟨_, rfl, .Opacity, _, _, [.number (1 / 2)], rfl, rfl, .explicit .nil, by decide +kernel⟩
  · intro j w hj hs
    rcases lookBlock_sets hs with h | h | h | h | h <;> first | omega | exact absurd h.2 (by decide)

theorem look_body : docBody lookDoc = .mk "body" [] none [.mk "p" [.attribute "class" [.binder (path1 "k")]] none [.mk "" [] (some [.string "Hi"]) []]] := rfl

/-- The conditions of `C77_nothing_moves` are met by the same document, stylesheet and history. -/
theorem C77_example_still : lookCss.NeverMoves ∧ PlainDocument wholePlatform lookDoc ∧ (∀ f ∈ lookFrames, f.order.Fair) ∧
    ∃ a a1 outs v, openApp wholePlatform 100 lookDoc lookCss = .ok a ∧ a.run wholePlatform 100 lookFrames = .ok (a1, outs) ∧
      a1.screen.view.update wholePlatform.inline lookLast.value = .ok v := by
  refine ⟨?_, ⟨?_, everyNode_of 4 ?_ ?_ ?_⟩, ?_, ?_⟩
  · intro s hs
    simp only [lookCss, List.mem_cons, List.not_mem_nil, or_false] at hs
    rcases hs with rfl | rfl | rfl | rfl | rfl <;> simp [Declaration.Still, motionProperties]
  · rw [look_body]; simp [Html.PlainStyle, Html.bindings]
  · rw [look_body]; simp [Html.depth]
  · rw [look_body]
    intro c hc
    simp only [Html.nodes, Html.children, List.flatMap_cons, List.flatMap_nil, List.append_nil, List.cons_append,
      List.nil_append, List.mem_cons, List.not_mem_nil, or_false] at hc
    rcases hc with rfl | rfl <;> simp [Html.PlainStyle, Html.bindings]
  · have : ((beforeBody lookDoc.children).filterMap Html.definition).map Prod.snd = [] := rfl
    rw [this]
    intro t ht
    cases ht
  · intro f hf
    simp only [lookFrames, List.mem_singleton] at hf
    subst hf; exact orderId_fair
  · have h := lookCheck_true
    unfold lookCheck at h
    split at h
    · cases h
    rename_i a ha
    split at h
    case h_2 => cases h
    rename_i a1 outs hr
    split at h
    case h_2 => cases h
    rename_i v hv
    refine ⟨a, a1, outs, v, ha, App.evalRun_sound _ hr, ?_⟩
    have := View.evalUpdates_sound _ _ _ _ _ hv
    simp only [View.updates] at this
    cases hx : a1.screen.view.update wholePlatform.inline lookLast.value with
    | error f => rw [hx] at this; cases this
    | ok w => rw [hx] at this; injection this with this; rw [this]

end Verif
