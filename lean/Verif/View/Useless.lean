import Verif.Spec.Useless
import Verif.Props.Whole
/-!
# Lemmas about rules that cannot match (C102)
-/
namespace Verif

variable {p : Platform}

/-! ## Matching -/

/-- What stops a match in a tree. -/
def Simple.Stops (pc : PseudoMatcher) (t : Tree) : Simple → Prop
  | .combinator c => c ≠ '>' ∧ c ≠ '+'
  | x => ∀ n e, t.ctx n = some e → matchSimple pc e x = false

theorem Simple.Stops.part {pc : PseudoMatcher} {t : Tree} {x : Simple} (h : x.Stops pc t) (hx : x.isPart = true) {n : NodeId} {e : Element}
    (he : t.ctx n = some e) : matchSimple pc e x = false := by
  cases x <;> first | exact h n e he | simp [Simple.isPart] at hx

theorem matchLoop_stopped {checks pc} {t : Tree} {x : Simple} (hx : x.Stops pc t) (ss : List Simple) (hm : x ∈ ss) {n : NodeId} {e : Element}
    (he : t.ctx n = some e) : matchLoop checks pc t ss n e ≠ .ok true := by
  by_cases hp : x.isPart = true
  · induction ss generalizing n e with
    | nil => simp at hm
    | cons s ss ih =>
      by_cases hs : s.isPart = true
      · rw [matchLoop_part hs]
        rcases List.mem_cons.1 hm with rfl | hm
        · rw [hx.part hp he]; simp
        · split
          · exact ih hm he
          · simp
      · cases s with
        | combinator d =>
          have hm' : x ∈ ss := by
            rcases List.mem_cons.1 hm with rfl | hm
            · simp [Simple.isPart] at hp
            · exact hm
          simp only [matchLoop]
          split
          · simp
          · simp
          · split
            · simp
            · rename_i hc; exact ih hm' hc
        | _ => simp [Simple.isPart] at hs
  · cases x with
    | combinator c => exact matchLoop_unsupported hx.1 hx.2 ss hm n e
    | _ => simp [Simple.isPart] at hp

theorem matchStyle_stopped {checks pc} {t : Tree} {root body : NodeId} (hw : t.Wf root body) {n : NodeId} (hn : (t.ctx n).isSome) {s : Style}
    (hplus : s.NoPlus) (hs : ∀ sel ∈ s.selectors, ∃ x ∈ sel, x.Stops pc t) : matchStyle checks pc t s n = .ok false := by
  obtain ⟨b, h1, h2⟩ := matchAny_total (checks := checks) (pc := pc) hw hn s.selectors hplus
  unfold matchStyle
  rw [h1]
  cases b with
  | false => rfl
  | true =>
    obtain ⟨c, hc, hm⟩ := h2.1 rfl
    obtain ⟨x, hx, hst⟩ := hs c hc
    unfold matchComplex at hm
    obtain ⟨e, he⟩ := Option.isSome_iff_exists.1 hn
    rw [he] at hm
    exact absurd hm (matchLoop_stopped hst _ (by simpa using hx) he)

theorem splitSpace_infix (l : List Char) : (∃ w ws, splitSpace l = w :: ws ∧ w <+: l) ∧ ∀ w ∈ splitSpace l, w <:+: l := by
  induction l with
  | nil => exact ⟨⟨[], [], rfl, List.nil_prefix⟩, by simp [splitSpace]⟩
  | cons c cs ih =>
    obtain ⟨⟨w, ws, h1, h2⟩, h3⟩ := ih
    unfold splitSpace
    split
    · refine ⟨⟨[], _, rfl, List.nil_prefix⟩, fun w hw => ?_⟩
      rcases List.mem_cons.1 hw with rfl | hw
      · exact List.nil_infix
      · exact (h3 w hw).trans (List.suffix_cons c cs).isInfix
    · rw [h1]
      simp only
      have hp : c :: w <+: c :: cs := (List.prefix_cons_inj c).2 h2
      refine ⟨⟨c :: w, ws, rfl, hp⟩, fun x hx => ?_⟩
      rcases List.mem_cons.1 hx with rfl | hx
      · exact hp.isInfix
      · exact (h3 x (by rw [h1]; exact List.mem_cons_of_mem _ hx)).trans (List.suffix_cons c cs).isInfix

theorem hasWord_infix {text word : String} (h : hasWord text word = true) : word.toList <:+: text.toList := by
  unfold hasWord at h
  obtain ⟨w, h1, h2⟩ := List.any_eq_true.1 h
  rw [← (beq_iff_eq.1 h2)]
  exact (splitSpace_infix text.toList).2 w h1

/-! ## What stays of a view -/

/-- Types and unbound attributes of the elements of a tree are those of the view. -/
def Persists (v : View) (t : Tree) : Prop :=
  ∀ n e, t.ctx n = some e → ∃ e0, v.stage.tree.ctx n = some e0 ∧ e.tag = e0.tag ∧ ∀ k, ¬ BindsAttr v.vm.bindings n k → e.attrs k = e0.attrs k

theorem Simple.Hopeless.stops {v : View} {t : Tree} (ht : Persists v t) {x : Simple} (h : x.Hopeless v) : x.Stops viewPseudo t := by
  cases x with
  | all => exact h.elim
  | type name =>
    intro n e he
    obtain ⟨e0, h0, ht, -⟩ := ht n e he
    simp only [matchSimple, ht, beq_eq_false_iff_ne]
    exact h n e0 h0
  | root =>
    intro n e he
    obtain ⟨e0, h0, ht, -⟩ := ht n e he
    simp only [matchSimple, ht, beq_eq_false_iff_ne]
    exact h n e0 h0
  | id name =>
    intro n e he
    obtain ⟨e0, h0, -, ha⟩ := ht n e he
    obtain ⟨hb, h1⟩ := h n e0 h0
    simp only [matchSimple, ha _ hb]
    split
    · rename_i i hi
      rw [hi] at h1
      simp only [beq_eq_false_iff_ne]
      exact fun hc => h1 (by rw [hc])
    · rfl
  | «class» name =>
    intro n e he
    obtain ⟨e0, h0, -, ha⟩ := ht n e he
    obtain ⟨hb, h1⟩ := h n e0 h0
    simp only [matchSimple, ha _ hb]
    split
    · rename_i i hi
      exact Bool.eq_false_iff.2 fun hc => h1 i hi (hasWord_infix hc)
    · rfl
  | «attribute» name m value =>
    intro n e he
    obtain ⟨e0, h0, -, ha⟩ := ht n e he
    obtain ⟨hb, h1⟩ := h n e0 h0
    simp only [matchSimple, ha _ hb, h1]
  | pseudoClass name =>
    intro n e he
    simp only [Simple.Hopeless, List.mem_cons, List.not_mem_nil, or_false, not_or] at h
    simp only [matchSimple, viewPseudo, h.1, h.2.1, h.2.2.1, h.2.2.2, if_false]
  | pseudoElement name => intro n e he; rfl
  | combinator c => exact h

theorem Simple.Stops.any {t : Tree} {x : Simple} (h : x.Stops viewPseudo t) : x.Stops anyPseudo t ∨ ∃ name, x = .pseudoClass name := by
  cases x with
  | pseudoClass name => exact .inr ⟨name, rfl⟩
  | _ => exact .inl h

theorem Kept.persists {σ : Render} {v0 v : View} (h0 : Kept σ v0) (h : Kept σ v) : Persists v0 v.stage.tree := by
  intro n e he
  obtain ⟨e1, h1, -, t1, -⟩ := h.defs.symm.ctx he
  obtain ⟨e0, g1, g2⟩ := h0.attrs n e1 h1
  obtain ⟨e0', k1, -, k2, -⟩ := h0.defs.ctx h1
  rw [g1] at k1; injection k1 with k1; subst k1
  obtain ⟨e', l1, l2⟩ := h.attrs n e1 h1
  rw [he] at l1; injection l1 with l1; subst l1
  refine ⟨e0, g1, by rw [k2, t1], fun k hk => ?_⟩
  rw [h0.good.bindings] at hk
  rw [l2 k hk, g2 k hk]

theorem Kept.persists_rendered {σ : Render} {v0 : View} (h0 : Kept σ v0) : Persists v0 σ.tree := by
  intro n e he
  obtain ⟨e0, g1, g2⟩ := h0.attrs n e he
  obtain ⟨e0', k1, -, k2, -⟩ := h0.defs.ctx he
  rw [g1] at k1; injection k1 with k1; subst k1
  exact ⟨e0, g1, k2.symm, fun k hk => by rw [h0.good.bindings] at hk; rw [g2 k hk]⟩

/-! ## The kept rules -/

/-- Both fail alike, or both succeed with related results. -/
inductive ExRel {ε α β : Type} (R : α → β → Prop) : Except ε α → Except ε β → Prop
  | error (e : ε) : ExRel R (.error e) (.error e)
  | ok {a : α} {b : β} : R a b → ExRel R (.ok a) (.ok b)

/-- A rule that is kept, and has to be checked for every frame. -/
def ElementStyle.Extra (U : Style → Prop) (x : ElementStyle) : Prop := ∃ s, x = .dynamic s ∧ U s

theorem classify_more {checks : Bool} {t : Tree} {n : NodeId} {e : Element} {U : Style → Prop}
    (hU : ∀ s, U s → ∃ b, matchStyle checks anyPseudo t s n = .ok b ∧ (b = true → s.hasPseudoSelector = true)) {l l' : List Style} (h : WithMore U l l') :
    ExRel (WithMore (ElementStyle.Extra U)) (classify checks t n e l) (classify checks t n e l') := by
  induction h with
  | nil => exact .ok .nil
  | @same x l l' _ ih =>
    rw [classify, classify]
    cases matchStyle checks anyPseudo t x n with
    | error f => exact .error f
    | ok b =>
      simp only
      revert ih
      generalize classify checks t n e l = A
      generalize classify checks t n e l' = B
      intro ih
      cases ih with
      | error f => exact .error f
      | ok h =>
        simp only
        cases b <;> simp only [Bool.false_eq_true, if_false, if_true] <;> split <;> first | exact .ok h | exact .ok (.same h)
  | @more x l l' hx _ ih =>
    obtain ⟨b, h1, h2⟩ := hU x hx
    rw [classify.eq_2, h1]
    simp only
    revert ih
    generalize classify checks t n e l = A
    generalize classify checks t n e l' = B
    intro ih
    cases ih with
    | error f => exact .error f
    | ok h =>
      simp only
      cases b with
      | true =>
        simp only [if_true, h2 rfl, Bool.not_true, Bool.and_false, Bool.false_eq_true, if_false]
        exact .ok (.more ⟨x, rfl, hx⟩ h)
      | false =>
        simp only [Bool.false_eq_true, if_false]
        split
        · exact .ok h
        · exact .ok (.more ⟨x, rfl, hx⟩ h)

theorem keepRules_extended {checks : Bool} {t : Tree} {U : Style → Prop}
    (hU : ∀ s n, (t.ctx n).isSome → U s → ∃ b, matchStyle checks anyPseudo t s n = .ok b ∧ (b = true → s.hasPseudoSelector = true)) {l l' : List Style}
    (h : WithMore U l l') (depth : Nat) : ∀ {n : NodeId} {k k' : NodeId → List ElementStyle}, (∀ m, WithMore (ElementStyle.Extra U) (k m) (k' m)) →
      ExRel (fun k k' => ∀ m, WithMore (ElementStyle.Extra U) (k m) (k' m)) (keepRules checks l t depth n k) (keepRules checks l' t depth n k') := by
  induction depth with
  | zero => intro n k k' _; exact .error _
  | succ depth ih =>
    intro n k k' hk
    rw [keepRules, keepRules]
    cases he : t.ctx n with
    | none => exact .error _
    | some e =>
      simp only
      have hc := classify_more (checks := checks) (e := e) (fun s hs => hU s n (by rw [he]; rfl) hs) h
      revert hc
      generalize classify checks t n e l = A
      generalize classify checks t n e l' = B
      intro hc
      cases hc with
      | error f => exact .error _
      | @ok c c' hc =>
        simp only
        have loop : ∀ (cs : List NodeId) {k k' : NodeId → List ElementStyle}, (∀ m, WithMore (ElementStyle.Extra U) (k m) (k' m)) →
            ExRel (fun k k' => ∀ m, WithMore (ElementStyle.Extra U) (k m) (k' m)) (keepEach (fun kept c => keepRules checks l t depth c kept) cs k)
              (keepEach (fun kept c => keepRules checks l' t depth c kept) cs k') := by
          intro cs
          induction cs with
          | nil => intro k k' hk; exact .ok hk
          | cons c cs ihc =>
            intro k k' hk
            simp only [keepEach]
            have h1 := ih (n := c) hk
            revert h1
            generalize keepRules checks l t depth c k = A
            generalize keepRules checks l' t depth c k' = B
            intro h1
            cases h1 with
            | error f => exact .error _
            | ok h1 => exact ihc h1
        refine loop _ fun m => ?_
        by_cases hm : m = n
        · subst hm; rw [upd_same, upd_same]; exact hc
        · rw [upd_other _ _ hm, upd_other _ _ hm]; exact hk m

theorem applied_more {checks : Bool} {t : Tree} {n : NodeId} {U : Style → Prop} (hU : ∀ s, U s → matchStyle checks viewPseudo t s n = .ok false)
    {l l' : List ElementStyle} (h : WithMore (ElementStyle.Extra U) l l') : applied checks viewPseudo t n l' = applied checks viewPseudo t n l := by
  induction h with
  | nil => rfl
  | @same x l l' _ ih => cases x <;> simp only [applied, ih]
  | @more x l l' hx _ ih =>
    obtain ⟨s, rfl, hs⟩ := hx
    simp only [applied, hU s hs, ih]
    cases applied checks viewPseudo t n l <;> rfl

/-! ## Styling -/

theorem playAnimators_rules (env : FrameEnv) (rules' : NodeId → List ElementStyle) (n : NodeId) (vars : Variables) (l : List Animator) :
    ∀ (i : Nat) (style : ComputedStyle), playAnimators { env with rules := rules' } n vars i l style = playAnimators env n vars i l style := by
  induction l with
  | nil => intros; rfl
  | cons a l ih =>
    intro i style
    rw [playAnimators, playAnimators]
    simp only [ih]

theorem styleElement_rules {env : FrameEnv} {rules' : NodeId → List ElementStyle} {t : Tree} {n : NodeId}
    (h : applied env.checks viewPseudo t n (rules' n) = applied env.checks viewPseudo t n (env.rules n)) (parent : Element) (sizes : Sizes) (vars : Variables)
    (l : LayoutStyle) (e : Element) : styleElement { env with rules := rules' } t n parent sizes vars l e = styleElement env t n parent sizes vars l e := by
  unfold styleElement
  simp only [h, playAnimators_rules]

theorem styleTree_rules {env : FrameEnv} {rules' : NodeId → List ElementStyle} {t : Tree} (hl : Linked t)
    (h : ∀ n, (t.ctx n).isSome → applied env.checks viewPseudo t n (rules' n) = applied env.checks viewPseudo t n (env.rules n)) (depth : Nat) :
    ∀ {n : NodeId} {sizes : Sizes} {vars : Variables} {s : Styled}, Restyled t s.tree →
      styleTree { env with rules := rules' } depth n sizes vars s = styleTree env depth n sizes vars s := by
  induction depth with
  | zero => intros; rfl
  | succ depth ih =>
    intro n sizes vars s hr
    rw [styleTree, styleTree]
    cases hp : (s.tree.par n).bind s.tree.ctx with
    | none => rfl
    | some parent =>
      cases he : s.tree.ctx n with
      | none => rfl
      | some e =>
        simp only
        split
        · rfl
        · have hn : (t.ctx n).isSome := by
            cases hc : t.ctx n with
            | none => rw [hr.gone n hc] at he; cases he
            | some _ => rfl
          rw [styleElement_rules (by rw [applied_restyled hr, applied_restyled hr]; exact h n hn)]
          split
          · rfl
          · rename_i l e' vars' hse
            split
            · rfl
            · obtain ⟨f1, f2, -⟩ := styleElement_form hse
              have hr1 : Restyled t (s.put n l e').tree := hr.trans (s.put_restyled he f1 f2 l)
              have loop : ∀ (cs : List NodeId) (s : Styled), Restyled t s.tree →
                  forEach (fun s c => styleTree { env with rules := rules' } depth c (sizes.under e') vars' s) cs s =
                    forEach (fun s c => styleTree env depth c (sizes.under e') vars' s) cs s := by
                intro cs
                induction cs with
                | nil => intros; rfl
                | cons c cs ihc =>
                  intro s hs
                  simp only [forEach]
                  rw [ih hs]
                  split
                  · rfl
                  · rename_i s1 h1
                    exact ihc s1 (hs.trans (styleTree_spec _ (hl.restyled hs) h1).1.restyled)
              exact loop _ _ hr1

/-! ## The whole program -/

/-- The same program with rules put in. -/
structure App.More (U : Style → Prop) (a a' : App) : Prop where
  screen : a'.screen = a.screen
  layouts : a'.layouts = a.layouts
  animations : a'.css.animations = a.css.animations
  kept : ∀ m, WithMore (ElementStyle.Extra U) (a.kept m) (a'.kept m)

theorem useless_match {v0 : View} {t : Tree} {root body : NodeId} (hw : t.Wf root body) (ht : Persists v0 t) {checks : Bool} {s : Style} (hs : s.Useless v0)
    {n : NodeId} (hn : (t.ctx n).isSome) : matchStyle checks viewPseudo t s n = .ok false :=
  matchStyle_stopped hw hn hs.1 fun sel hsel => by
    obtain ⟨x, hx, hh⟩ := hs.2 sel hsel
    exact ⟨x, hx, hh.stops ht⟩

theorem useless_any {v0 : View} {t : Tree} {root body : NodeId} (hw : t.Wf root body) (ht : Persists v0 t) {checks : Bool} {s : Style} (hs : s.Useless v0)
    {n : NodeId} (hn : (t.ctx n).isSome) : ∃ b, matchStyle checks anyPseudo t s n = .ok b ∧ (b = true → s.hasPseudoSelector = true) := by
  by_cases hps : s.hasPseudoSelector = true
  · obtain ⟨b, h1, -⟩ := matchAny_total (checks := checks) (pc := anyPseudo) hw hn s.selectors hs.1
    exact ⟨b, h1, fun _ => hps⟩
  · refine ⟨false, matchStyle_stopped hw hn hs.1 fun sel hsel => ?_, by simp⟩
    obtain ⟨x, hx, hh⟩ := hs.2 sel hsel
    rcases (hh.stops ht).any with h | ⟨name, rfl⟩
    · exact ⟨x, hx, h⟩
    · refine absurd ?_ hps
      unfold Style.hasPseudoSelector
      rw [List.any_eq_true]
      exact ⟨sel, hsel, by rw [List.any_eq_true]; exact ⟨_, hx, rfl⟩⟩

theorem openApp_extended {fuel : Nat} {document : Html} {css css' : Css} {a0 : App} {css0 : Css} (h0 : openApp p fuel document css0 = .ok a0)
    (hm : WithMore (Style.Useless a0.screen.view) css.styles css'.styles) (ha : css'.animations = css.animations) :
    ExRel (App.More (Style.Useless a0.screen.view)) (openApp p fuel document css) (openApp p fuel document css') := by
  obtain ⟨σ, hop⟩ := openApp_opened h0
  have hw := (renderView_ok hop.rendered).wf
  obtain ⟨σ', hσ', hk⟩ := reached_kept (.opened hop.view)
  rw [hop.rendered] at hσ'
  simp only [Except.ok.injEq, Prod.mk.injEq, true_and] at hσ'
  subst hσ'
  have hr := keepRules_extended (checks := p.checks) (t := σ.tree) (U := Style.Useless a0.screen.view)
    (fun s n hn hs => useless_any hw hk.persists_rendered hs hn) hm fuel (n := a0.screen.view.body) (k := fun _ => []) (k' := fun _ => []) (fun _ => .nil)
  unfold openApp
  rw [collect_doc]
  simp only
  rw [show renderView ⟨templateFor document.children, p.translate, p.inline⟩ fuel (docBody document) = _ from hop.rendered]
  simp only
  split
  · exact .error _
  · revert hr
    generalize keepRules p.checks css.styles σ.tree fuel a0.screen.view.body (fun _ => []) = A
    generalize keepRules p.checks css'.styles σ.tree fuel a0.screen.view.body (fun _ => []) = B
    intro hr
    cases hr with
    | error f => exact .error _
    | ok hr =>
      simp only
      split
      · exact .error _
      · exact .ok ⟨rfl, rfl, ha, hr⟩

/-- Types and unbound attributes never change. -/
theorem Living.persists {fuel : Nat} {document : Html} {css0 : Css} {a0 a : App} (h0 : openApp p fuel document css0 = .ok a0) (h : Living p fuel document a)
    {value : Json} {v : View} (hv : a.screen.view.update p.inline value = .ok v) : Persists a0.screen.view v.stage.tree := by
  obtain ⟨σ, hop⟩ := openApp_opened h0
  obtain ⟨σ0, hσ0, hk0⟩ := reached_kept (.opened hop.view)
  obtain ⟨v0, hr0, htw0⟩ := (session_ok h.session).twin
  obtain ⟨v2, hr2, htw, -⟩ := twin_update hr0 htw0 hv
  obtain ⟨σ', hσ', hk2⟩ := reached_kept hr2
  rw [hσ0] at hσ'
  simp only [Except.ok.injEq, Prod.mk.injEq] at hσ'
  obtain ⟨-, -, rfl⟩ := hσ'
  exact hk0.persists (kept_twin hk2 htw)

theorem App.More.update {fuel fuel' : Nat} {document : Html} {css0 : Css} {a0 a a' : App} (h0 : openApp p fuel document css0 = .ok a0) (h : Living p fuel document a)
    (hm : App.More (Style.Useless a0.screen.view) a a') (order : FrameOrder) (input : Input) (value : Json) :
    ExRel (fun r r' => App.More (Style.Useless a0.screen.view) r.1 r'.1 ∧ r'.2 = r.2) (a.update p fuel' order input value) (a'.update p fuel' order input value) := by
  obtain ⟨sc, css, kept, layouts⟩ := a
  obtain ⟨sc', css', kept', layouts'⟩ := a'
  obtain ⟨h1, h2, h3, h4⟩ := hm
  simp only at h1 h2 h3 h4
  subst h1 h2
  unfold App.update
  simp only
  cases hv : sc'.view.update p.inline value with
  | error f => exact .error _
  | ok v =>
    simp only
    obtain ⟨wf, -⟩ := h.bound hv
    have hp := h.persists h0 hv
    have key := styleTree_rules (env := App.env p fuel' order ⟨sc', css, kept, layouts'⟩ input.time) (rules' := kept') (linked_of_wf wf)
      (fun n hn => applied_more (fun s hs => useless_match wf hp hs hn) (h4 n)) fuel' (n := v.body)
      (sizes := ⟨16, 16, ⟨0, 0, 0, 0⟩, input.viewport.1, input.viewport.2⟩) (vars := fun _ => none)
      (s := ⟨v.stage.tree, upd layouts' v.root (resizeRoot input.viewport (layouts' v.root))⟩) (Restyled.refl _)
    have henv : App.env p fuel' order ⟨sc', css', kept', layouts'⟩ input.time =
        { App.env p fuel' order ⟨sc', css, kept, layouts'⟩ input.time with rules := kept' } := by
      unfold App.env; simp only [h3]
    unfold styleView
    rw [henv, key]
    split
    · exact .error _
    · split
      · exact .error _
      · split
        · exact .error _
        · exact .ok ⟨⟨rfl, rfl, h3, h4⟩, rfl⟩

theorem App.More.run {fuel fuel' : Nat} {document : Html} {css0 : Css} {a0 : App} (h0 : openApp p fuel document css0 = .ok a0) (fs : List Frame) :
    ∀ {a a' : App}, Living p fuel document a → App.More (Style.Useless a0.screen.view) a a' →
      ExRel (fun r r' => App.More (Style.Useless a0.screen.view) r.1 r'.1 ∧ r'.2 = r.2) (a.run p fuel' fs) (a'.run p fuel' fs) := by
  induction fs with
  | nil => intro a a' _ hm; exact .ok ⟨hm, rfl⟩
  | cons f fs ih =>
    intro a a' h hm
    simp only [App.run]
    have hu := hm.update (fuel' := fuel') h0 h f.order f.input f.value
    cases hA : a.update p fuel' f.order f.input f.value with
    | error e =>
      rw [hA] at hu
      generalize a'.update p fuel' f.order f.input f.value = B at hu
      cases hu
      exact .error _
    | ok r =>
      rw [hA] at hu
      have hl := h.updated (show a.update p fuel' f.order f.input f.value = .ok (r.1, r.2) from hA)
      generalize a'.update p fuel' f.order f.input f.value = B at hu
      cases hu with
      | ok hu =>
        rename_i r'
        obtain ⟨r1, o1⟩ := r
        obtain ⟨r2, o2⟩ := r'
        obtain ⟨h1, h2⟩ := hu
        simp only at h1 h2 hl ⊢
        subst h2
        have h3 := ih hl h1
        revert h3
        generalize r1.run p fuel' fs = A
        generalize r2.run p fuel' fs = B
        intro h3
        cases h3 with
        | error e => exact .error _
        | ok h3 =>
          rename_i x y
          obtain ⟨x1, x2⟩ := x
          obtain ⟨y1, y2⟩ := y
          obtain ⟨h4, h5⟩ := h3
          simp only at h4 h5 ⊢
          subst h5
          exact .ok ⟨h4, rfl⟩

end Verif
