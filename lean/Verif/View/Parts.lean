import Verif.Spec.Parts
import Verif.View.Wordings
import Verif.View.Copies
import Verif.Props.Whole
import Verif.View.Placement
/-!
# Lemmas about the rules that match (C109)
-/
namespace Verif

variable {p : Platform}

/-! ## Opening -/

theorem classify_works {checks : Bool} {t : Tree} {root body : NodeId} (hw : t.Wf root body) {n : NodeId} (hn : (t.ctx n).isSome) {e : Element} {l : List Style}
    (hp : ∀ s ∈ l, s.NoPlus) : ∃ k, classify checks t n e l = .ok k := by
  rcases classify_sorts checks t n e l with ⟨⟨s, h1, f, h2⟩, -⟩ | ⟨-, h⟩
  · obtain ⟨b, h3, -⟩ := matchAny_total (checks := checks) (pc := anyPseudo) hw hn s.selectors (hp s h1)
    unfold matchStyle at h2
    rw [h3] at h2; cases h2
  · exact ⟨_, h⟩

theorem keepRules_either {checks : Bool} {t : Tree} {root body : NodeId} (hw : t.Wf root body) {l l' : List Style} (hp : ∀ s ∈ l, s.NoPlus) (hp' : ∀ s ∈ l', s.NoPlus)
    (depth : Nat) : ∀ {n : NodeId} {k k' : NodeId → List ElementStyle}, ExRel (fun _ _ => True) (keepRules checks l t depth n k) (keepRules checks l' t depth n k') := by
  induction depth with
  | zero => intro n k k'; exact .error _
  | succ depth ih =>
    intro n k k'
    rw [keepRules, keepRules]
    cases he : t.ctx n with
    | none => exact .error _
    | some e =>
      simp only
      obtain ⟨c, hc⟩ := classify_works (checks := checks) hw (n := n) (e := e) (by rw [he]; rfl) hp
      obtain ⟨c', hc'⟩ := classify_works (checks := checks) hw (n := n) (e := e) (by rw [he]; rfl) hp'
      rw [hc, hc']
      simp only
      have loop : ∀ (cs : List NodeId) {k k' : NodeId → List ElementStyle},
          ExRel (fun _ _ => True) (keepEach (fun kept c => keepRules checks l t depth c kept) cs k) (keepEach (fun kept c => keepRules checks l' t depth c kept) cs k') := by
        intro cs
        induction cs with
        | nil => intro k k'; exact .ok trivial
        | cons c cs ihc =>
          intro k k'
          simp only [keepEach]
          have h1 := ih (n := c) (k := k) (k' := k')
          revert h1
          generalize keepRules checks l t depth c k = A
          generalize keepRules checks l' t depth c k' = B
          intro h1
          cases h1 with
          | error f => exact .error _
          | ok h1 => exact ihc
      exact loop _

/-! ## Styling of what is displayed -/

/-- Lists of rules that come to the same. -/
def SameEffect (fuel : Nat) (r r' : List Style) : Prop :=
  ∀ rest vars m, computeBlocks fuel (r'.map (·.declaration) ++ rest) vars m = computeBlocks fuel (r.map (·.declaration) ++ rest) vars m

theorem styleTree_displayed {env : FrameEnv} {rules' : NodeId → List ElementStyle} {t : Tree} {root body : NodeId} (hw : t.Wf root body) (hroot : t.par root = none)
    (h : ∀ n, Displayed t root n → n ≠ root → ExRel (SameEffect env.fuel) (applied env.checks viewPseudo t n (env.rules n)) (applied env.checks viewPseudo t n (rules' n))) (depth : Nat) :
    ∀ {n : NodeId} {sizes : Sizes} {vars : Variables} {s : Styled}, Restyled t s.tree → Displayed t root n → n ≠ root →
      styleTree { env with rules := rules' } depth n sizes vars s = styleTree env depth n sizes vars s := by
  have hl : Linked t := linked_of_wf hw
  induction depth with
  | zero => intros; rfl
  | succ depth ih =>
    intro n sizes vars s hr hd hnr
    rw [styleTree, styleTree]
    cases hp : (s.tree.par n).bind s.tree.ctx with
    | none => rfl
    | some parent =>
      cases he : s.tree.ctx n with
      | none => rfl
      | some e =>
        simp only
        split
        · rfl
        · rw [styleElement_declared (by rw [applied_restyled hr, applied_restyled hr]; exact h n hd hnr)]
          split
          · rfl
          · rename_i l e' vars' hse
            split
            · rfl
            · obtain ⟨f1, f2, -⟩ := styleElement_form hse
              have hr1 : Restyled t (s.put n l e').tree := hr.trans (s.put_restyled he f1 f2 l)
              have loop : ∀ (cs : List NodeId), (∀ c ∈ cs, c ∈ t.kids n) → ∀ (s : Styled), Restyled t s.tree →
                  forEach (fun s c => styleTree { env with rules := rules' } depth c (sizes.under e') vars' s) cs s =
                    forEach (fun s c => styleTree env depth c (sizes.under e') vars' s) cs s := by
                intro cs
                induction cs with
                | nil => intros; rfl
                | cons c cs ihc =>
                  intro hcs s hs
                  have hc := hcs c List.mem_cons_self
                  simp only [forEach]
                  rw [ih hs (.child hd hc) (fun hcr => by rw [hcr, hw.link, hroot] at hc; cases hc)]
                  split
                  · rfl
                  · rename_i s1 h1
                    exact ihc (fun c hc => hcs c (List.mem_cons_of_mem _ hc)) s1 (hs.trans (styleTree_spec _ (hl.restyled hs) h1).1.restyled)
              exact loop _ (fun c hc => by rw [hr.kids] at hc; exact hc) _ hr1

/-! ## The whole program -/

/-- What frames keep of the conditions of C42. -/
theorem steady_frame {fuel fuel' : Nat} {document : Html} {css css2 : Css} {a a' : App} {outs : List Output} (ho : openApp p fuel document css = .ok a)
    {fs : List Frame} (hr : a.run p fuel' fs = .ok (a', outs)) {value : Json} {v : View} (hv : a'.screen.view.update p.inline value = .ok v) (hs : css2.Steady a.screen.view) :
    v.stage.tree.par v.root = none ∧ (∀ path b n, b ∈ v.vm.bindings path → b.params ≠ .tag n "class" ∧ b.params ≠ .tag n "id") ∧
      ∀ s ∈ css2.styles, s.HasChild → ∀ n m, Ancestor v.stage.tree m n → ∀ k, BindsAttr v.vm.bindings m k → ¬ s.Tests k := by
  obtain ⟨σ, hop⟩ := openApp_opened ho
  have hli := Living.opened ho
  have hses := run_session fs hli.session hr
  obtain ⟨v0, hr0, htw0⟩ := (session_ok hses).twin
  obtain ⟨v2, hr2, htw, -⟩ := twin_update hr0 htw0 hv
  obtain ⟨σ', hσ', hk0⟩ := reached_kept hr2
  have hk := kept_twin hk0 htw
  obtain ⟨σ0, hσ0, hko⟩ := reached_kept (.opened hop.view)
  rw [hop.rendered] at hσ' hσ0
  simp only [Except.ok.injEq, Prod.mk.injEq] at hσ' hσ0
  obtain ⟨e1, e2, rfl⟩ := hσ'
  obtain ⟨-, -, rfl⟩ := hσ0
  have hroot : v.root = a.screen.view.root := by rw [htw.root, ← e1]
  have hb : v.vm.bindings = a.screen.view.vm.bindings := by rw [hk.good.bindings, hko.good.bindings]
  rw [hb]
  have hpr : v.stage.tree.par v.root = none := by
    cases hp : v.stage.tree.par v.root with
    | none => rfl
    | some q =>
      have := (hk.good.wf.slotsYounger q _ (hk.good.wf.sub q _ ((hk.good.wf.link q _).2 hp))).1
      rw [hroot, (renderView_ok hop.rendered).rootIs] at this
      exact absurd this (Nat.not_lt_zero _)
  refine ⟨hpr, hs.tags, fun s hss hch n m ha k hbd => ?_⟩
  have hpar : ∃ c, v.stage.tree.par c = some m := by
    induction ha with
    | parent h => exact ⟨_, h⟩
    | above _ _ ih => exact ih
  obtain ⟨c, hc⟩ := hpar
  have hsub := hk.good.wf.sub m c ((hk.good.wf.link m c).2 hc)
  unfold Tree.slots at hsub
  split at hsub
  · rename_i hm
    have hw := hko.good.wf.rootExists
    obtain ⟨e, he⟩ := Option.isSome_iff_exists.1 hw
    rw [hm, hroot] at hbd
    exact hs.parents s hss hch _ e k he (.inl rfl) hbd
  · cases he : v.stage.tree.ctx m with
    | none => rw [he] at hsub; simp at hsub
    | some e =>
      rw [he] at hsub
      obtain ⟨e0, h1, h2, -⟩ := hk.defs.symm.ctx he
      obtain ⟨e1, h3, h4, -⟩ := hko.defs.ctx h1
      refine hs.parents s hss hch m e1 k h3 (.inr ?_) hbd
      rw [h4, h2]
      intro hnil
      simp [hnil] at hsub

/-- The two programs are the same but for the rules they keep, and were started with the stylesheets. -/
structure App.Alike (p : Platform) (fuel fuel' : Nat) (document : Html) (css css' : Css) (a0 a0' a a' : App) : Prop where
  screen : a'.screen = a.screen
  layouts : a'.layouts = a.layouts
  animations : a'.css.animations = a.css.animations
  opened : openApp p fuel document css = .ok a0
  opened' : openApp p fuel document css' = .ok a0'
  same : a0'.screen = a0.screen
  ran : ∃ fs outs, a0.run p fuel' fs = .ok (a, outs)
  ran' : ∃ fs outs, a0'.run p fuel' fs = .ok (a', outs)

/-- The rules that match come to the same, in every tree. -/
def Css.SameLook (p : Platform) (fuel : Nat) (css css' : Css) : Prop :=
  ∀ (t : Tree) (root body n : NodeId), t.Wf root body → (t.ctx n).isSome →
    SameEffect fuel (css.styles.filter (matchesNow p.checks viewPseudo t n)) (css'.styles.filter (matchesNow p.checks viewPseudo t n))

theorem displayed_isSome {t : Tree} {root body : NodeId} (hw : t.Wf root body) {n : NodeId} (h : Displayed t root n) : (t.ctx n).isSome := by
  cases h with
  | root => exact hw.rootExists
  | child hd hc => exact (hw.slotsYounger _ _ (hw.sub _ _ hc)).2.2

theorem App.Alike.update {fuel fuel' : Nat} {document : Html} {css css' : Css} (hlook : Css.SameLook p fuel' css css') {a0 a0' a a' : App}
    (hs : css.Steady a0.screen.view) (hs' : css'.Steady a0.screen.view) (hm : App.Alike p fuel fuel' document css css' a0 a0' a a') (f : Frame) :
    ExRel (fun r r' => App.Alike p fuel fuel' document css css' a0 a0' r.1 r'.1 ∧ r'.2 = r.2) (a.update p fuel' f.order f.input f.value) (a'.update p fuel' f.order f.input f.value) := by
  obtain ⟨fs, outs, hran⟩ := hm.ran
  obtain ⟨fs', outs', hran'⟩ := hm.ran'
  have hli := living_run _ (Living.opened hm.opened) hran
  have core : ExRel (fun r r' => (r'.1.screen = r.1.screen ∧ r'.1.layouts = r.1.layouts ∧ r'.1.css.animations = r.1.css.animations) ∧ r'.2 = r.2)
      (a.update p fuel' f.order f.input f.value) (a'.update p fuel' f.order f.input f.value) := by
    have h1 := hm.screen
    have h2 := hm.layouts
    have h3 := hm.animations
    have ho' := hm.opened'
    rw [← hm.same] at hs'
    have frame := fun v (hv : a.screen.view.update p.inline f.value = .ok v) n (hn : Displayed v.stage.tree v.root n) (hnr : n ≠ v.root) =>
      C42_program_partial hm.opened hran hv hs.noPlus hn hnr (fun path b hb => (steady_frame hm.opened hran hv hs).2.1 path b n hb)
        (fun s hss hch m ha => (steady_frame hm.opened hran hv hs).2.2 s hss hch n m ha)
    have frame' := fun v (hv : a'.screen.view.update p.inline f.value = .ok v) n (hn : Displayed v.stage.tree v.root n) (hnr : n ≠ v.root) =>
      C42_program_partial hm.opened' hran' hv hs'.noPlus hn hnr (fun path b hb => (steady_frame hm.opened' hran' hv hs').2.1 path b n hb)
        (fun s hss hch m ha => (steady_frame hm.opened' hran' hv hs').2.2 s hss hch n m ha)
    have hrt := fun v (hv : a.screen.view.update p.inline f.value = .ok v) => (steady_frame hm.opened hran hv hs).1
    clear hm hran hran' ho'
    obtain ⟨sc, css1, kept, layouts⟩ := a
    obtain ⟨sc', css1', kept', layouts'⟩ := a'
    simp only at h1 h2 h3 frame frame' hli hrt
    subst h1 h2
    unfold App.update
    simp only
    cases hv : sc'.view.update p.inline f.value with
    | error f => exact .error _
    | ok v =>
      simp only
      obtain ⟨wf, hkids, hparb, -⟩ := hli.bound hv
      have key := styleTree_displayed (env := App.env p fuel' f.order ⟨sc', css1, kept, layouts'⟩ f.input.time) (rules' := kept') wf (hrt v hv)
        (fun n hn hnr => by
          show ExRel _ (applied p.checks viewPseudo v.stage.tree n (kept n)) (applied p.checks viewPseudo v.stage.tree n (kept' n))
          rw [frame v hv n hn hnr, frame' v hv n hn hnr]
          exact .ok (hlook _ _ _ n wf (displayed_isSome wf hn))) fuel' (n := v.body)
        (sizes := ⟨16, 16, ⟨0, 0, 0, 0⟩, f.input.viewport.1, f.input.viewport.2⟩) (vars := fun _ => none)
        (s := ⟨v.stage.tree, upd layouts' v.root (resizeRoot f.input.viewport (layouts' v.root))⟩) (Restyled.refl _)
        (.child .root (by rw [hkids]; exact List.mem_singleton.2 rfl))
        (fun hb => by have := (wf.slotsYounger v.root v.body (wf.sub _ _ ((wf.link _ _).2 hparb))).1; rw [hb] at this; exact absurd this (Nat.lt_irrefl _))
      have henv : App.env p fuel' f.order ⟨sc', css1', kept', layouts'⟩ f.input.time =
          { App.env p fuel' f.order ⟨sc', css1, kept, layouts'⟩ f.input.time with rules := kept' } := by
        unfold App.env; simp only [h3]
      unfold styleView
      rw [henv, key]
      split
      · exact .error _
      · split
        · exact .error _
        · split
          · exact .error _
          · exact .ok ⟨⟨rfl, rfl, h3⟩, rfl⟩
  cases hA : a.update p fuel' f.order f.input f.value with
  | error e =>
    rw [hA] at core
    generalize a'.update p fuel' f.order f.input f.value = B at core
    cases core
    exact .error _
  | ok r =>
    rw [hA] at core
    cases hB : a'.update p fuel' f.order f.input f.value with
    | error e => rw [hB] at core; cases core
    | ok r' =>
      rw [hB] at core
      cases core with
      | ok core =>
        obtain ⟨r1, o1⟩ := r
        obtain ⟨r2, o2⟩ := r'
        exact .ok ⟨⟨core.1.1, core.1.2.1, core.1.2.2, hm.opened, hm.opened', hm.same, ⟨_, _, run_snoc hran hA⟩, ⟨_, _, run_snoc hran' hB⟩⟩, core.2⟩

theorem App.Alike.run {fuel fuel' : Nat} {document : Html} {css css' : Css} (hlook : Css.SameLook p fuel' css css') {a0 a0' : App}
    (hs : css.Steady a0.screen.view) (hs' : css'.Steady a0.screen.view) (fs : List Frame) : ∀ {a a' : App}, App.Alike p fuel fuel' document css css' a0 a0' a a' →
    ExRel (fun r r' => App.Alike p fuel fuel' document css css' a0 a0' r.1 r'.1 ∧ r'.2 = r.2) (a.run p fuel' fs) (a'.run p fuel' fs) := by
  induction fs with
  | nil => intro a a' hm; exact .ok ⟨hm, rfl⟩
  | cons f fs ih =>
    intro a a' hm
    simp only [App.run]
    have hu := hm.update hlook hs hs' f
    revert hu
    generalize a.update p fuel' f.order f.input f.value = A
    generalize a'.update p fuel' f.order f.input f.value = B
    intro hu
    cases hu with
    | error e => exact .error _
    | ok hu =>
      rename_i r r'
      obtain ⟨r1, o1⟩ := r
      obtain ⟨r2, o2⟩ := r'
      obtain ⟨h1, h2⟩ := hu
      simp only at h1 h2 ⊢
      subst h2
      have h3 := ih h1
      revert h3
      generalize r1.run p fuel' fs = A
      generalize r2.run p fuel' fs = B
      intro h3
      cases h3 with
      | error e => exact .error _
      | ok h3 =>
        rename_i x y
        obtain ⟨x1, x2⟩ := x
        obtain ⟨y1, y2⟩ := y
        obtain ⟨h4, h5⟩ := h3
        simp only at h4 h5 ⊢
        subst h5
        exact .ok ⟨h4, rfl⟩

theorem openApp_either {fuel : Nat} {document : Html} {css css' : Css} (hp : ∀ s ∈ css.styles, s.NoPlus) (hp' : ∀ s ∈ css'.styles, s.NoPlus)
    (ha : css'.animations = css.animations) :
    ExRel (fun a a' : App => a'.screen = a.screen ∧ a'.layouts = a.layouts ∧ a'.css.animations = a.css.animations) (openApp p fuel document css) (openApp p fuel document css') := by
  unfold openApp
  rw [collect_doc]
  simp only
  cases hr : renderView ⟨templateFor document.children, p.translate, p.inline⟩ fuel (docBody document) with
  | error f => exact .error _
  | ok r =>
    obtain ⟨root, body, σ⟩ := r
    simp only
    split
    · exact .error _
    · have hw := (renderView_ok hr).wf
      have hk := keepRules_either (checks := p.checks) hw hp hp' fuel (n := body) (k := fun _ => []) (k' := fun _ => [])
      revert hk
      generalize keepRules p.checks css.styles σ.tree fuel body (fun _ => []) = A
      generalize keepRules p.checks css'.styles σ.tree fuel body (fun _ => []) = B
      intro hk
      cases hk with
      | error f => exact .error _
      | ok hk =>
        simp only
        split
        · exact .error _
        · exact .ok ⟨rfl, rfl, ha⟩

/-- Programs whose matching rules come to the same behave the same. -/
theorem played_alike {fuel fuel' : Nat} {document : Html} {css css' : Css} (ha : css'.animations = css.animations) (hlook : Css.SameLook p fuel' css css')
    (hp : ∀ s ∈ css.styles, s.NoPlus) (hp' : ∀ s ∈ css'.styles, s.NoPlus)
    (hs : ∀ a, openApp p fuel document css = .ok a → css.Steady a.screen.view ∧ css'.Steady a.screen.view) (fs : List Frame) :
    played p fuel fuel' document css' fs = played p fuel fuel' document css fs := by
  have h := openApp_either (p := p) (fuel := fuel) (document := document) hp hp' ha
  unfold played
  cases hA : openApp p fuel document css with
  | error e =>
    rw [hA] at h
    generalize openApp p fuel document css' = B at h
    cases h; rfl
  | ok b =>
    rw [hA] at h
    cases hB : openApp p fuel document css' with
    | error e => rw [hB] at h; cases h
    | ok b' =>
      rw [hB] at h
      cases h with
      | ok h =>
        have hal : App.Alike p fuel fuel' document css css' b b' b b' := ⟨h.1, h.2.1, h.2.2, hA, hB, h.1, ⟨[], [], rfl⟩, ⟨[], [], rfl⟩⟩
        have hr := App.Alike.run hlook (hs b hA).1 (hs b hA).2 fs hal
        simp only
        revert hr
        generalize b.run p fuel' fs = A
        generalize b'.run p fuel' fs = B
        intro hr
        cases hr with
        | error e => rfl
        | ok hr =>
          rename_i x y
          obtain ⟨x1, x2⟩ := x
          obtain ⟨y1, y2⟩ := y
          obtain ⟨h4, h5⟩ := hr
          simp only at h4 h5 ⊢
          rw [h5, h4.screen, h4.layouts]

/-! ## Rules taken apart -/

theorem computeBlocks_repeated (fuel : Nat) {s : Style} (h : s.VariablesFirst) (l : List (List Declaration)) (hl : ∀ b ∈ l, b = s.declaration) (rest : List (List Declaration)) :
    ∀ vars m, computeBlocks fuel (s.declaration :: l ++ rest) vars m = computeBlocks fuel (s.declaration :: rest) vars m := by
  induction l with
  | nil => intros; rfl
  | cons b l ih =>
    intro vars m
    rw [hl b List.mem_cons_self]
    have ih' := ih fun b hb => hl b (List.mem_cons_of_mem _ hb)
    rw [show s.declaration :: s.declaration :: l ++ rest = s.declaration :: (s.declaration :: l ++ rest) from rfl, computeBlocks]
    simp only [ih']
    simp only [computeBlocks]
    cases hc : computeBlock fuel s.declaration vars m with
    | none => rfl
    | some r =>
      obtain ⟨v, m'⟩ := r
      simp only [computeBlock_twice fuel h hc]

theorem matchesNow_iff {checks pc} {t : Tree} {root body : NodeId} (hw : t.Wf root body) {n : NodeId} (hn : (t.ctx n).isSome) {s : Style} (hp : s.NoPlus) :
    matchesNow checks pc t n s = true ↔ ∃ c ∈ s.selectors, matchComplex checks pc t c n = .ok true := by
  obtain ⟨b, h1, h2⟩ := matchAny_total (checks := checks) (pc := pc) hw hn s.selectors hp
  rw [← h2]
  unfold matchesNow matchStyle
  rw [h1]
  cases b <;> simp

theorem takenApart_effect {fuel : Nat} {t : Tree} {root body : NodeId} (hw : t.Wf root body) {n : NodeId} (hn : (t.ctx n).isSome) {checks pc} {l l' : List Style}
    (h : TakenApart l l') (hp : ∀ s ∈ l, s.NoPlus) (hp' : ∀ s ∈ l', s.NoPlus) :
    SameEffect fuel (l.filter (matchesNow checks pc t n)) (l'.filter (matchesNow checks pc t n)) := by
  induction h with
  | nil => exact fun _ _ _ => rfl
  | @same s l l' _ ih =>
    have ih := ih (fun s hs => hp s (List.mem_cons_of_mem _ hs)) (fun s hs => hp' s (List.mem_cons_of_mem _ hs))
    simp only [List.filter_cons]
    split
    · intro rest vars m
      simp only [List.map_cons, List.cons_append, computeBlocks]
      simp only [ih rest]
    · exact ih
  | @apart s l l' parts hv hd hsel _ ih =>
    have ih := ih (fun s hs => hp s (List.mem_cons_of_mem _ hs)) (fun s hs => hp' s (List.mem_append_right _ hs))
    have hany : matchesNow checks pc t n s = true ↔ ∃ x ∈ parts, matchesNow checks pc t n x = true := by
      rw [matchesNow_iff hw hn (hp s List.mem_cons_self)]
      constructor
      · rintro ⟨c, h1, h2⟩
        obtain ⟨x, h3, h4⟩ := (hsel c).1 h1
        exact ⟨x, h3, (matchesNow_iff hw hn (hp' x (List.mem_append_left _ h3))).2 ⟨c, h4, h2⟩⟩
      · rintro ⟨x, h3, h4⟩
        obtain ⟨c, h5, h6⟩ := (matchesNow_iff hw hn (hp' x (List.mem_append_left _ h3))).1 h4
        exact ⟨c, (hsel c).2 ⟨x, h3, h5⟩, h6⟩
    have hall : ∀ x ∈ parts.filter (matchesNow checks pc t n), x.declaration = s.declaration := fun x hx => hd x (List.mem_filter.1 hx).1
    have hne : parts.filter (matchesNow checks pc t n) ≠ [] ↔ matchesNow checks pc t n s = true := by
      rw [hany, Ne, List.filter_eq_nil_iff]
      simp only [not_forall, Bool.not_eq_true, Bool.not_eq_false, exists_prop]
    rw [List.filter_append, List.filter_cons]
    revert hall hne
    generalize parts.filter (matchesNow checks pc t n) = q
    intro hall hne
    cases q with
    | nil =>
      rw [if_neg (by simpa using hne)]
      exact ih
    | cons y q =>
      rw [if_pos (hne.1 (by simp))]
      intro rest vars m
      have e1 : y.declaration = s.declaration := hall y List.mem_cons_self
      simp only [List.cons_append, List.map_cons, List.map_append, e1]
      have := computeBlocks_repeated fuel hv (q.map (·.declaration)) (fun b hb => by
        obtain ⟨x, hx, rfl⟩ := List.mem_map.1 hb
        exact hall x (List.mem_cons_of_mem _ hx)) ((l'.filter (matchesNow checks pc t n)).map (·.declaration) ++ rest) vars m
      rw [show s.declaration :: ((q.map (·.declaration) ++ (l'.filter (matchesNow checks pc t n)).map (·.declaration)) ++ rest) =
        s.declaration :: q.map (·.declaration) ++ ((l'.filter (matchesNow checks pc t n)).map (·.declaration) ++ rest) by simp]
      rw [this]
      simp only [computeBlocks]
      simp only [ih rest]

theorem TakenApart.from {l l' : List Style} (h : TakenApart l l') : ∀ x ∈ l', ∃ s ∈ l, ∀ c ∈ x.selectors, c ∈ s.selectors := by
  induction h with
  | nil => simp
  | same _ ih =>
    intro x hx
    rcases List.mem_cons.1 hx with rfl | hx
    · exact ⟨_, List.mem_cons_self, fun _ h => h⟩
    · obtain ⟨s, h1, h2⟩ := ih x hx; exact ⟨s, List.mem_cons_of_mem _ h1, h2⟩
  | apart parts _ _ hsel _ ih =>
    intro x hx
    rcases List.mem_append.1 hx with hx | hx
    · exact ⟨_, List.mem_cons_self, fun c hc => (hsel c).2 ⟨x, hx, hc⟩⟩
    · obtain ⟨s, h1, h2⟩ := ih x hx; exact ⟨s, List.mem_cons_of_mem _ h1, h2⟩

theorem Css.Steady.apart {css css' : Css} {v : View} (hm : TakenApart css.styles css'.styles) (h : css.Steady v) : css'.Steady v := by
  refine ⟨fun x hx c hc => ?_, h.tags, fun x hx hch m e k he hme hb ht => ?_⟩
  · obtain ⟨s, h1, h2⟩ := hm.from x hx
    exact h.noPlus s h1 c (h2 c hc)
  · obtain ⟨s, h1, h2⟩ := hm.from x hx
    obtain ⟨c, hc, hcc⟩ := hch
    obtain ⟨c', hc', y, hy, hty⟩ := ht
    exact h.parents s h1 ⟨c, h2 c hc, hcc⟩ m e k he hme hb ⟨c', h2 c' hc', y, hy, hty⟩

end Verif
