import Verif.Spec.Wordings
import Verif.View.Useless
/-!
# Lemmas about other words for the same selectors (C108)
-/
namespace Verif

variable {p : Platform}

/-! ## Selectors -/

theorem matchLoop_alike {checks pc} {t : Tree} {l l' : List Simple} (h : ∀ n e, matchLoop checks pc t l n e = matchLoop checks pc t l' n e) (pre : List Simple) :
    ∀ n e, matchLoop checks pc t (pre ++ l) n e = matchLoop checks pc t (pre ++ l') n e := by
  induction pre with
  | nil => exact h
  | cons x pre ih =>
    intro n e
    by_cases hx : x.isPart = true
    · rw [List.cons_append, List.cons_append, matchLoop_part hx, matchLoop_part hx, ih]
    · cases x with
      | combinator d => simp only [List.cons_append, matchLoop, ih]
      | _ => simp [Simple.isPart] at hx

theorem isPart_of {x : Simple} (h : ∀ d, x ≠ .combinator d) : x.isPart = true := by
  cases x <;> first | rfl | exact absurd rfl (h _)

theorem Complex.SameParts.loop {checks pc} {t : Tree} {c c' : Complex} (h : Complex.SameParts c c') :
    ∀ {l l' : List Simple}, (∀ n e, matchLoop checks pc t l n e = matchLoop checks pc t l' n e) →
      ∀ n e, matchLoop checks pc t (c.reverse ++ l) n e = matchLoop checks pc t (c'.reverse ++ l') n e := by
  induction h with
  | refl c => exact fun h => matchLoop_alike h _
  | same x _ ih =>
    intro l l' h n e
    simp only [List.reverse_cons, List.append_assoc, List.cons_append, List.nil_append]
    exact ih (matchLoop_alike h [x]) n e
  | swap c hx hy =>
    intro l l' h n e
    simp only [List.reverse_cons, List.append_assoc, List.cons_append, List.nil_append]
    refine matchLoop_alike (fun n e => ?_) _ n e
    simp only [matchLoop_part (isPart_of hx), matchLoop_part (isPart_of hy), h]
    split <;> split <;> rfl
  | twice c hx =>
    intro l l' h n e
    simp only [List.reverse_cons, List.append_assoc, List.cons_append, List.nil_append]
    refine matchLoop_alike (fun n e => ?_) _ n e
    simp only [matchLoop_part (isPart_of hx), h]
    split <;> rfl
  | all c =>
    intro l l' h n e
    simp only [List.reverse_cons, List.append_assoc, List.cons_append, List.nil_append]
    refine matchLoop_alike (fun n e => ?_) _ n e
    rw [h, matchLoop_part rfl]
    simp [matchSimple]
  | symm _ ih => exact fun h n e => (ih (fun n e => (h n e).symm) n e).symm
  | trans _ _ ih1 ih2 => exact fun h n e => (ih1 (fun _ _ => rfl) n e).trans (ih2 h n e)

theorem Complex.SameParts.matches {checks pc} {t : Tree} {c c' : Complex} (h : Complex.SameParts c c') (n : NodeId) :
    matchComplex checks pc t c' n = matchComplex checks pc t c n := by
  unfold matchComplex
  split
  · rfl
  · have := h.loop (checks := checks) (pc := pc) (t := t) (l := []) (l' := []) (fun _ _ => rfl) n
    simp only [List.append_nil] at this
    exact (this _).symm

theorem Complex.SameParts.mem {c c' : Complex} (h : Complex.SameParts c c') {x : Simple} (hx : x ≠ .all) : x ∈ c ↔ x ∈ c' := by
  induction h with
  | refl => rfl
  | same y _ ih => simp [ih]
  | swap => simp only [List.mem_cons]; tauto
  | twice => simp
  | all => simp [hx]
  | symm _ ih => exact ih.symm
  | trans _ _ ih1 ih2 => exact ih1.trans ih2

theorem Complex.SameParts.any {c c' : Complex} (h : Complex.SameParts c c') {f : Simple → Bool} (hf : f .all = false) : c'.any f = c.any f := by
  rw [Bool.eq_iff_iff, List.any_eq_true, List.any_eq_true]
  constructor
  · rintro ⟨x, h1, h2⟩; exact ⟨x, (h.mem fun e => by rw [e, hf] at h2; cases h2).2 h1, h2⟩
  · rintro ⟨x, h1, h2⟩; exact ⟨x, (h.mem fun e => by rw [e, hf] at h2; cases h2).1 h1, h2⟩

/-! ## Rules -/

theorem forall₂_left {α β : Type} {R : α → β → Prop} {l : List α} {l' : List β} (h : List.Forall₂ R l l') : ∀ x ∈ l, ∃ y ∈ l', R x y := by
  induction h with
  | nil => simp
  | cons h _ ih =>
    intro x hx
    rcases List.mem_cons.1 hx with rfl | hx
    · exact ⟨_, List.mem_cons_self, h⟩
    · obtain ⟨y, h1, h2⟩ := ih x hx; exact ⟨y, List.mem_cons_of_mem _ h1, h2⟩

theorem forall₂_right {α β : Type} {R : α → β → Prop} {l : List α} {l' : List β} (h : List.Forall₂ R l l') : ∀ y ∈ l', ∃ x ∈ l, R x y := by
  induction h with
  | nil => simp
  | cons h _ ih =>
    intro x hx
    rcases List.mem_cons.1 hx with rfl | hx
    · exact ⟨_, List.mem_cons_self, h⟩
    · obtain ⟨y, h1, h2⟩ := ih x hx; exact ⟨y, List.mem_cons_of_mem _ h1, h2⟩

theorem Style.Reworded.both {s s' : Style} (h : s.Reworded s') :
    (∀ c ∈ s.selectors, ∃ c' ∈ s'.selectors, c.SameParts c') ∧ ∀ c' ∈ s'.selectors, ∃ c ∈ s.selectors, c.SameParts c' := by
  rcases h.selectors with h | ⟨-, h⟩
  · exact ⟨forall₂_left h, forall₂_right h⟩
  · exact h

theorem Style.Reworded.any {s s' : Style} (h : s.Reworded s') {f : Simple → Bool} (hf : f .all = false) :
    (s'.selectors.any fun c => c.any f) = s.selectors.any fun c => c.any f := by
  obtain ⟨h1, h2⟩ := h.both
  rw [Bool.eq_iff_iff, List.any_eq_true, List.any_eq_true]
  constructor
  · rintro ⟨c', g1, g2⟩
    obtain ⟨c, k1, k2⟩ := h2 c' g1
    exact ⟨c, k1, by rw [← k2.any hf]; exact g2⟩
  · rintro ⟨c, g1, g2⟩
    obtain ⟨c', k1, k2⟩ := h1 c g1
    exact ⟨c', k1, by rw [k2.any hf]; exact g2⟩

theorem Style.Reworded.pseudo {s s' : Style} (h : s.Reworded s') : s'.hasPseudoSelector = s.hasPseudoSelector := h.any rfl

theorem Style.Reworded.static {s s' : Style} (h : s.Reworded s') (hints : StyleHints) : isStatic hints s' = isStatic hints s := by
  unfold isStatic
  rw [show s'.hasAttrsSelector hints.dynamicAttrs = s.hasAttrsSelector hints.dynamicAttrs from h.any rfl,
    show s'.hasClassSelector = s.hasClassSelector from h.any rfl, show s'.hasIdSelector = s.hasIdSelector from h.any rfl]

theorem Style.Reworded.noPlus {s s' : Style} (h : s.Reworded s') (hs : s.NoPlus) : s'.NoPlus := by
  intro c' hc' hm
  obtain ⟨c, h1, h2⟩ := h.both.2 c' hc'
  exact hs c h1 ((h2.mem (by simp)).2 hm)

theorem matchAny_reworded {checks pc} {t : Tree} {n : NodeId} {l l' : List Complex} (h : List.Forall₂ Complex.SameParts l l') :
    matchAny checks pc t n l' = matchAny checks pc t n l := by
  induction h with
  | nil => rfl
  | cons h _ ih => simp only [matchAny, h.matches, ih]

theorem Style.Reworded.matches {checks pc} {t : Tree} {root body : NodeId} (hw : t.Wf root body) {n : NodeId} (hn : (t.ctx n).isSome) {s s' : Style}
    (h : s.Reworded s') : matchStyle checks pc t s' n = matchStyle checks pc t s n := by
  unfold matchStyle
  rcases h.selectors with h1 | ⟨hp, h1, h2⟩
  · exact matchAny_reworded h1
  · obtain ⟨b, k1, k2⟩ := matchAny_total (checks := checks) (pc := pc) hw hn s.selectors hp
    obtain ⟨b', k1', k2'⟩ := matchAny_total (checks := checks) (pc := pc) hw hn s'.selectors (h.noPlus hp)
    rw [k1, k1']
    congr 1
    rw [Bool.eq_iff_iff, k2, k2']
    constructor
    · rintro ⟨c', g1, g2⟩
      obtain ⟨c, g3, g4⟩ := h2 c' g1
      exact ⟨c, g3, by rw [← g4.matches]; exact g2⟩
    · rintro ⟨c, g1, g2⟩
      obtain ⟨c', g3, g4⟩ := h1 c g1
      exact ⟨c', g3, by rw [g4.matches]; exact g2⟩

/-! ## Rules that are kept -/

/-- The same kind of kept rule in other words. -/
inductive KeptReworded : ElementStyle → ElementStyle → Prop
  | static {s s'} : s.Reworded s' → KeptReworded (.static s) (.static s')
  | dynamic {s s'} : s.Reworded s' → KeptReworded (.dynamic s) (.dynamic s')

theorem classify_reworded {checks : Bool} {t : Tree} {root body : NodeId} (hw : t.Wf root body) {n : NodeId} (hn : (t.ctx n).isSome) {e : Element} {l l' : List Style}
    (h : List.Forall₂ Style.Reworded l l') : ExRel (List.Forall₂ KeptReworded) (classify checks t n e l) (classify checks t n e l') := by
  induction h with
  | nil => exact .ok .nil
  | @cons x y l l' hx _ ih =>
    rw [classify, classify, hx.matches hw hn]
    cases matchStyle checks anyPseudo t x n with
    | error f => exact .error f
    | ok b =>
      simp only
      revert ih
      generalize classify checks t n e l = A
      generalize classify checks t n e l' = B
      intro ih
      cases ih with
      | error f => exact .error f
      | ok h =>
        simp only [hx.static, hx.pseudo]
        cases b <;> simp only [Bool.false_eq_true, if_false, if_true] <;> split <;> first | exact .ok h | exact .ok (.cons (.static hx) h) | exact .ok (.cons (.dynamic hx) h)

theorem keepRules_reworded {checks : Bool} {t : Tree} {root body : NodeId} (hw : t.Wf root body) {l l' : List Style}
    (h : List.Forall₂ Style.Reworded l l') (depth : Nat) : ∀ {n : NodeId} {k k' : NodeId → List ElementStyle}, (∀ m, List.Forall₂ KeptReworded (k m) (k' m)) →
      ExRel (fun k k' => ∀ m, List.Forall₂ KeptReworded (k m) (k' m)) (keepRules checks l t depth n k) (keepRules checks l' t depth n k') := by
  induction depth with
  | zero => intro n k k' _; exact .error _
  | succ depth ih =>
    intro n k k' hk
    rw [keepRules, keepRules]
    cases he : t.ctx n with
    | none => exact .error _
    | some e =>
      simp only
      have hc := classify_reworded (checks := checks) hw (n := n) (e := e) (by rw [he]; rfl) h
      revert hc
      generalize classify checks t n e l = A
      generalize classify checks t n e l' = B
      intro hc
      cases hc with
      | error f => exact .error _
      | @ok c c' hc =>
        simp only
        have loop : ∀ (cs : List NodeId) {k k' : NodeId → List ElementStyle}, (∀ m, List.Forall₂ KeptReworded (k m) (k' m)) →
            ExRel (fun k k' => ∀ m, List.Forall₂ KeptReworded (k m) (k' m)) (keepEach (fun kept c => keepRules checks l t depth c kept) cs k)
              (keepEach (fun kept c => keepRules checks l' t depth c kept) cs k') := by
          intro cs
          induction cs with
          | nil => intro k k' hk; exact .ok hk
          | cons c cs ihc =>
            intro k k' hk
            simp only [keepEach]
            have h1 := ih (n := c) hk
            revert h1
            generalize keepRules checks l t depth c k = A
            generalize keepRules checks l' t depth c k' = B
            intro h1
            cases h1 with
            | error f => exact .error _
            | ok h1 => exact ihc h1
        refine loop _ fun m => ?_
        by_cases hm : m = n
        · subst hm; rw [upd_same, upd_same]; exact hc
        · rw [upd_other _ _ hm, upd_other _ _ hm]; exact hk m

/-- Both lists of rules have the same declarations. -/
def SameDeclarations (l l' : List Style) : Prop := l'.map (·.declaration) = l.map (·.declaration)

theorem applied_reworded {checks : Bool} {t : Tree} {root body : NodeId} (hw : t.Wf root body) {n : NodeId} (hn : (t.ctx n).isSome) {l l' : List ElementStyle}
    (h : List.Forall₂ KeptReworded l l') : ExRel SameDeclarations (applied checks viewPseudo t n l) (applied checks viewPseudo t n l') := by
  induction h with
  | nil => exact .ok rfl
  | @cons x y l l' hx _ ih =>
    cases hx with
    | static hx =>
      simp only [applied]
      revert ih
      generalize applied checks viewPseudo t n l = A
      generalize applied checks viewPseudo t n l' = B
      intro ih
      cases ih with
      | error f => exact .error f
      | ok h => exact .ok (by unfold SameDeclarations at h ⊢; simp only [List.map_cons, h, hx.declaration])
    | @dynamic s s' hx =>
      simp only [applied, hx.matches hw hn]
      cases matchStyle checks viewPseudo t s n with
      | error f => exact .error f
      | ok b =>
        simp only
        revert ih
        generalize applied checks viewPseudo t n l = A
        generalize applied checks viewPseudo t n l' = B
        intro ih
        cases ih with
        | error f => exact .error f
        | ok h =>
          cases b with
          | false => exact .ok h
          | true => exact .ok (by unfold SameDeclarations at h ⊢; simp only [if_true, List.map_cons, h, hx.declaration])

/-! ## Styling -/

theorem styleElement_declared {env : FrameEnv} {rules' : NodeId → List ElementStyle} {t : Tree} {n : NodeId}
    (h : ExRel (fun r r' => ∀ rest vars m, computeBlocks env.fuel (r'.map (·.declaration) ++ rest) vars m = computeBlocks env.fuel (r.map (·.declaration) ++ rest) vars m)
      (applied env.checks viewPseudo t n (env.rules n)) (applied env.checks viewPseudo t n (rules' n)))
    (parent : Element) (sizes : Sizes) (vars : Variables) (l : LayoutStyle) (e : Element) :
    styleElement { env with rules := rules' } t n parent sizes vars l e = styleElement env t n parent sizes vars l e := by
  unfold styleElement
  simp only [playAnimators_rules]
  revert h
  generalize applied env.checks viewPseudo t n (env.rules n) = A
  generalize applied env.checks viewPseudo t n (rules' n) = B
  intro h
  cases h with
  | error f => rfl
  | ok h => simp only [elementBlocks, h]

theorem styleTree_declared {env : FrameEnv} {rules' : NodeId → List ElementStyle} {t : Tree} (hl : Linked t)
    (h : ∀ n, (t.ctx n).isSome → ExRel (fun r r' => ∀ rest vars m, computeBlocks env.fuel (r'.map (·.declaration) ++ rest) vars m = computeBlocks env.fuel (r.map (·.declaration) ++ rest) vars m)
      (applied env.checks viewPseudo t n (env.rules n)) (applied env.checks viewPseudo t n (rules' n))) (depth : Nat) :
    ∀ {n : NodeId} {sizes : Sizes} {vars : Variables} {s : Styled}, Restyled t s.tree →
      styleTree { env with rules := rules' } depth n sizes vars s = styleTree env depth n sizes vars s := by
  induction depth with
  | zero => intros; rfl
  | succ depth ih =>
    intro n sizes vars s hr
    rw [styleTree, styleTree]
    cases hp : (s.tree.par n).bind s.tree.ctx with
    | none => rfl
    | some parent =>
      cases he : s.tree.ctx n with
      | none => rfl
      | some e =>
        simp only
        split
        · rfl
        · have hn : (t.ctx n).isSome := by
            cases hc : t.ctx n with
            | none => rw [hr.gone n hc] at he; cases he
            | some _ => rfl
          rw [styleElement_declared (by rw [applied_restyled hr, applied_restyled hr]; exact h n hn)]
          split
          · rfl
          · rename_i l e' vars' hse
            split
            · rfl
            · obtain ⟨f1, f2, -⟩ := styleElement_form hse
              have hr1 : Restyled t (s.put n l e').tree := hr.trans (s.put_restyled he f1 f2 l)
              have loop : ∀ (cs : List NodeId) (s : Styled), Restyled t s.tree →
                  forEach (fun s c => styleTree { env with rules := rules' } depth c (sizes.under e') vars' s) cs s =
                    forEach (fun s c => styleTree env depth c (sizes.under e') vars' s) cs s := by
                intro cs
                induction cs with
                | nil => intros; rfl
                | cons c cs ihc =>
                  intro s hs
                  simp only [forEach]
                  rw [ih hs]
                  split
                  · rfl
                  · rename_i s1 h1
                    exact ihc s1 (hs.trans (styleTree_spec _ (hl.restyled hs) h1).1.restyled)
              exact loop _ _ hr1

/-! ## The whole program -/

/-- The same program with its rules in other words. -/
structure App.Reworded (a a' : App) : Prop where
  screen : a'.screen = a.screen
  layouts : a'.layouts = a.layouts
  animations : a'.css.animations = a.css.animations
  kept : ∀ m, List.Forall₂ KeptReworded (a.kept m) (a'.kept m)

theorem openApp_reworded {fuel : Nat} {document : Html} {css css' : Css} (hm : List.Forall₂ Style.Reworded css.styles css'.styles)
    (ha : css'.animations = css.animations) : ExRel App.Reworded (openApp p fuel document css) (openApp p fuel document css') := by
  unfold openApp
  rw [collect_doc]
  simp only
  cases hr : renderView ⟨templateFor document.children, p.translate, p.inline⟩ fuel (docBody document) with
  | error f => exact .error _
  | ok r =>
    obtain ⟨root, body, σ⟩ := r
    simp only
    split
    · exact .error _
    · have hw := (renderView_ok hr).wf
      have hk := keepRules_reworded (checks := p.checks) hw hm fuel (n := body) (k := fun _ => []) (k' := fun _ => []) (fun _ => .nil)
      revert hk
      generalize keepRules p.checks css.styles σ.tree fuel body (fun _ => []) = A
      generalize keepRules p.checks css'.styles σ.tree fuel body (fun _ => []) = B
      intro hk
      cases hk with
      | error f => exact .error _
      | ok hk =>
        simp only
        split
        · exact .error _
        · exact .ok ⟨rfl, rfl, ha, hk⟩

theorem App.Reworded.update {fuel fuel' : Nat} {document : Html} {a a' : App} (h : Living p fuel document a)
    (hm : App.Reworded a a') (order : FrameOrder) (input : Input) (value : Json) :
    ExRel (fun r r' => App.Reworded r.1 r'.1 ∧ r'.2 = r.2) (a.update p fuel' order input value) (a'.update p fuel' order input value) := by
  obtain ⟨sc, css, kept, layouts⟩ := a
  obtain ⟨sc', css', kept', layouts'⟩ := a'
  obtain ⟨h1, h2, h3, h4⟩ := hm
  simp only at h1 h2 h3 h4
  subst h1 h2
  unfold App.update
  simp only
  cases hv : sc'.view.update p.inline value with
  | error f => exact .error _
  | ok v =>
    simp only
    obtain ⟨wf, -⟩ := h.bound hv
    have key := styleTree_declared (env := App.env p fuel' order ⟨sc', css, kept, layouts'⟩ input.time) (rules' := kept') (linked_of_wf wf)
      (fun n hn => by
        have := applied_reworded (checks := p.checks) wf hn (h4 n)
        revert this
        show ExRel _ (applied p.checks viewPseudo v.stage.tree n (kept n)) (applied p.checks viewPseudo v.stage.tree n (kept' n)) → ExRel _ (applied p.checks viewPseudo v.stage.tree n (kept n)) (applied p.checks viewPseudo v.stage.tree n (kept' n))
        generalize applied p.checks viewPseudo v.stage.tree n (kept n) = A
        generalize applied p.checks viewPseudo v.stage.tree n (kept' n) = B
        intro this
        cases this with
        | error f => exact .error f
        | ok h => exact .ok fun rest vars m => by rw [show List.map _ _ = List.map _ _ from h]) fuel' (n := v.body)
      (sizes := ⟨16, 16, ⟨0, 0, 0, 0⟩, input.viewport.1, input.viewport.2⟩) (vars := fun _ => none)
      (s := ⟨v.stage.tree, upd layouts' v.root (resizeRoot input.viewport (layouts' v.root))⟩) (Restyled.refl _)
    have henv : App.env p fuel' order ⟨sc', css', kept', layouts'⟩ input.time =
        { App.env p fuel' order ⟨sc', css, kept, layouts'⟩ input.time with rules := kept' } := by
      unfold App.env; simp only [h3]
    unfold styleView
    rw [henv, key]
    split
    · exact .error _
    · split
      · exact .error _
      · split
        · exact .error _
        · exact .ok ⟨⟨rfl, rfl, h3, h4⟩, rfl⟩

theorem App.Reworded.run {fuel fuel' : Nat} {document : Html} (fs : List Frame) :
    ∀ {a a' : App}, Living p fuel document a → App.Reworded a a' →
      ExRel (fun r r' => App.Reworded r.1 r'.1 ∧ r'.2 = r.2) (a.run p fuel' fs) (a'.run p fuel' fs) := by
  induction fs with
  | nil => intro a a' _ hm; exact .ok ⟨hm, rfl⟩
  | cons f fs ih =>
    intro a a' h hm
    simp only [App.run]
    have hu := hm.update (fuel' := fuel') h f.order f.input f.value
    cases hA : a.update p fuel' f.order f.input f.value with
    | error e =>
      rw [hA] at hu
      generalize a'.update p fuel' f.order f.input f.value = B at hu
      cases hu
      exact .error _
    | ok r =>
      rw [hA] at hu
      have hl := h.updated (show a.update p fuel' f.order f.input f.value = .ok (r.1, r.2) from hA)
      generalize a'.update p fuel' f.order f.input f.value = B at hu
      cases hu with
      | ok hu =>
        rename_i r'
        obtain ⟨r1, o1⟩ := r
        obtain ⟨r2, o2⟩ := r'
        obtain ⟨h1, h2⟩ := hu
        simp only at h1 h2 hl ⊢
        subst h2
        have h3 := ih hl h1
        revert h3
        generalize r1.run p fuel' fs = A
        generalize r2.run p fuel' fs = B
        intro h3
        cases h3 with
        | error e => exact .error _
        | ok h3 =>
          rename_i x y
          obtain ⟨x1, x2⟩ := x
          obtain ⟨y1, y2⟩ := y
          obtain ⟨h4, h5⟩ := h3
          simp only at h4 h5 ⊢
          subst h5
          exact .ok ⟨h4, rfl⟩

end Verif
