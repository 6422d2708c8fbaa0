import Verif.Spec.Outdone
import Verif.View.Wordings
import Verif.View.Parts
/-!
# Lemmas about programs whose rules have the same selectors (C111)
-/
namespace Verif

variable {p : Platform}

/-! ## Rules taken by their selectors -/

def mkKept (s : Style) (b : Bool) : ElementStyle := if b then .static s else .dynamic s

/-- The rules kept, where what is done with a rule depends on its selectors. -/
def pick (g : List Complex → Option Bool) (l : List Style) : List ElementStyle := l.filterMap fun s => (g s.selectors).map (mkKept s)

/-- Whatever rules are taken by their selectors, they come to the same, and only selectors without `+` are missing or new. -/
structure SameParts (fuel : Nat) (l l' : List Style) : Prop where
  selectors : ∀ c, ¬ Style.NoPlus ⟨c, []⟩ → (c ∈ l'.map (·.selectors) ↔ c ∈ l.map (·.selectors))
  effect : ∀ f : List Complex → Bool, SameEffect fuel (l.filter fun s => f s.selectors) (l'.filter fun s => f s.selectors)

theorem SameParts.mem {fuel : Nat} {l l' : List Style} (h : SameParts fuel l l') {P : List Complex → Prop} (hP : ∀ c, P c → ¬ Style.NoPlus ⟨c, []⟩) :
    (∃ s ∈ l', P s.selectors) ↔ ∃ s ∈ l, P s.selectors := by
  have key : ∀ l : List Style, (∃ s ∈ l, P s.selectors) ↔ ∃ c ∈ l.map (·.selectors), P c := by
    intro l
    constructor
    · rintro ⟨s, h1, h2⟩; exact ⟨_, List.mem_map_of_mem h1, h2⟩
    · rintro ⟨c, h1, h2⟩
      obtain ⟨s, h3, rfl⟩ := List.mem_map.1 h1
      exact ⟨s, h3, h2⟩
  rw [key, key]
  constructor
  · rintro ⟨c, h1, h2⟩; exact ⟨c, (h.selectors c (hP c h2)).1 h1, h2⟩
  · rintro ⟨c, h1, h2⟩; exact ⟨c, (h.selectors c (hP c h2)).2 h1, h2⟩

theorem panics_plus {checks pc} {t : Tree} {root body : NodeId} (hw : t.Wf root body) {n : NodeId} (hn : (t.ctx n).isSome) {c : List Complex}
    (h : ∃ f, matchStyle checks pc t ⟨c, []⟩ n = .error f) : ¬ Style.NoPlus ⟨c, []⟩ := by
  intro hp
  obtain ⟨f, h⟩ := h
  obtain ⟨b, h1, -⟩ := matchAny_total (checks := checks) (pc := pc) hw hn c hp
  unfold matchStyle at h
  rw [h1] at h; cases h

theorem sortRule_selectors (checks : Bool) (t : Tree) (n : NodeId) (e : Element) :
    ∃ g : List Complex → Option Bool, ∀ s, sortRule checks t n e s = (g s.selectors).map (mkKept s) := by
  refine ⟨fun c => (sortRule checks t n e ⟨c, []⟩).map fun x => match x with | .static _ => true | .dynamic _ => false, fun s => ?_⟩
  have h1 : matchStyle checks anyPseudo t ⟨s.selectors, []⟩ n = matchStyle checks anyPseudo t s n := rfl
  have h2 : ∀ h, isStatic h ⟨s.selectors, []⟩ = isStatic h s := fun _ => rfl
  have h3 : Style.hasPseudoSelector ⟨s.selectors, []⟩ = s.hasPseudoSelector := rfl
  unfold sortRule
  dsimp only
  rw [h1, h2, h3]
  cases matchStyle checks anyPseudo t s n with
  | error f => rfl
  | ok m => cases m <;> cases isStatic e.hints s <;> cases s.hasPseudoSelector <;> rfl

theorem classify_picked {checks : Bool} {t : Tree} {root body : NodeId} (hw : t.Wf root body) {n : NodeId} (hn : (t.ctx n).isSome) {e : Element} {fuel : Nat} {l l' : List Style} (h : SameParts fuel l l') :
    ExRel (fun k k' => ∃ g, k = pick g l ∧ k' = pick g l') (classify checks t n e l) (classify checks t n e l') := by
  obtain ⟨g, hg⟩ := sortRule_selectors checks t n e
  have hm := h.mem (P := fun c => ∃ f, matchStyle checks anyPseudo t ⟨c, []⟩ n = .error f) fun c hc => panics_plus hw hn hc
  rcases classify_sorts checks t n e l with ⟨h1, h2⟩ | ⟨h1, h2⟩ <;> rcases classify_sorts checks t n e l' with ⟨g1, g2⟩ | ⟨g1, g2⟩
  · rw [h2, g2]; exact .error _
  · exact absurd (hm.2 h1) g1
  · exact absurd (hm.1 g1) h1
  · rw [h2, g2]
    refine .ok ⟨g, ?_, ?_⟩ <;> (unfold pick; congr 1; funext s; exact hg s)

theorem applied_picked {checks : Bool} {t : Tree} {root body : NodeId} (hw : t.Wf root body) {n : NodeId} (hn : (t.ctx n).isSome) {fuel : Nat} {l l' : List Style} (h : SameParts fuel l l') (g : List Complex → Option Bool) :
    ExRel (SameEffect fuel) (applied checks viewPseudo t n (pick g l)) (applied checks viewPseudo t n (pick g l')) := by
  have fails : ∀ l, (∃ x ∈ pick g l, x.Fails checks t n) ↔ ∃ s ∈ l, g s.selectors = some false ∧ ∃ f, matchStyle checks viewPseudo t ⟨s.selectors, []⟩ n = .error f := by
    intro l
    constructor
    · rintro ⟨x, h1, h2⟩
      obtain ⟨s, h3, h4⟩ := List.mem_filterMap.1 h1
      obtain ⟨b, h5, rfl⟩ := Option.map_eq_some_iff.1 h4
      cases b with
      | true => exact h2.elim
      | false => exact ⟨s, h3, h5, h2⟩
    · rintro ⟨s, h1, h2, h3⟩
      exact ⟨mkKept s false, List.mem_filterMap.2 ⟨s, h1, by rw [h2]; rfl⟩, h3⟩
  have uses : ∀ l, (pick g l).filterMap (useRule checks t n) = l.filter fun s => match g s.selectors with
      | none => false | some true => true | some false => match matchStyle checks viewPseudo t ⟨s.selectors, []⟩ n with | .ok true => true | _ => false := by
    intro l
    unfold pick
    rw [List.filterMap_filterMap, ← List.filterMap_eq_filter]
    congr 1
    funext s
    have h1 : matchStyle checks viewPseudo t ⟨s.selectors, []⟩ n = matchStyle checks viewPseudo t s n := rfl
    simp only [Option.guard, h1]
    cases hg : g s.selectors with
    | none => rfl
    | some b =>
      cases b with
      | true => rfl
      | false =>
        simp only [Option.map_some, Option.bind_some, mkKept, useRule, Bool.false_eq_true, if_false]
        cases matchStyle checks viewPseudo t s n with
        | error f => rfl
        | ok m => cases m <;> rfl
  have hm := h.mem (P := fun c => g c = some false ∧ ∃ f, matchStyle checks viewPseudo t ⟨c, []⟩ n = .error f) fun c hc => panics_plus hw hn hc.2
  rcases applied_uses checks t n (pick g l) with ⟨h1, h2⟩ | ⟨h1, h2⟩ <;> rcases applied_uses checks t n (pick g l') with ⟨g1, g2⟩ | ⟨g1, g2⟩
  · rw [h2, g2]; exact .error _
  · exact absurd ((fails _).2 (hm.2 ((fails _).1 h1))) g1
  · exact absurd ((fails _).2 (hm.1 ((fails _).1 g1))) h1
  · rw [h2, g2, uses, uses]
    exact .ok (h.effect fun c => match g c with
      | none => false | some true => true | some false => match matchStyle checks viewPseudo t ⟨c, []⟩ n with | .ok true => true | _ => false)

/-! ## The whole program -/

/-- The rules kept of both lists are taken by their selectors. -/
def Picked (l l' : List Style) (k k' : NodeId → List ElementStyle) : Prop := ∀ m, ∃ g, k m = pick g l ∧ k' m = pick g l'

theorem keepRules_picked {checks : Bool} {t : Tree} {root body : NodeId} (hw : t.Wf root body) {fuel : Nat} {l l' : List Style} (h : SameParts fuel l l') (depth : Nat) :
    ∀ {n : NodeId} {k k' : NodeId → List ElementStyle}, Picked l l' k k' → ExRel (Picked l l') (keepRules checks l t depth n k) (keepRules checks l' t depth n k') := by
  induction depth with
  | zero => intro n k k' _; exact .error _
  | succ depth ih =>
    intro n k k' hk
    rw [keepRules, keepRules]
    cases he : t.ctx n with
    | none => exact .error _
    | some e =>
      simp only
      have hc := classify_picked (checks := checks) hw (n := n) (e := e) (by rw [he]; rfl) h
      revert hc
      generalize classify checks t n e l = A
      generalize classify checks t n e l' = B
      intro hc
      cases hc with
      | error f => exact .error _
      | @ok c c' hc =>
        simp only
        have loop : ∀ (cs : List NodeId) {k k' : NodeId → List ElementStyle}, Picked l l' k k' →
            ExRel (Picked l l') (keepEach (fun kept c => keepRules checks l t depth c kept) cs k) (keepEach (fun kept c => keepRules checks l' t depth c kept) cs k') := by
          intro cs
          induction cs with
          | nil => intro k k' hk; exact .ok hk
          | cons c cs ihc =>
            intro k k' hk
            simp only [keepEach]
            have h1 := ih (n := c) hk
            revert h1
            generalize keepRules checks l t depth c k = A
            generalize keepRules checks l' t depth c k' = B
            intro h1
            cases h1 with
            | error f => exact .error _
            | ok h1 => exact ihc h1
        refine loop _ fun m => ?_
        by_cases hm : m = n
        · subst hm; rw [upd_same, upd_same]; exact hc
        · rw [upd_other _ _ hm, upd_other _ _ hm]; exact hk m

structure App.PicksAlike (l l' : List Style) (a a' : App) : Prop where
  screen : a'.screen = a.screen
  layouts : a'.layouts = a.layouts
  animations : a'.css.animations = a.css.animations
  kept : Picked l l' a.kept a'.kept

theorem openApp_picked {fuel fuel0 : Nat} {document : Html} {css css' : Css} (hm : SameParts fuel0 css.styles css'.styles) (ha : css'.animations = css.animations) :
    ExRel (App.PicksAlike css.styles css'.styles) (openApp p fuel document css) (openApp p fuel document css') := by
  unfold openApp
  rw [collect_doc]
  simp only
  cases hrv : renderView ⟨templateFor document.children, p.translate, p.inline⟩ fuel (docBody document) with
  | error f => exact .error _
  | ok r =>
    obtain ⟨root, body, σ⟩ := r
    simp only
    split
    · exact .error _
    · have hr := keepRules_picked (checks := p.checks) (renderView_ok hrv).wf hm fuel (n := body) (k := fun _ => []) (k' := fun _ => [])
        (fun _ => ⟨fun _ => none, by unfold pick; simp, by unfold pick; simp⟩)
      revert hr
      generalize keepRules p.checks css.styles σ.tree fuel body (fun _ => []) = A
      generalize keepRules p.checks css'.styles σ.tree fuel body (fun _ => []) = B
      intro hr
      cases hr with
      | error f => exact .error _
      | ok hr =>
        simp only
        split
        · exact .error _
        · exact .ok ⟨rfl, rfl, ha, hr⟩

theorem App.PicksAlike.update {fuel fuel' : Nat} {document : Html} {l l' : List Style} (hp : SameParts fuel' l l') {a a' : App} (h : Living p fuel document a)
    (hm : App.PicksAlike l l' a a') (order : FrameOrder) (input : Input) (value : Json) :
    ExRel (fun r r' => App.PicksAlike l l' r.1 r'.1 ∧ r'.2 = r.2) (a.update p fuel' order input value) (a'.update p fuel' order input value) := by
  obtain ⟨sc, css, kept, layouts⟩ := a
  obtain ⟨sc', css', kept', layouts'⟩ := a'
  obtain ⟨h1, h2, h3, h4⟩ := hm
  simp only at h1 h2 h3 h4
  subst h1 h2
  unfold App.update
  simp only
  cases hv : sc'.view.update p.inline value with
  | error f => exact .error _
  | ok v =>
    simp only
    obtain ⟨wf, -⟩ := h.bound hv
    have key := styleTree_declared (env := App.env p fuel' order ⟨sc', css, kept, layouts'⟩ input.time) (rules' := kept') (linked_of_wf wf)
      (fun n hn => by
        obtain ⟨g, e1, e2⟩ := h4 n
        show ExRel _ (applied p.checks viewPseudo v.stage.tree n (kept n)) (applied p.checks viewPseudo v.stage.tree n (kept' n))
        rw [e1, e2]
        exact applied_picked wf hn hp g) fuel' (n := v.body)
      (sizes := ⟨16, 16, ⟨0, 0, 0, 0⟩, input.viewport.1, input.viewport.2⟩) (vars := fun _ => none)
      (s := ⟨v.stage.tree, upd layouts' v.root (resizeRoot input.viewport (layouts' v.root))⟩) (Restyled.refl _)
    have henv : App.env p fuel' order ⟨sc', css', kept', layouts'⟩ input.time =
        { App.env p fuel' order ⟨sc', css, kept, layouts'⟩ input.time with rules := kept' } := by
      unfold App.env; simp only [h3]
    unfold styleView
    rw [henv, key]
    split
    · exact .error _
    · split
      · exact .error _
      · split
        · exact .error _
        · exact .ok ⟨⟨rfl, rfl, h3, h4⟩, rfl⟩

theorem App.PicksAlike.run {fuel fuel' : Nat} {document : Html} {l l' : List Style} (hp : SameParts fuel' l l') (fs : List Frame) :
    ∀ {a a' : App}, Living p fuel document a → App.PicksAlike l l' a a' →
      ExRel (fun r r' => App.PicksAlike l l' r.1 r'.1 ∧ r'.2 = r.2) (a.run p fuel' fs) (a'.run p fuel' fs) := by
  induction fs with
  | nil => intro a a' _ hm; exact .ok ⟨hm, rfl⟩
  | cons f fs ih =>
    intro a a' h hm
    simp only [App.run]
    have hu := hm.update hp h f.order f.input f.value
    cases hA : a.update p fuel' f.order f.input f.value with
    | error e =>
      rw [hA] at hu
      generalize a'.update p fuel' f.order f.input f.value = B at hu
      cases hu
      exact .error _
    | ok r =>
      rw [hA] at hu
      have hl := h.updated (show a.update p fuel' f.order f.input f.value = .ok (r.1, r.2) from hA)
      generalize a'.update p fuel' f.order f.input f.value = B at hu
      cases hu with
      | ok hu =>
        rename_i r'
        obtain ⟨r1, o1⟩ := r
        obtain ⟨r2, o2⟩ := r'
        obtain ⟨h1, h2⟩ := hu
        simp only at h1 h2 hl ⊢
        subst h2
        have h3 := ih hl h1
        revert h3
        generalize r1.run p fuel' fs = A
        generalize r2.run p fuel' fs = B
        intro h3
        cases h3 with
        | error e => exact .error _
        | ok h3 =>
          rename_i x y
          obtain ⟨x1, x2⟩ := x
          obtain ⟨y1, y2⟩ := y
          obtain ⟨h4, h5⟩ := h3
          simp only at h4 h5 ⊢
          subst h5
          exact .ok ⟨h4, rfl⟩

/-- Programs whose rules have the same selectors and come to the same wherever they are taken by their selectors behave the same. -/
theorem played_parts {fuel fuel' : Nat} {document : Html} {css css' : Css} (hm : SameParts fuel' css.styles css'.styles)
    (ha : css'.animations = css.animations) (fs : List Frame) : played p fuel fuel' document css' fs = played p fuel fuel' document css fs := by
  have h := openApp_picked (p := p) (fuel := fuel) (document := document) hm ha
  unfold played
  cases hA : openApp p fuel document css with
  | error e =>
    rw [hA] at h
    generalize openApp p fuel document css' = B at h
    cases h; rfl
  | ok b =>
    rw [hA] at h
    have hl := Living.opened hA
    generalize openApp p fuel document css' = B at h
    cases h with
    | ok h =>
      rename_i b'
      have hr := App.PicksAlike.run hm fs hl h
      simp only
      revert hr
      generalize b.run p fuel' fs = A
      generalize b'.run p fuel' fs = B
      intro hr
      cases hr with
      | error e => rfl
      | ok hr =>
        rename_i x y
        obtain ⟨x1, x2⟩ := x
        obtain ⟨y1, y2⟩ := y
        obtain ⟨h4, h5⟩ := hr
        simp only at h4 h5 ⊢
        rw [h5, h4.screen, h4.layouts]

/-! ## Declarations that are outdone -/

/-- Where `n` single words for a property are written. -/
def placesFrom (key : PropertyKey) : Nat → Nat → List Descriptor
  | _, 0 => []
  | i, n + 1 => (expand key [.error]).map (fun x => ⟨x.1, i⟩) ++ placesFrom key (i + 1) n

theorem placesFrom_mono (key : PropertyKey) {n m : Nat} (h : n ≤ m) {x : Descriptor} : ∀ {i}, x ∈ placesFrom key i n → x ∈ placesFrom key i m := by
  induction n generalizing m with
  | zero => intro i hx; cases hx
  | succ n ih =>
    intro i hx
    obtain ⟨m, rfl⟩ : ∃ m', m = m' + 1 := ⟨m - 1, by omega⟩
    simp only [placesFrom, List.mem_append] at hx ⊢
    exact hx.imp id (ih (by omega))

theorem expand_word {key : PropertyKey} (hk : key ≠ .Border) (x : ComputedValue) : (expand key [x]).map (·.1) = (expand key [.error]).map (·.1) := by
  cases key <;> first | exact absurd rfl hk | rfl

theorem overwrites_write (index : Nat) (l : List (PropertyKey × ComputedValue)) (m : ComputedStyle) :
    overwrites index l m = writeAll (l.map fun x => (⟨x.1, index⟩, x.2)) m := by
  induction l generalizing m with
  | nil => rfl
  | cons x l ih => exact ih _

theorem computeValues_words (fuel : Nat) {key : PropertyKey} (hk : key ≠ .Border) {vs : List Shorthand} (h : ∀ v ∈ vs, v.Word) : ∀ i, ∃ w : ComputedStyle,
    w.map (·.1) = placesFrom key i vs.length ∧ ∀ vars m, computeValues vars (fuel + 1) key i vs m = some (writeAll w m) := by
  induction vs with
  | nil => exact fun i => ⟨[], rfl, fun _ _ => rfl⟩
  | cons v vs ih =>
    intro i
    obtain ⟨w, h1, h2⟩ := ih (fun v hv => h v (List.mem_cons_of_mem _ hv)) (i + 1)
    obtain ⟨x, rfl⟩ := h v List.mem_cons_self
    refine ⟨((expand key [x]).map fun y => (⟨y.1, i⟩, y.2)) ++ w, ?_, fun vars m => ?_⟩
    · rw [List.map_append, h1]
      simp only [List.length_cons, placesFrom, List.map_map]
      congr 1
      have := congrArg (List.map fun k => (⟨k, i⟩ : Descriptor)) (expand_word hk x)
      rw [List.map_map, List.map_map] at this
      exact this
    · simp only [computeValues, computeStyle, computeShorthand, gather, computeDef, List.append_nil, h2, writeAll_append, overwrites_write]

theorem outside_larger {keys keys' : List Descriptor} (h : ∀ x ∈ keys, x ∈ keys') {m m' : ComputedStyle} (hm : outside keys m = outside keys m') : outside keys' m = outside keys' m' := by
  have key : ∀ m, outside keys' m = outside keys' (outside keys m) := by
    intro m
    unfold outside
    rw [List.filter_filter]
    apply List.filter_congr
    intro x _
    by_cases hx : x.1 ∈ keys
    · simp [hx, h _ hx]
    · simp [hx]
  rw [key m, key m', hm]

theorem computeBlock_each (fuel : Nat) (block : List Declaration) (vars : Variables) (m : ComputedStyle) :
    computeBlock fuel block vars m = computeBlocks fuel (block.map fun d => [d]) vars m := by
  rw [computeBlocks_flatten]
  congr 1
  induction block with
  | nil => rfl
  | cons d block ih => simp only [List.map_cons, List.flatten_cons, List.cons_append, List.nil_append, ← ih]

/-- An outdone declaration makes no difference. -/
theorem computeBlock_outdone (fuel : Nat) {d d' : Declaration} (h : d'.Outdoes d) {block : List Declaration} (hb : d' ∈ block) (vars : Variables) (m : ComputedStyle) :
    computeBlock fuel (d :: block) vars m = computeBlock fuel block vars m := by
  cases d with
  | «variable» k s => cases d' <;> exact h.elim
  | property key vs =>
    cases d' with
    | «variable» k s => exact h.elim
    | property key' vs' =>
      obtain ⟨rfl, hk, hlen, hw', hw⟩ := h
      have hmem : [Declaration.property key' vs'] ∈ block.map fun d => [d] := List.mem_map_of_mem hb
      cases fuel with
      | zero =>
        cases vs with
        | nil => rfl
        | cons v vs =>
          have none : ∀ (v : Shorthand) vs, (∀ v' ∈ v :: vs, v'.Word) → ∀ vars m, computeValues vars 0 key' 0 (v :: vs) m = none := by
            intro v vs h vars m
            obtain ⟨x, rfl⟩ := h v List.mem_cons_self
            rfl
          cases vs' with
          | nil => simp at hlen
          | cons v' vs' =>
            rw [computeBlock_each 0 block, computeBlocks_none (b := [.property key' (v' :: vs')]) (fun vars m => by simp only [computeBlock, none v' vs' hw']) hmem]
            simp only [computeBlock, none v vs hw]
      | succ fuel =>
        obtain ⟨w, h1, h2⟩ := computeValues_words fuel hk hw 0
        obtain ⟨w', h3, h4⟩ := computeValues_words fuel hk hw' 0
        simp only [computeBlock, h2]
        rw [computeBlock_each _ block, computeBlock_each _ block]
        refine computeBlocks_over (w := w') (fun vars m => by simp only [computeBlock, h4]) hmem vars (outside_larger (keys := w.map (·.1)) (fun x hx => ?_) ?_)
        · rw [h1] at hx
          rw [h3]
          exact placesFrom_mono _ hlen hx
        · exact outside_forget _ w (fun _ hx => List.mem_map_of_mem hx) m

theorem computeBlock_outdone_within (fuel : Nat) (a : List Declaration) {d d' : Declaration} (h : d'.Outdoes d) {block : List Declaration} (hb : d' ∈ block) (vars : Variables)
    (m : ComputedStyle) : computeBlock fuel (a ++ d :: block) vars m = computeBlock fuel (a ++ block) vars m := by
  rw [computeBlock_append, computeBlock_append]
  congr 1
  funext r
  exact computeBlock_outdone fuel h hb _ _

theorem Trimmed.parts (fuel : Nat) {l l' : List Style} (h : Trimmed l l') : SameParts fuel l l' := by
  induction h with
  | nil => exact ⟨fun _ _ => .rfl, fun _ _ _ _ => rfl⟩
  | @same s l l' _ ih =>
    refine ⟨fun c hc => by simp only [List.map_cons, List.mem_cons, ih.selectors c hc], fun f rest vars m => ?_⟩
    simp only [List.filter_cons]
    split
    · simp only [List.map_cons, List.cons_append, computeBlocks, ih.effect f rest]
    · exact ih.effect f rest vars m
  | @drop sel a d b l l' ho _ ih =>
    refine ⟨fun c hc => by simp only [List.map_cons, List.mem_cons, ih.selectors c hc], fun f rest vars m => ?_⟩
    simp only [List.filter_cons]
    split
    · rename_i hf
      have e1 : computeBlocks fuel (((⟨sel, a ++ b⟩ : Style) :: l'.filter fun s => f s.selectors).map (·.declaration) ++ rest) vars m =
          computeBlocks fuel (((⟨sel, a ++ b⟩ : Style) :: l.filter fun s => f s.selectors).map (·.declaration) ++ rest) vars m := by
        simp only [List.map_cons, List.cons_append, computeBlocks, ih.effect f rest]
      rw [e1, computeBlocks_flatten, computeBlocks_flatten]
      simp only [List.map_cons, List.cons_append, List.flatten_cons, List.append_assoc]
      rcases ho with ⟨d', h1, h2⟩ | ⟨r, h1, h2, d', h3, h4⟩
      · exact (computeBlock_outdone_within fuel a h2 (List.mem_append_left _ h1) vars m).symm
      · refine (computeBlock_outdone_within fuel a h4 (List.mem_append_right _ ?_) vars m).symm
        rw [List.mem_flatten]
        refine ⟨r.declaration, List.mem_append_left _ (List.mem_map_of_mem (List.mem_filter.2 ⟨h1, ?_⟩)), h3⟩
        simp only [h2]; exact hf
    · exact ih.effect f rest vars m

end Verif
