import Verif.View.FrameEnds
import Verif.Props.StyleExamples
/-!
# C67: a frame of styling succeeds
-/
namespace Verif

theorem applied_total {checks : Bool} {t : Tree} {root body : NodeId} (hw : t.Wf root body) {n : NodeId} (hn : (t.ctx n).isSome) (l : List ElementStyle)
    (hp : ∀ r ∈ l, r.rule.NoPlus) : ∃ rules, applied checks viewPseudo t n l = .ok rules ∧ ∀ s ∈ rules, ∃ r ∈ l, s = r.rule := by
  induction l with
  | nil => exact ⟨[], rfl, by simp⟩
  | cons r l ih =>
    obtain ⟨rules, h1, h2⟩ := ih (fun r hr => hp r (List.mem_cons_of_mem _ hr))
    have keep : ∀ s ∈ rules, ∃ r' ∈ r :: l, s = r'.rule := fun s hs => by
      obtain ⟨r', hr', e⟩ := h2 s hs; exact ⟨r', List.mem_cons_of_mem _ hr', e⟩
    cases r with
    | static s =>
      refine ⟨s :: rules, by simp only [applied, h1], fun x hx => ?_⟩
      rcases List.mem_cons.1 hx with rfl | hx
      · exact ⟨_, List.mem_cons_self, rfl⟩
      · exact keep x hx
    | dynamic s =>
      obtain ⟨b, hb, -⟩ := matchAny_total (checks := checks) (pc := viewPseudo) hw hn s.selectors (hp (.dynamic s) List.mem_cons_self)
      refine ⟨if b then s :: rules else rules, by simp only [applied, matchStyle, hb, h1], fun x hx => ?_⟩
      split at hx
      · rcases List.mem_cons.1 hx with rfl | hx
        · exact ⟨_, List.mem_cons_self, rfl⟩
        · exact keep x hx
      · exact keep x hx

/-- What `Tame` says about one element. -/
structure TameAt (rank : String → Nat) (env : FrameEnv) (t : Tree) (n : NodeId) (e : Element) : Prop where
  rules : ∀ r ∈ env.rules n, ∀ x ∈ r.rule.declaration, x.Ranked rank
  inline : ∀ x ∈ e.style, x.Ranked rank
  noPlus : ∀ r ∈ env.rules n, r.rule.NoPlus
  animators : ∀ a ∈ e.animators, (env.animations a.name).isSome → 0 < a.duration
  transitions : ∀ x ∈ e.transitions, ∀ key, x.key = some key → 0 < x.animator.duration ∧ (x.range.isSome ∨ Silent env t n e key)

theorem styleElement_settles {rank : String → Nat} {env : FrameEnv} (hf : env.order.Fair) {t : Tree} {root body : NodeId} (hw : t.Wf root body) {n : NodeId} {e : Element}
    (he : t.ctx n = some e) (ht : TameAt rank env t n e) (parent : Element) (sizes : Sizes) {vars : Variables} (hv : RankedVars rank vars) (layout : LayoutStyle) :
    ∃ l e' vars' F, RankedVars rank vars' ∧ ∀ fuel ≥ F, styleElement (env.bounded fuel) t n parent sizes vars layout e = .ok ((l, e'), vars') := by
  obtain ⟨rules, ha, hr⟩ := applied_total (checks := env.checks) hw (by rw [he]; rfl) (env.rules n) ht.noPlus
  have hblocks : ∀ x ∈ (elementBlocks rules e.style).flatten, x.Ranked rank := by
    intro x hx
    unfold elementBlocks at hx
    simp only [List.flatten_append, List.mem_append, List.mem_flatten, List.mem_map] at hx
    rcases hx with ⟨b, ⟨s, hs, rfl⟩, hx⟩ | ⟨b, hb, hx⟩
    · obtain ⟨r, hr', rfl⟩ := hr s hs
      exact ht.rules r hr' x hx
    · split at hb
      · cases hb
      · simp only [List.mem_cons, List.not_mem_nil, or_false] at hb
        subst hb; exact ht.inline x hx
  obtain ⟨vars', style, F1, hv', h1⟩ := computeBlock_settles _ hblocks hv []
  obtain ⟨r2, F2, h2⟩ := playAnimators_settles hf n hv' e.animators ht.animators 0 style
  have hsil : ∀ key, Silent env t n e key → r2.2.get ⟨key, 0⟩ = none := by
    intro key hs
    have hd1 : ∀ d v, style.get d = some v → d.key ≠ key := by
      have := h1 F1 le_rfl
      rw [← computeBlocks_flatten] at this
      refine computeBlocks_domain this ?_
      intro b hb x hx vars d v hset hkey
      refine hs x (.inl ?_) ⟨vars, d.index, v, by cases d; simp only at hkey; subst hkey; exact hset⟩
      unfold declarations
      rw [ha]
      simp only [List.mem_append, List.mem_flatten, List.mem_map]
      unfold elementBlocks at hb
      rcases List.mem_append.1 hb with hb | hb
      · exact .inl ⟨b, List.mem_map.1 hb, hx⟩
      · split at hb
        · cases hb
        · simp only [List.mem_cons, List.not_mem_nil, or_false] at hb
          subst hb; exact .inr hx
    have hd2 : ∀ d v, r2.2.get d = some v → d.key ≠ key := by
      refine playAnimators_domain (env := env.bounded F2) hf e.animators 0 ?_ (h2 F2 le_rfl) hd1
      intro x hx an han k hk y hy vars d v hset hkey
      refine hs y (.inr ?_) ⟨vars, d.index, v, by cases d; simp only at hkey; subst hkey; exact hset⟩
      unfold keyframeDeclarations
      simp only [List.mem_flatten, List.mem_map]
      refine ⟨(an.keyframes.map (·.declaration)).flatten, ⟨x, hx, ?_⟩, ?_⟩
      · rw [show env.animations x.name = some an from han]
      · exact List.mem_flatten.2 ⟨_, List.mem_map.2 ⟨k, hk, rfl⟩, hy⟩
    cases hg : r2.2.get ⟨key, 0⟩ with
    | none => rfl
    | some v => exact absurd rfl (hd2 _ _ hg)
  obtain ⟨r3, F3, h3⟩ := playTransitions_settles env.time e.transitions (style := r2.2)
    (fun x hx key hk => ⟨(ht.transitions x hx key hk).1, (ht.transitions x hx key hk).2.imp id (hsil key)⟩)
  refine ⟨(applyAll sizes (env.order.style n r3.2) (layout, { parent.inherit e.reset with animators := r2.1, transitions := r3.1 })).1,
    { (applyAll sizes (env.order.style n r3.2) (layout, { parent.inherit e.reset with animators := r2.1, transitions := r3.1 })).2 with
      transitions := (applyAll sizes (env.order.style n r3.2) (layout, { parent.inherit e.reset with animators := r2.1, transitions := r3.1 })).2.transitions.map fun t => t.init r3.2 },
    vars', max F1 (max F2 F3), hv', fun fuel hfu => ?_⟩
  have q1 : F1 ≤ fuel := by omega
  have q2 : F2 ≤ fuel := by omega
  have q3 : F3 ≤ fuel := by omega
  unfold styleElement
  simp only [show (env.bounded fuel).checks = env.checks from rfl, show (env.bounded fuel).rules = env.rules from rfl, show (env.bounded fuel).fuel = fuel from rfl,
    show (env.bounded fuel).order = env.order from rfl, show (env.bounded fuel).time = env.time from rfl, ha,
    show (parent.inherit e.reset).style = e.style from rfl, computeBlocks_flatten, h1 fuel q1,
    show (parent.inherit e.reset).animators = e.animators from rfl, show (parent.inherit e.reset).transitions = e.transitions from rfl, h2 fuel q2, h3 fuel q3]

theorem styleTree_settles {rank : String → Nat} {env : FrameEnv} (hf : env.order.Fair) {t0 : Tree} {root body : NodeId} (hw : t0.Wf root body) (d : Nat) :
    ∀ {n p : NodeId} {s : Styled} {sizes : Sizes} {vars : Variables}, t0.next ≤ n + d → Restyled t0 s.tree → (∀ m, InSubtree t0 n m → s.tree.ctx m = t0.ctx m) →
      t0.par n = some p → (t0.ctx p).isSome → (t0.ctx n).isSome → (∀ m e, InSubtree t0 n m → t0.ctx m = some e → TameAt rank env t0 m e) → RankedVars rank vars →
      ∃ s' F, ∀ fuel ≥ F, ∀ depth ≥ d + 1, styleTree (env.bounded fuel) depth n sizes vars s = .ok s' := by
  have hl := linked_of_wf hw
  induction d with
  | zero =>
    intro n p s sizes vars hnext _ _ _ _ hn
    have := hw.exist n hn
    unfold NodeId at *
    omega
  | succ d ih =>
    intro n p s sizes vars hnext hr hsame hp hpe hn htame hv
    obtain ⟨e, he⟩ := Option.isSome_iff_exists.1 hn
    obtain ⟨pe0, hpe0⟩ := Option.isSome_iff_exists.1 hpe
    obtain ⟨parent, hpar, -⟩ := hr.there p pe0 hpe0
    have hes : s.tree.ctx n = some e := (hsame n .here).trans he
    have hbind : (s.tree.par n).bind s.tree.ctx = some parent := by rw [hr.par, hp]; exact hpar
    by_cases ht : e.text.isSome
    · refine ⟨s.put n (s.layouts n) (parent.inherit e), 0, fun fuel _ depth hdep => ?_⟩
      obtain ⟨k, rfl⟩ : ∃ k, depth = k + 1 := ⟨depth - 1, by omega⟩
      rw [styleTree, hbind, hes]
      simp only [ht, if_true]
    · obtain ⟨l, e', vars', F1, hv', h1⟩ := styleElement_settles hf hw he (htame n e .here he) parent sizes hv (s.layouts n)
      have h1' : ∀ fuel ≥ F1, styleElement (env.bounded fuel) s.tree n parent sizes vars (s.layouts n) e = .ok ((l, e'), vars') := fun fuel hfu => by
        rw [styleElement_restyled hr]; exact h1 fuel hfu
      by_cases hleaf : e'.tag ∈ leafTags
      · refine ⟨s.put n l e', F1, fun fuel hfu depth hdep => ?_⟩
        obtain ⟨k, rfl⟩ : ∃ k, depth = k + 1 := ⟨depth - 1, by omega⟩
        rw [styleTree, hbind, hes]
        simp only [ht, if_false, h1' fuel hfu, hleaf, if_true, Bool.false_eq_true]
      · have hform := styleElement_form (h1' F1 le_rfl)
        have hfr := put_framed s hes hform.1 hform.2.1 hform.2.2 l
        have loop : ∀ (cs : List NodeId) (s1 : Styled), cs.Nodup → (∀ c ∈ cs, c ∈ t0.kids n) → Restyled t0 s1.tree →
            (∀ c ∈ cs, ∀ m, InSubtree t0 c m → s1.tree.ctx m = t0.ctx m) →
            ∃ s2 F, ∀ fuel ≥ F, ∀ depth ≥ d + 1, forEach (fun s c => styleTree (env.bounded fuel) depth c (sizes.under e') vars' s) cs s1 = .ok s2 := by
          intro cs
          induction cs with
          | nil => intro s1 _ _ _ _; exact ⟨s1, 0, fun _ _ _ _ => rfl⟩
          | cons c cs ihc =>
            intro s1 hnd hmem hr1 hs1
            have hcp := hl.link _ _ (hmem c List.mem_cons_self)
            have hlt := hl.older _ _ hcp
            have hcs := (hw.slotsYounger n c (hw.sub n c (hmem c List.mem_cons_self))).2.2
            obtain ⟨s3, F3, h3⟩ := ih (n := c) (p := n) (s := s1) (sizes := sizes.under e') (vars := vars') (by unfold NodeId at *; omega) hr1
              (hs1 c List.mem_cons_self) hcp hn hcs (fun m e hm => htame m e ((InSubtree.deeper hcp .here).trans hm)) hv'
            obtain ⟨g1, -⟩ := styleTree_spec (d + 1) (hl.restyled hr1) (h3 F3 le_rfl (d + 1) le_rfl)
            obtain ⟨s2, F2, h2⟩ := ihc s3 (List.nodup_cons.1 hnd).2 (fun c' hc' => hmem c' (List.mem_cons_of_mem _ hc')) (hr1.trans g1.restyled) (by
              intro c' hc' m hm
              rw [g1.ctx m, hs1 c' (List.mem_cons_of_mem _ hc') m hm]
              intro hm'
              have := InSubtree.siblings hl hcp (hl.link _ _ (hmem c' (List.mem_cons_of_mem _ hc'))) ((InSubtree.restyled hr1).1 hm') hm
              subst this
              exact (List.nodup_cons.1 hnd).1 hc')
            refine ⟨s2, max F3 F2, fun fuel hfu depth hdep => ?_⟩
            rw [forEach, h3 fuel (le_trans (le_max_left _ _) hfu) depth hdep]
            exact h2 fuel (le_trans (le_max_right _ _) hfu) depth hdep
        obtain ⟨s2, F2, h2⟩ := loop (t0.kids n) (s.put n l e') (hl.nodup n) (fun _ h => h) (hr.trans hfr.restyled) (by
          intro c hc m hm
          have hcp := hl.link _ _ hc
          have hmn : m ≠ n := by
            rintro rfl
            have := hm.le hl
            have := hl.older _ _ hcp
            unfold NodeId at *
            omega
          simp only [Styled.put, Tree.setCtx, upd_other _ _ hmn]
          exact hsame m ((InSubtree.deeper hcp .here).trans hm))
        refine ⟨s2, max F1 F2, fun fuel hfu depth hdep => ?_⟩
        obtain ⟨k, rfl⟩ : ∃ k, depth = k + 1 := ⟨depth - 1, by omega⟩
        rw [styleTree, hbind, hes]
        simp only [ht, if_false, h1' fuel (le_trans (le_max_left _ _) hfu), hleaf, Bool.false_eq_true]
        rw [hr.kids]
        exact h2 fuel (le_trans (le_max_right _ _) hfu) k (by omega)

/-- **C67** Styling a frame comes to an end with a result, whatever the rules, elements, animations and order of
hash maps, if no variable is defined by itself, no rule has a `+`, and animations and transitions are ready. -/
theorem C67_frame_succeeds {env : FrameEnv} (hf : env.order.Fair) {s : Styled} {root body : NodeId} (hw : s.tree.Wf root body)
    (hb : s.tree.par body = some root) (hbe : (s.tree.ctx body).isSome) (ht : Tame env s.tree) (viewport : Rat × Rat) :
    ∃ s' fuel depth, ∀ fuel' ≥ fuel, ∀ depth' ≥ depth, styleView (env.bounded fuel') depth' body viewport s = .ok s' := by
  obtain ⟨rank, hr1, hr2⟩ := ht.acyclic
  obtain ⟨s', F, h⟩ := styleTree_settles (rank := rank) hf hw s.tree.next (n := body) (p := root) (s := s)
    (sizes := ⟨16, 16, ⟨0, 0, 0, 0⟩, viewport.1, viewport.2⟩) (vars := fun _ => none) (by omega) (Restyled.refl _) (fun _ _ => rfl) hb hw.rootExists hbe
    (fun m e _ he => ⟨hr1 m, hr2 m e he, ht.noPlus m, ht.animators m e he, ht.transitions m e he⟩) (by intro name l h; cases h)
  exact ⟨s', F, s.tree.next + 1, fun fuel hfu depth hd => h fuel hfu depth hd⟩

/-- Freshly rendered elements of `styleDoc` have no inline style, animations or transitions. -/
theorem styleStart_plain {n : NodeId} {e : Element} (he : styleStart.tree.ctx n = some e) : e.style = [] ∧ e.animators = [] ∧ e.transitions = [] := by
  have hall : ([0, 1, 2, 3, 4].all fun n => decide ((styleStart.tree.ctx n).map (fun e => (e.style.length, e.animators, e.transitions)) = some (0, [], []))) = true := by
    decide +kernel
  have hnext : styleStart.tree.next = 5 := by decide +kernel
  have hlt := styleDoc_wf.exist n (by rw [he]; rfl)
  rw [hnext] at hlt
  simp only [List.all_eq_true, decide_eq_true_eq] at hall
  have := hall n (by unfold NodeId at *; simp only [List.mem_cons, List.not_mem_nil, or_false]; omega)
  rw [he] at this
  simp only [Option.map_some, Option.some.injEq, Prod.mk.injEq, List.length_eq_zero_iff] at this
  exact this

theorem bodyRule_ranked : ∀ x ∈ bodyRule.declaration, x.Ranked (fun _ => 0) := by
  intro x hx
  simp only [bodyRule, List.mem_cons, List.not_mem_nil, or_false] at hx
  rcases hx with rfl | rfl
  · intro m hm; cases hm with | tail hm => cases hm
  · trivial

/-- The hypotheses of C67 are met by the document and the rules above. -/
example : styleEnv.order.Fair ∧ styleStart.tree.par 1 = some 0 ∧ (styleStart.tree.ctx 1).isSome ∧ Tame styleEnv styleStart.tree := by
  refine ⟨orderId_fair, by decide +kernel, by decide +kernel, ⟨fun _ => 0, ?_, ?_⟩, ?_, ?_, ?_⟩
  · intro n r hr
    simp only [styleEnv] at hr
    split at hr
    · simp only [List.mem_cons, List.not_mem_nil, or_false] at hr; subst hr; exact bodyRule_ranked
    · split at hr
      · simp only [List.mem_cons, List.not_mem_nil, or_false] at hr
        rcases hr with rfl | rfl <;> intro x hx <;>
          simp only [ElementStyle.rule, boxRule, hoverRule, List.mem_cons, List.not_mem_nil, or_false] at hx
        · rcases hx with rfl | rfl | rfl <;> trivial
        · rcases hx with rfl | rfl | rfl | rfl <;> trivial
      · simp at hr
  · intro n e he x hx; rw [(styleStart_plain he).1] at hx; cases hx
  · intro n r hr
    simp only [styleEnv] at hr
    split at hr
    · simp only [List.mem_cons, List.not_mem_nil, or_false] at hr; subst hr
      intro c hc; simp only [ElementStyle.rule, bodyRule, List.mem_cons, List.not_mem_nil, or_false] at hc; subst hc; decide
    · split at hr
      · simp only [List.mem_cons, List.not_mem_nil, or_false] at hr
        rcases hr with rfl | rfl <;> intro c hc <;>
          simp only [ElementStyle.rule, boxRule, hoverRule, List.mem_cons, List.not_mem_nil, or_false] at hc <;> subst hc <;> decide
      · simp at hr
  · intro n e he a ha; rw [(styleStart_plain he).2.1] at ha; cases ha
  · intro n e he a ha; rw [(styleStart_plain he).2.2] at ha; cases ha

/-! ## Frames that do not end -/

/-- What styling the body begins with. -/
theorem styleView_body {env : FrameEnv} {depth : Nat} {body : NodeId} {viewport : Rat × Rat} {s : Styled} {parent e : Element}
    (hp : (s.tree.par body).bind s.tree.ctx = some parent) (he : s.tree.ctx body = some e) (ht : e.text = none) {x : Trouble}
    (h : styleElement env s.tree body parent ⟨16, 16, ⟨0, 0, 0, 0⟩, viewport.1, viewport.2⟩ (fun _ => none) (s.layouts body) e = .error x) :
    styleView env depth body viewport s = .error (if depth = 0 then .endless else x) := by
  unfold styleView
  cases depth with
  | zero => rfl
  | succ depth =>
    rw [styleTree, hp, he]
    simp only [ht, Option.isSome_none, Bool.false_eq_true, if_false, h]
    rfl

/-- A frame of `styleDoc` with one rule for the body. -/
def bodyEnv (rule : Style) (fuel : Nat) : FrameEnv where
  checks := true
  rules := fun n => if n = 1 then [.dynamic rule] else []
  animations := fun _ => none
  time := 1/60
  fuel := fuel
  order := orderId

/-- Finding for C46, in a whole frame: with `body { --a: var(--a); color: var(--a) }` the first update of a document
never comes back, however much stack there is. -/
theorem C46_frame_hangs (fuel depth : Nat) :
    styleView (bodyEnv ⟨[[.type "body"]], [.variable "a" [.var "a"], .property .Color [[.var "a"]]]⟩ fuel) depth 1 (800, 600) styleStart = .error .endless := by
  have h0 : ((styleStart.tree.par 1).bind styleStart.tree.ctx).isSome = true := by decide +kernel
  have h1 : (styleStart.tree.ctx 1).map (fun e => e.text) = some none := by decide +kernel
  obtain ⟨parent, hp⟩ := Option.isSome_iff_exists.1 h0
  obtain ⟨e, he, ht⟩ := Option.map_eq_some_iff.1 h1
  have hm : matchStyle true viewPseudo styleStart.tree ⟨[[.type "body"]], [.variable "a" [.var "a"], .property .Color [[.var "a"]]]⟩ 1 = .ok true := by decide +kernel
  rw [styleView_body hp he ht (x := .endless)]
  · split <;> rfl
  · unfold styleElement
    simp only [bodyEnv, if_true, applied, hm, show (parent.inherit e.reset).style = e.style from rfl, (styleStart_plain he).1, elementBlocks,
      List.isEmpty_nil, List.map_cons, List.map_nil, List.append_nil, C46_cyclic_counterexample]

/-- `body { transition: color 1s }` and `body:hover { color: red }`. -/
def hoverFade : List Style := [⟨[[.type "body"]], [.property .TransitionProperty [[.explicit (.keyword "color")]], .property .TransitionDuration [[.explicit (.time 1)]]]⟩,
  ⟨[[.type "body", .pseudoClass "hover"]], [.property .Color [[.explicit (.color ⟨255, 0, 0, 255⟩)]]]⟩]

/-- A frame of `styleDoc` with these rules. -/
def fadeEnv (fuel : Nat) : FrameEnv where
  checks := true
  rules := fun n => if n = 1 then hoverFade.map .dynamic else []
  animations := fun _ => none
  time := 1/60
  fuel := fuel
  order := orderId

/-- The pointer is over the body. -/
def hoverBody (s : Styled) : Styled :=
  match s.tree.ctx 1 with
  | some e => ⟨s.tree.setCtx 1 { e with state := { e.state with hover := true } }, s.layouts⟩
  | none => s

/-- Finding for C56, in a whole frame: with these two rules the first frame is fine, and the frame in which the
pointer is over the body for the first time never ends. -/
theorem C56_frame_hangs : ∃ s1, styleView (fadeEnv 100) 20 1 (800, 600) styleStart = .ok s1 ∧
    ∀ fuel depth, styleView (fadeEnv fuel) depth 1 (800, 600) (hoverBody s1) = .error .endless := by
  obtain ⟨s1, h1, hP⟩ := checkStyled_sound (env := fadeEnv 100) (s := styleStart) (P := fun s1 =>
    decide (((hoverBody s1).tree.par 1).bind (hoverBody s1).tree.ctx |>.isSome) &&
    decide (((hoverBody s1).tree.ctx 1).map (fun e => (e.text, e.style.length, e.animators, e.transitions)) =
      some (none, 0, [], [{ key := some .Color, animator := { duration := 1 } }])) &&
    (hoverFade.all fun r => decide (matchStyle true viewPseudo (hoverBody s1).tree r 1 = .ok true))) (by decide +kernel)
  refine ⟨s1, h1, fun fuel depth => ?_⟩
  simp only [Bool.and_eq_true, decide_eq_true_eq, List.all_eq_true] at hP
  obtain ⟨⟨hp, he⟩, hm⟩ := hP
  obtain ⟨parent, hp⟩ := Option.isSome_iff_exists.1 hp
  obtain ⟨e, he, hee⟩ := Option.map_eq_some_iff.1 he
  simp only [Prod.mk.injEq, List.length_eq_zero_iff] at hee
  obtain ⟨ht, hst, han, htr⟩ := hee
  rw [styleView_body hp he ht (x := .endless)]
  · split <;> rfl
  · have hr : applied true viewPseudo (hoverBody s1).tree 1 (hoverFade.map .dynamic) = .ok hoverFade := by
      have q0 := hm hoverFade[0] (by simp [hoverFade])
      have q1 := hm hoverFade[1] (by simp [hoverFade])
      simp only [hoverFade, List.getElem_cons_zero, List.getElem_cons_succ] at q0 q1
      simp only [hoverFade, List.map_cons, List.map_nil, applied, q0, q1, if_true]
    unfold styleElement
    simp only [fadeEnv, if_true, hr, show (parent.inherit e.reset).style = e.style from rfl, hst, elementBlocks, List.isEmpty_nil, List.append_nil]
    cases hc : computeBlocks fuel (hoverFade.map (·.declaration)) (fun _ => none) [] with
    | none => rfl
    | some r =>
      obtain ⟨vars, style⟩ := r
      have hg : style.get ⟨.Color, 0⟩ = some (.color ⟨255, 0, 0, 255⟩) := by
        cases fuel with
        | zero => cases hc
        | succ fuel =>
          have k : (computeBlocks 1 (hoverFade.map (·.declaration)) (fun _ => none) []).map (·.2.get ⟨.Color, 0⟩) = some (some (.color ⟨255, 0, 0, 255⟩)) := by
            decide +kernel
          have k1 : ∀ vars st key index v, computeStyle vars (fuel + 1) key index [.explicit v] st = computeStyle vars 1 key index [.explicit v] st := fun _ _ _ _ _ => rfl
          have k2 : computeBlocks (fuel + 1) (hoverFade.map (·.declaration)) (fun _ => none) [] = computeBlocks 1 (hoverFade.map (·.declaration)) (fun _ => none) [] := by
            simp only [hoverFade, List.map_cons, List.map_nil, computeBlocks, computeBlock, computeValues, k1]
          rw [← k2, hc] at k
          simpa using k
      simp only [show (parent.inherit e.reset).animators = e.animators from rfl, han, playAnimators,
        show (parent.inherit e.reset).transitions = e.transitions from rfl, htr, playTransitions]
      have := C56_first_value_counterexample (key := .Color) (before := []) (after := style) rfl hg (time := 1/60) (by norm_num) fuel
      rw [show (({ key := some .Color, animator := { duration := 1 } } : Transition).init []) = { key := some .Color, animator := { duration := 1 } } from rfl] at this
      rw [this]

end Verif
