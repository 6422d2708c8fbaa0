import Verif.Props.Style
import Verif.Props.Match
/-!
# Concrete styled documents for C43, C45 and C47-C50
-/
namespace Verif

/-- `<body><div class="box"><p>Hi</p></div></body>`: nodes 1 body, 2 div, 3 p, 4 the text. -/
def styleDoc : Html := .mk "" [] none [.mk "body" [] none [.mk "div" [.none "class" "box"] none
  [.mk "p" [] none [.mk "" [] (some [.string "Hi"]) []]]]]

/-- The tree of a freshly rendered document. -/
def treeOf (doc : Html) : Tree := match freshTree doc with | .ok (_, _, σ) => σ.tree | .error _ => ⟨fun _ => none, fun _ => [], fun _ => none, 0⟩

theorem treeOf_wf {doc : Html} (h : (match freshTree doc with | .ok (r, b, _) => decide (r = 0 ∧ b = 1) | .error _ => false) = true) :
    (treeOf doc).Wf 0 1 := by
  split at h
  · rename_i r b σ hf
    simp only [decide_eq_true_eq] at h
    obtain ⟨rfl, rfl⟩ := h
    rw [show treeOf doc = σ.tree by simp only [treeOf, hf]]
    exact (renderView_ok hf).wf
  · simp at h

/-- `body { --c: red; font-size: 20px }`. -/
def bodyRule : Style := ⟨[[.type "body"]], [.variable "--c" [.explicit (.color ⟨255, 0, 0, 255⟩)],
  .property .FontSize [[.explicit (.dimension ⟨20, .px⟩)]]]⟩

/-- `.box { color: blue; color: var(--c); width: 2em }`. -/
def boxRule : Style := ⟨[[.class "box"]], [.property .Color [[.explicit (.color ⟨0, 0, 255, 255⟩)]], .property .Color [[.var "--c"]],
  .property .Width [[.explicit (.dimension ⟨2, .em⟩)]]]⟩

/-- `.box:hover { height: 5px; cursor: pointer; visibility: hidden; opacity: 0.5 }`. -/
def hoverRule : Style := ⟨[[.class "box", .pseudoClass "hover"]], [.property .Height [[.explicit (.dimension ⟨5, .px⟩)]],
  .property .Cursor [[.explicit (.keyword "pointer")]], .property .Visibility [[.explicit (.keyword "hidden")]], .property .Opacity [[.explicit (.number (1/2))]]]⟩

/-- Hash maps iterated in the order of insertion. -/
def orderId : FrameOrder := ⟨fun _ _ l => l, fun _ l => l, fun _ => none⟩
/-- Hash maps iterated the other way round. -/
def orderReverse : FrameOrder := ⟨fun _ _ l => l.reverse, fun _ l => l.reverse, fun _ => none⟩

theorem orderId_fair : orderId.Fair := ⟨fun _ _ _ => .refl _, fun _ _ => .refl _⟩
theorem orderReverse_fair : orderReverse.Fair := ⟨fun _ _ l => l.reverse_perm, fun _ l => l.reverse_perm⟩

/-- A frame of `styleDoc` with the three rules. -/
def styleEnv : FrameEnv where
  checks := true
  rules := fun n => if n = 1 then [.static bodyRule] else if n = 2 then [.static boxRule, .dynamic hoverRule] else []
  animations := fun _ => none
  time := 1/60
  fuel := 100
  order := orderId

/-- The rules are those kept when the document was opened. -/
example : (∀ e, (treeOf styleDoc).ctx 2 = some e → classify true (treeOf styleDoc) 2 e [bodyRule, boxRule, hoverRule] = .ok (styleEnv.rules 2)) := by
  intro e he
  have h1 : matchStyle true anyPseudo (treeOf styleDoc) bodyRule 2 = .ok false := by decide +kernel
  have h2 : matchStyle true anyPseudo (treeOf styleDoc) boxRule 2 = .ok true := by decide +kernel
  have h3 : matchStyle true anyPseudo (treeOf styleDoc) hoverRule 2 = .ok true := by decide +kernel
  have hh : ((treeOf styleDoc).ctx 2).map (fun e => e.hints.hasDynamicProperties) = some false := by decide +kernel
  rw [he] at hh
  simp only [Option.map_some, Option.some.injEq] at hh
  have p2 : boxRule.hasPseudoSelector = false := by decide
  have p3 : hoverRule.hasPseudoSelector = true := by decide
  simp [classify, h1, h2, h3, isStatic, hh, styleEnv, p2, p3]

/-- A decidable check of the outcome of styling a frame. -/
def checkStyled (env : FrameEnv) (s : Styled) (P : Styled → Bool) : Bool :=
  match styleView env 20 1 (800, 600) s with | .ok s' => P s' | .error _ => false

theorem checkStyled_sound {env : FrameEnv} {s : Styled} {P : Styled → Bool} (h : checkStyled env s P = true) :
    ∃ s', styleView env 20 1 (800, 600) s = .ok s' ∧ P s' = true := by
  unfold checkStyled at h
  split at h
  · rename_i s' hs; exact ⟨s', hs, h⟩
  · simp at h

/-- The freshly opened document. -/
def styleStart : Styled := ⟨treeOf styleDoc, fun _ => {}⟩

theorem styleDoc_wf : styleStart.tree.Wf 0 1 := treeOf_wf (doc := styleDoc) (by decide +kernel)


theorem declarations_box {t : Tree} {e : Element} (hm : matchStyle true viewPseudo t hoverRule 2 = .ok false) (hi : e.style = []) :
    declarations styleEnv t 2 e = boxRule.declaration := by
  simp [declarations, styleEnv, applied, hm, hi]

theorem declarations_body {t : Tree} {e : Element} (hi : e.style = []) : declarations styleEnv t 1 e = bodyRule.declaration := by
  simp [declarations, styleEnv, applied, hi]

/-- What there is to know about the styled document: parents, tags, styles before and after. -/
def styleFacts (s s' : Styled) : Bool :=
  decide (s.tree.par 2 = some 1 ∧ s.tree.par 3 = some 2 ∧ s.tree.par 4 = some 3 ∧ s.tree.kids 1 = [2] ∧ s.tree.kids 2 = [3] ∧ s.tree.kids 3 = [4]) &&
  match s.tree.ctx 1, s.tree.ctx 2, s.tree.ctx 3, s.tree.ctx 4 with
  | some e1, some e2, some e3, some e4 =>
    decide (e1.text = none ∧ e2.text = none ∧ e3.text = none ∧ e4.text ≠ none ∧ e1.tag = "body" ∧ e2.tag = "div" ∧ e3.tag = "p" ∧
      e2.animators = [] ∧ e2.transitions = [] ∧ e3.animators = [] ∧ e3.transitions = [] ∧ e1.style.length = 0 ∧ e2.style.length = 0 ∧ e3.style.length = 0) &&
    match s'.tree.ctx 1, s'.tree.ctx 2, s'.tree.ctx 3, s'.tree.ctx 4 with
    | some f1, some f2, some f3, some f4 =>
      decide (f1.font.size = 20 ∧ f2.color = ⟨255, 0, 0, 255⟩ ∧ (s'.layouts 2).width = .length 40 ∧ f3.color = ⟨255, 0, 0, 255⟩ ∧ f4.color = ⟨255, 0, 0, 255⟩)
    | _, _, _, _ => false
  | _, _, _, _ => false

/-- The hypotheses of C43, C45 and C49 are met: the `div` is red although blue comes first, with the red of a
variable of the body, and its 2em are 40 pixels because the font size of the body is 20 pixels. -/
example : ∃ s' parent e e', Declared styleEnv styleStart s' 1 (800, 600) 2 parent e e' ⟨.Color, 0⟩ (.color ⟨255, 0, 0, 255⟩) ∧
    Declared styleEnv styleStart s' 1 (800, 600) 2 parent e e' ⟨.Width, 0⟩ (.dimension ⟨2, .em⟩) ∧
    e'.color = ⟨255, 0, 0, 255⟩ ∧ (s'.layouts 2).width = .length 40 := by
  obtain ⟨s', hs, hP⟩ := checkStyled_sound (env := styleEnv) (s := styleStart) (P := styleFacts styleStart) (by decide +kernel)
  have hm : matchStyle true viewPseudo styleStart.tree hoverRule 2 = .ok false := by decide +kernel
  unfold styleFacts at hP
  simp only [Bool.and_eq_true, decide_eq_true_eq] at hP
  obtain ⟨⟨hp2, hp3, hp4, hk1, hk2, hk3⟩, hP⟩ := hP
  split at hP
  case h_2 => simp at hP
  rename_i e1 e2 e3 e4 h1 h2 h3 h4
  simp only [Bool.and_eq_true, decide_eq_true_eq] at hP
  obtain ⟨⟨ht1, ht2, ht3, ht4, hg1, hg2, hg3, ha2, hr2, ha3, hr3, hi1, hi2, hi3⟩, hP⟩ := hP
  split at hP
  case h_2 => simp at hP
  rename_i f1 f2 f3 f4 g1 g2 g3 g4
  simp only [decide_eq_true_eq] at hP
  obtain ⟨q1, q2, q3, q4, q5⟩ := hP
  have hi1 := List.length_eq_zero_iff.1 hi1
  have hi2 := List.length_eq_zero_iff.1 hi2
  have hn : Styles styleStart.tree 1 2 := .child .body h1 ht1 (by rw [hg1]; decide) (by rw [hk1]; simp)
  obtain ⟨p, parent, e', inherited, passed, rules, declared, animators, animated, transitions, final, c1, c2, c3, c4, -, -, -⟩ :=
    C45_nearest styleDoc_wf hs hn h2 ht2
  rw [hp2] at c1; injection c1 with c1; subst c1
  rw [g1] at c2; injection c2 with c2; subst c2
  rw [g2] at c3; injection c3 with c3; subst c3
  have hd := declarations_box hm hi2
  have hc : inherited "--c" = some [.explicit (.color ⟨255, 0, 0, 255⟩)] :=
    (c4 _ _).2 ⟨by decide, .here h1 (by rw [declarations_body hi1]; simp [bodyRule, givenTo])⟩
  have hsing : ∀ x ∈ declarations styleEnv styleStart.tree 2 e2, x.Singular := by
    rw [hd]; intro x hx
    simp only [boxRule, List.mem_cons, List.not_mem_nil, or_false] at hx
    rcases hx with rfl | rfl | rfl <;> exact .inl (by simp)
  have mk : ∀ d v i, SetsAt inherited boxRule.declaration i d v → (∀ j w, i < j → ¬ SetsAt inherited boxRule.declaration j d w) →
      Declared styleEnv styleStart s' 1 (800, 600) 2 f1 e2 f2 d v := fun d v i hset hlast =>
    ⟨⟨20, hs⟩, orderId_fair, hn, h2, ht2, ⟨1, hp2, g1⟩, g2, ⟨ha2, hr2⟩, hsing, inherited, i,
      fun name l => (c4 name l).trans ⟨fun ⟨a, b⟩ => ⟨a, 1, hp2, b⟩, fun ⟨a, p, b, c⟩ => ⟨a, by rw [hp2] at b; injection b with b; subst b; exact c⟩⟩,
      hd ▸ hset, fun j w hj => hd ▸ hlast j w hj⟩
  refine ⟨s', f1, e2, f2, mk _ _ 1 ?_ ?_, mk _ _ 2 ?_ ?_, q2, q3⟩
  · refine ⟨_, rfl, .Color, _, _, [.color ⟨255, 0, 0, 255⟩], rfl, rfl, ?_, by decide +kernel⟩
    have := Computes.known (vars := scopeAfter inherited (boxRule.declaration.take 1)) (name := "--c") (ds := []) (b := []) (a := [.color ⟨255, 0, 0, 255⟩])
      (by simpa [scopeAfter, boxRule, givenTo] using hc) (.explicit .nil) .nil
    exact this
  · rintro j w hj ⟨x, hx, key, values, sh, vs, rfl, hv, hcomp, hmem⟩
    match j, hj with
    | 2, _ =>
      simp only [boxRule, List.getElem?_cons_succ, List.getElem?_cons_zero, Option.some.injEq, Declaration.property.injEq] at hx
      obtain ⟨rfl, rfl⟩ := hx
      simp only [List.getElem?_cons_zero, Option.some.injEq] at hv
      subst hv
      cases hcomp with | explicit hcomp => 
        cases hcomp
        rw [show expand .Width [.dimension ⟨2, .em⟩] = [(.Width, .dimension ⟨2, .em⟩)] by decide +kernel] at hmem
        simp at hmem
    | j + 3, _ => simp [boxRule] at hx
  · exact ⟨_, rfl, .Width, _, _, [.dimension ⟨2, .em⟩], rfl, rfl, .explicit .nil, by decide +kernel⟩
  · rintro j w hj ⟨x, hx, -⟩
    match j, hj with
    | j + 3, _ => simp [boxRule] at hx

/-- The hypotheses of C50 are met: neither the `p` nor its text says anything about colours, so both get the red
of the `div`. -/
example : ∃ s' ea en, styleView styleEnv 20 1 (800, 600) styleStart = .ok s' ∧ Styles styleStart.tree 1 2 ∧ Styles styleStart.tree 1 4 ∧
    SilentPath styleEnv styleStart.tree (Heritage.key .color) 2 4 ∧ s'.tree.ctx 2 = some ea ∧ s'.tree.ctx 4 = some en ∧
    ea.color = ⟨255, 0, 0, 255⟩ ∧ en.color = ⟨255, 0, 0, 255⟩ := by
  obtain ⟨s', hs, hP⟩ := checkStyled_sound (env := styleEnv) (s := styleStart) (P := styleFacts styleStart) (by decide +kernel)
  unfold styleFacts at hP
  simp only [Bool.and_eq_true, decide_eq_true_eq] at hP
  obtain ⟨⟨hp2, hp3, hp4, hk1, hk2, hk3⟩, hP⟩ := hP
  split at hP
  case h_2 => simp at hP
  rename_i e1 e2 e3 e4 h1 h2 h3 h4
  simp only [Bool.and_eq_true, decide_eq_true_eq] at hP
  obtain ⟨⟨ht1, ht2, ht3, ht4, hg1, hg2, hg3, ha2, hr2, ha3, hr3, hi1, hi2, hi3⟩, hP⟩ := hP
  split at hP
  case h_2 => simp at hP
  rename_i f1 f2 f3 f4 g1 g2 g3 g4
  simp only [decide_eq_true_eq] at hP
  obtain ⟨q1, q2, q3, q4, q5⟩ := hP
  have hi3 := List.length_eq_zero_iff.1 hi3
  have hn2 : Styles styleStart.tree 1 2 := .child .body h1 ht1 (by rw [hg1]; decide) (by rw [hk1]; simp)
  have hn3 : Styles styleStart.tree 1 3 := .child hn2 h2 ht2 (by rw [hg2]; decide) (by rw [hk2]; simp)
  have hn4 : Styles styleStart.tree 1 4 := .child hn3 h3 ht3 (by rw [hg3]; decide) (by rw [hk3]; simp)
  refine ⟨s', f2, f4, hs, hn2, hn4, .step (.step .here hp3 h3 (.inr ?_)) hp4 h4 (.inl (by rw [Option.isSome_iff_ne_none]; exact ht4)), g2, g4, q2, q5⟩
  intro x hx
  simp [declarations, styleEnv, applied, hi3, keyframeDeclarations, ha3] at hx

/-- `.box { color: red, blue }`. -/
def twoColors : Style := ⟨[[.class "box"]], [.property .Color [[.explicit (.color ⟨255, 0, 0, 255⟩)], [.explicit (.color ⟨0, 0, 255, 255⟩)]]]⟩

/-- A frame with that rule. -/
def twoColorsEnv (order : FrameOrder) : FrameEnv where
  checks := true
  rules := fun n => if n = 2 then [.static twoColors] else []
  animations := fun _ => none
  time := 1/60
  fuel := 100
  order := order

/-- The colour of node 2. -/
def colorIs (c : Rgba) (s : Styled) : Bool := decide ((s.tree.ctx 2).map (·.color) = some c)

/-- Finding for C47: with `color: red, blue` the colour shown depends on the order in which a hash map is
iterated, which differs from run to run. -/
theorem C47_order_matters : ∃ env env' s1 s2, env.SameBut env' ∧ styleStart.tree.Wf 0 1 ∧
    styleView env 20 1 (800, 600) styleStart = .ok s1 ∧ styleView env' 20 1 (800, 600) styleStart = .ok s2 ∧
    (s1.tree.ctx 2).map (·.color) = some ⟨0, 0, 255, 255⟩ ∧ (s2.tree.ctx 2).map (·.color) = some ⟨255, 0, 0, 255⟩ := by
  obtain ⟨s1, h1, g1⟩ := checkStyled_sound (env := twoColorsEnv orderId) (s := styleStart) (P := colorIs ⟨0, 0, 255, 255⟩) (by decide +kernel)
  obtain ⟨s2, h2, g2⟩ := checkStyled_sound (env := twoColorsEnv orderReverse) (s := styleStart) (P := colorIs ⟨255, 0, 0, 255⟩) (by decide +kernel)
  exact ⟨twoColorsEnv orderId, twoColorsEnv orderReverse, s1, s2, ⟨rfl, rfl, rfl, rfl, rfl, orderId_fair, orderReverse_fair⟩, styleDoc_wf, h1, h2, of_decide_eq_true g1, of_decide_eq_true g2⟩

/-- The hypotheses of `C47_order_irrelevant_partial` are met by `styleEnv` and its reverse, which do not iterate alike. -/
example : styleEnv.SameBut { styleEnv with order := orderReverse } ∧ (∀ n, ∀ r ∈ styleEnv.rules n, ∀ x ∈ r.rule.declaration, x.Singular) ∧
    (∃ s', styleView styleEnv 20 1 (800, 600) styleStart = .ok s') ∧ orderReverse.style 0 [(⟨.Color, 0⟩, .zero), (⟨.Width, 0⟩, .zero)] ≠ orderId.style 0 [(⟨.Color, 0⟩, .zero), (⟨.Width, 0⟩, .zero)] := by
  refine ⟨⟨rfl, rfl, rfl, rfl, rfl, orderId_fair, orderReverse_fair⟩, ?_, ?_, by decide⟩
  · intro n r hr x hx
    simp only [styleEnv] at hr
    split at hr
    · simp only [List.mem_cons, List.not_mem_nil, or_false] at hr; subst hr
      simp only [ElementStyle.rule, bodyRule, List.mem_cons, List.not_mem_nil, or_false] at hx
      rcases hx with rfl | rfl
      · trivial
      · exact .inl (by simp)
    · split at hr
      · simp only [List.mem_cons, List.not_mem_nil, or_false] at hr
        rcases hr with rfl | rfl
        · simp only [ElementStyle.rule, boxRule, List.mem_cons, List.not_mem_nil, or_false] at hx
          rcases hx with rfl | rfl | rfl <;> exact .inl (by simp)
        · simp only [ElementStyle.rule, hoverRule, List.mem_cons, List.not_mem_nil, or_false] at hx
          rcases hx with rfl | rfl | rfl | rfl <;> exact .inl (by simp)
      · simp at hr
  · obtain ⟨s', hs, _⟩ := checkStyled_sound (env := styleEnv) (s := styleStart) (P := fun _ => true) (by decide +kernel)
    exact ⟨s', hs⟩

/-- The pointer comes over the `div` or leaves it. -/
def hoverBox (hover : Bool) (s : Styled) : Styled :=
  match s.tree.ctx 2 with
  | some e => ⟨s.tree.setCtx 2 { e with state := { e.state with hover := hover } }, s.layouts⟩
  | none => s

/-- What is compared of node 2: opacity, height, cursor, visibility. -/
def boxShows (opacity : Rat) (height : LengthPA) (cursor : Pointer) (visible : Bool) (s : Styled) : Bool :=
  decide ((s.tree.ctx 2).map (fun e => (e.selfOpacity, e.pointer, e.visible)) = some (opacity, cursor, visible) ∧ (s.layouts 2).height = height)

/-- Finding for C48: `.box:hover { height: 5px; cursor: pointer; visibility: hidden; opacity: 0.5 }`. After the
pointer has left, the opacity is back, but height, cursor and visibility stay as they were under the pointer
although no rule for them matches any more. -/
theorem C48_hover_stays : ∃ s0 s1 s2 : Styled, styleStart.tree.Wf 0 1 ∧ styleView styleEnv 20 1 (800, 600) styleStart = .ok s0 ∧
    styleView styleEnv 20 1 (800, 600) (hoverBox true s0) = .ok s1 ∧ styleView styleEnv 20 1 (800, 600) (hoverBox false s1) = .ok s2 ∧
    boxShows 1 .auto .auto true s0 ∧ boxShows (1/2) (.length 5) .pointer false s1 ∧ boxShows 1 (.length 5) .pointer false s2 := by
  obtain ⟨s0, h0, g⟩ := checkStyled_sound (env := styleEnv) (s := styleStart)
    (P := fun s0 => boxShows 1 .auto .auto true s0 && checkStyled styleEnv (hoverBox true s0)
      fun s1 => boxShows (1/2) (.length 5) .pointer false s1 && checkStyled styleEnv (hoverBox false s1) (boxShows 1 (.length 5) .pointer false)) (by decide +kernel)
  simp only [Bool.and_eq_true] at g
  obtain ⟨g0, g⟩ := g
  obtain ⟨s1, h1, g⟩ := checkStyled_sound g
  simp only [Bool.and_eq_true] at g
  obtain ⟨g1, g⟩ := g
  obtain ⟨s2, h2, g2⟩ := checkStyled_sound g
  exact ⟨s0, s1, s2, styleDoc_wf, h0, h1, h2, g0, g1, g2⟩

/-- The hypotheses of `C48_look_partial` are met by the tree before the first frame and the tree after the pointer
has come and gone, whose elements differ. -/
example : ∃ s0 s1 s2 : Styled, styleView styleEnv 20 1 (800, 600) styleStart = .ok s0 ∧
    styleView styleEnv 20 1 (800, 600) (hoverBox true s0) = .ok s1 ∧ Tree.Related SameButStyle styleStart.tree (hoverBox false s1).tree ∧
    (hoverBox false s1).tree.ctx 0 = styleStart.tree.ctx 0 ∧ styleStart.tree.par 1 = some 0 ∧
    styleView styleEnv 20 1 (800, 600) (hoverBox false s1) = .ok s2 ∧ boxShows 1 .auto .auto true s0 ∧ boxShows (1/2) (.length 5) .pointer false s1 := by
  obtain ⟨s0, h0, g⟩ := checkStyled_sound (env := styleEnv) (s := styleStart)
    (P := fun s0 => boxShows 1 .auto .auto true s0 && checkStyled styleEnv (hoverBox true s0)
      fun s1 => boxShows (1/2) (.length 5) .pointer false s1 && decide (styleStart.tree.par 1 = some 0 ∧ (s1.tree.ctx 2).isSome ∧ styleStart.tree.next = 5) && ([0, 1, 2, 3, 4].all fun n => decide (((hoverBox false s1).tree.ctx n).map (fun e => (e.state, e.animators, e.transitions)) =
          (styleStart.tree.ctx n).map (fun e => (e.state, e.animators, e.transitions)))) && checkStyled styleEnv (hoverBox false s1) (fun _ => true)) (by decide +kernel)
  simp only [Bool.and_eq_true] at g
  obtain ⟨g0, g⟩ := g
  obtain ⟨s1, h1, g⟩ := checkStyled_sound g
  simp only [Bool.and_eq_true, decide_eq_true_eq, List.all_eq_true] at g
  obtain ⟨⟨⟨g1, hp, h2, hnext⟩, hall⟩, g⟩ := g
  obtain ⟨s2, hs2, -⟩ := checkStyled_sound g
  have hw := styleDoc_wf
  obtain ⟨e2, he2⟩ := Option.isSome_iff_exists.1 h2
  obtain ⟨fr0, -⟩ := styleTree_spec 20 (linked_of_wf hw) h0
  -- moving the pointer changes nothing but the state of node 2
  have hov : ∀ (b : Bool) (s : Styled), (hoverBox b s).tree.kids = s.tree.kids ∧ (hoverBox b s).tree.par = s.tree.par ∧ (hoverBox b s).tree.next = s.tree.next ∧
      (∀ n, n ≠ 2 → (hoverBox b s).tree.ctx n = s.tree.ctx n) ∧
      ∀ n e, s.tree.ctx n = some e → ∃ e', (hoverBox b s).tree.ctx n = some e' ∧ e.SameForm e' ∧ e'.style = e.style := by
    intro b s
    unfold hoverBox
    cases h : s.tree.ctx 2 with
    | none => exact ⟨rfl, rfl, rfl, fun _ _ => rfl, fun n e he => ⟨e, he, ⟨rfl, rfl, rfl, rfl, rfl, rfl, rfl, rfl, rfl⟩, rfl⟩⟩
    | some e2 =>
      refine ⟨rfl, rfl, rfl, fun n hn => by simp [Tree.setCtx, upd_other _ _ hn], fun n e he => ?_⟩
      by_cases hn : n = 2
      · subst hn
        rw [h] at he; injection he with he; subst he
        exact ⟨{ e2 with state := { e2.state with hover := b } }, by simp [Tree.setCtx], ⟨rfl, rfl, rfl, rfl, rfl, rfl, rfl, rfl, rfl⟩, rfl⟩
      · exact ⟨e, by simpa [Tree.setCtx, upd_other _ _ hn] using he, ⟨rfl, rfl, rfl, rfl, rfl, rfl, rfl, rfl, rfl⟩, rfl⟩
  have links : Linked (hoverBox true s0).tree := by
    have hl := (linked_of_wf hw).restyled fr0.restyled
    obtain ⟨k1, k2, k3, -, -⟩ := hov true s0
    exact ⟨fun p c hc => by rw [k2]; exact hl.link p c (k1 ▸ hc), fun p c hc => hl.older p c (k2 ▸ hc), fun p => by rw [k1]; exact hl.nodup p⟩
  obtain ⟨fr1, -⟩ := styleTree_spec 20 links h1
  obtain ⟨k1, k2, k3, k4, k5⟩ := hov true s0
  obtain ⟨l1, l2, l3, l4, l5⟩ := hov false s1
  have hrel : Tree.Related SameButStyle styleStart.tree (hoverBox false s1).tree := by
    refine ⟨by rw [l1, fr1.restyled.kids, k1, fr0.restyled.kids], by rw [l2, fr1.restyled.par, k2, fr0.restyled.par],
      by rw [l3, fr1.restyled.next, k3, fr0.restyled.next], ?_, ?_⟩
    · intro n hn
      have hn2 : n ≠ 2 := by
        rintro rfl
        have := hall 2 (by simp)
        rw [hn] at this
        obtain ⟨e, he, -⟩ := l5 2 e2 he2
        rw [he] at this; cases this
      rw [l4 n hn2]
      exact fr1.restyled.gone n (by rw [k4 n hn2]; exact fr0.restyled.gone n hn)
    · intro n e he
      obtain ⟨a, ha, ha1, ha2⟩ := fr0.restyled.there n e he
      obtain ⟨a', ha', ha3⟩ := fr0.inlines n e he
      rw [ha] at ha'; injection ha' with ha'; subst ha'
      obtain ⟨b, hb, hb1, hb2⟩ := k5 n a ha
      obtain ⟨c, hc, hc1, hc2⟩ := fr1.restyled.there n b hb
      obtain ⟨c', hc', hc3⟩ := fr1.inlines n b hb
      rw [hc] at hc'; injection hc' with hc'; subst hc'
      obtain ⟨d, hd, hd1, hd2⟩ := l5 n c hc
      have hlt := hw.exist n (by rw [he]; rfl)
      rw [hnext] at hlt
      have := hall n (by unfold NodeId at *; simp only [List.mem_cons, List.not_mem_nil, or_false]; omega)
      rw [hd, he] at this
      simp only [Option.map_some, Option.some.injEq, Prod.mk.injEq] at this
      have hf : e.SameForm d := by
        obtain ⟨a1, a2, a3, a4, a5, a6, a7, a8, a9⟩ := ha1
        obtain ⟨b1, b2, b3, b4, b5, b6, b7, b8, b9⟩ := hb1
        obtain ⟨c1, c2, c3, c4, c5, c6, c7, c8, c9⟩ := hc1
        obtain ⟨d1, d2, d3, d4, d5, d6, d7, d8, d9⟩ := hd1
        exact ⟨by rw [d1, c1, b1, a1], by rw [d2, c2, b2, a2], by rw [d3, c3, b3, a3], by rw [d4, c4, b4, a4], by rw [d5, c5, b5, a5],
          by rw [d6, c6, b6, a6], by rw [d7, c7, b7, a7], by rw [d8, c8, b8, a8], by rw [d9, c9, b9, a9]⟩
      exact ⟨d, hd, hf, this.1, by rw [hd2, hc3, hb2, ha3], this.2.1, this.2.2⟩
  refine ⟨s0, s1, s2, h0, h1, hrel, ?_, hp, hs2, g0, g1⟩
  have above : ∀ t : Tree, t.par 0 = none → ¬ InSubtree t 1 0 := by
    intro t h0 hu
    cases hu with
    | deeper h => rw [h0] at h; cases h
  have hr0 : styleStart.tree.par 0 = none := by decide +kernel
  have hr1 : (hoverBox true s0).tree.par 0 = none := by rw [k2, fr0.restyled.par]; exact hr0
  rw [l4 0 (by decide), fr1.ctx 0 (above _ hr1), k4 0 (by decide), fr0.ctx 0 (above _ hr0)]

/-- Styling is what sessions allow for it: it changes neither the form of the elements nor their input state,
so everything proved about sessions (C28-C38) holds with real styling. -/
theorem styleView_restyled {env : FrameEnv} {depth : Nat} {body root : NodeId} {viewport : Rat × Rat} {s s' : Styled} (hw : s.tree.Wf root body)
    (h : styleView env depth body viewport s = .ok s') : Restyled s.tree s'.tree :=
  (styleTree_spec depth (linked_of_wf hw) h).1.restyled

end Verif
