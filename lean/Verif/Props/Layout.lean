import Verif.View.Placed
import Verif.Props.StyleExamples
/-!
# C57-C59: positions, opacity, clipping and scrolling
-/
namespace Verif

theorem Scrolling.ensure_absolute (boxes : NodeId → Layout) (n : NodeId) (location : Rat × Rat) (s : Option Scrolling) :
    Scrolling.ensure (absolute boxes n location) s = Scrolling.ensure (boxes n) s := rfl

theorem Scrolling.ensure_isSome (layout : Layout) (s : Option Scrolling) : (Scrolling.ensure layout s).isSome = true ↔ layout.Overflows := by
  unfold Scrolling.ensure Layout.Overflows
  by_cases hc : layout.contentWidth > layout.width ∨ layout.contentHeight > layout.height
  · simp only [hc, if_true, Option.isSome_some]
  · simp only [hc, if_false, Option.isSome_none, Bool.false_eq_true]

theorem placeView_spec {boxes : NodeId → Layout} {depth : Nat} {root body : NodeId} {t t' : Tree} (hw : t.Wf root body)
    (h : placeView boxes depth body t = .ok t') :
    SameLinks t t' ∧ (∀ m, ¬ InSubtree t body m → t'.ctx m = t.ctx m) ∧ PlacedFrom boxes t t' body (0, 0) 1 none :=
  placeTree_spec (linked_of_wf hw) depth ⟨rfl, rfl, rfl⟩ (fun _ _ => rfl) h

/-- What is handed down to a node. -/
theorem placed_way {boxes : NodeId → Layout} {t t' : Tree} {body : NodeId} (h : PlacedFrom boxes t t' body (0, 0) 1 none) {above : List NodeId} {n : NodeId}
    (hw : Way t body above n) :
    ∃ location opacity clipping, PlacedFrom boxes t t' n location opacity clipping ∧
      location = ((above.map fun m => (boxes m).x).sum - (above.map fun m => (t'.scrolled m).1).sum,
                  (above.map fun m => (boxes m).y).sum - (above.map fun m => (t'.scrolled m).2).sum) ∧
      opacity = (above.map t.ownOpacity).prod ∧
      clipping = ((above.filter t'.scrolls).getLast?.bind fun m => (t'.ctx m).map Element.frame) := by
  induction hw with
  | body => exact ⟨(0, 0), 1, none, h, by simp, by simp, by simp⟩
  | @down above p c _ hc ih =>
    obtain ⟨location, opacity, clipping, hp, h1, h2, h3⟩ := ih
    cases hp with
    | @mk _ _ _ _ e he he' hk =>
      refine ⟨_, _, _, hk c hc, ?_, ?_, ?_⟩
      · have hx := congrArg Prod.fst h1
        have hy := congrArg Prod.snd h1
        have hsp : t'.scrolled p = (e.placed (absolute boxes p location) opacity clipping).scrolled := by simp only [Tree.scrolled, he']
        simp only [List.map_append, List.sum_append, List.map_cons, List.map_nil, List.sum_cons, List.sum_nil, hsp, Element.scrolled, Element.inner]
        clear hk
        generalize (e.placed (absolute boxes p location) opacity clipping).scrolling = sc
        simp only at hx hy
        cases sc <;> simp only [absolute, hx, hy, Prod.mk.injEq] <;> constructor <;> ring
      · simp only [Element.placed, h2, List.map_append, List.prod_append, List.map_cons, List.map_nil, List.prod_cons, List.prod_nil, Tree.ownOpacity, he, mul_one]
      · simp only [List.filter_append, Element.inner]
        cases hs : (e.placed (absolute boxes p location) opacity clipping).scrolling with
        | none =>
          have : t'.scrolls p = false := by simp only [Tree.scrolls, he', hs]; rfl
          simp only [List.filter_cons, this, h3, List.filter_nil]
          simp
        | some s =>
          have : t'.scrolls p = true := by simp only [Tree.scrolls, he', hs]; rfl
          simp only [List.filter_cons, this, if_true, List.filter_nil, List.getLast?_append, List.getLast?_singleton, Option.some_or, Option.bind_some, he', Option.map_some]
          rfl

/-- C57: after a frame the position of a displayed element is the sum of the locations the layout gave to it and
to the elements above it, less what the elements above it are scrolled by; its size is that of the layout. -/
theorem C57_position {boxes : NodeId → Layout} {depth : Nat} {root body : NodeId} {t t' : Tree} (hw : t.Wf root body)
    (h : placeView boxes depth body t = .ok t') {above : List NodeId} {n : NodeId} (hn : Way t body above n) :
    ∃ e, t'.ctx n = some e ∧
      e.position.1 = ((above ++ [n]).map fun m => (boxes m).x).sum - (above.map fun m => (t'.scrolled m).1).sum ∧
      e.position.2 = ((above ++ [n]).map fun m => (boxes m).y).sum - (above.map fun m => (t'.scrolled m).2).sum ∧
      e.size = ((boxes n).width, (boxes n).height) ∧ e.contentSize = ((boxes n).contentWidth, (boxes n).contentHeight) := by
  obtain ⟨-, -, hp⟩ := placeView_spec hw h
  obtain ⟨location, opacity, clipping, hp, h1, -, -⟩ := placed_way hp hn
  cases hp with
  | mk he he' _ =>
    refine ⟨_, he', ?_, ?_, rfl, rfl⟩ <;>
      simp only [Element.placed, absolute, h1, List.map_append, List.sum_append, List.map_cons, List.map_nil, List.sum_cons, List.sum_nil] <;> ring

/-- C57: placing a well-formed tree always succeeds, and whatever is not displayed is left as it was. -/
theorem C57_succeeds (boxes : NodeId → Layout) {root body : NodeId} {t : Tree} (hw : t.Wf root body) (hb : (t.ctx body).isSome) :
    ∃ t', (∀ depth > t.next, placeView boxes depth body t = .ok t') ∧ t'.kids = t.kids ∧ t'.par = t.par ∧
      ∀ m, ¬ InSubtree t body m → t'.ctx m = t.ctx m := by
  obtain ⟨t', h⟩ := placeTree_total (boxes := boxes) hw t.next (n := body) (location := (0, 0)) (opacity := 1) (clipping := none) (t := t)
    (by unfold NodeId at *; omega) ⟨rfl, rfl, rfl⟩ (fun _ _ => rfl) hb
  have h1 := h (t.next + 1) le_rfl
  obtain ⟨g1, g2, -⟩ := placeView_spec hw h1
  exact ⟨t', fun depth hd => h depth hd, g1.kids, g1.par, g2⟩

/-- C58: the opacity of a displayed element is the product of its own opacity and those of the elements above it. -/
theorem C58_opacity {boxes : NodeId → Layout} {depth : Nat} {root body : NodeId} {t t' : Tree} (hw : t.Wf root body)
    (h : placeView boxes depth body t = .ok t') {above : List NodeId} {n : NodeId} (hn : Way t body above n) :
    ∃ e, t'.ctx n = some e ∧ e.opacity = ((above ++ [n]).map t.ownOpacity).prod := by
  obtain ⟨-, -, hp⟩ := placeView_spec hw h
  obtain ⟨location, opacity, clipping, hp, -, h2, -⟩ := placed_way hp hn
  cases hp with
  | mk he he' _ =>
    refine ⟨_, he', ?_⟩
    simp only [Element.placed, h2, List.map_append, List.prod_append, List.map_cons, List.map_nil, List.prod_cons, List.prod_nil, Tree.ownOpacity, he, mul_one]

/-- C58: a displayed element is clipped by the frame of the nearest element above it that scrolls, and by nothing
if there is none. -/
theorem C58_clipping {boxes : NodeId → Layout} {depth : Nat} {root body : NodeId} {t t' : Tree} (hw : t.Wf root body)
    (h : placeView boxes depth body t = .ok t') {above : List NodeId} {n : NodeId} (hn : Way t body above n) :
    ∃ e, t'.ctx n = some e ∧
      (∀ outer p inner, above = outer ++ p :: inner → t'.scrolls p = true → (∀ q ∈ inner, t'.scrolls q = false) →
        ∃ ep, t'.ctx p = some ep ∧ e.clipping = some ep.frame) ∧
      ((∀ q ∈ above, t'.scrolls q = false) → e.clipping = none) := by
  obtain ⟨-, -, hp⟩ := placeView_spec hw h
  obtain ⟨location, opacity, clipping, hp, -, -, h3⟩ := placed_way hp hn
  cases hp with
  | mk he he' _ =>
    refine ⟨_, he', ?_, ?_⟩
    · intro outer p inner ha hs hi
      have hin : inner.filter t'.scrolls = [] := List.filter_eq_nil_iff.2 fun q hq => by simp [hi q hq]
      obtain ⟨ep, hep⟩ : ∃ ep, t'.ctx p = some ep := by
        unfold Tree.scrolls at hs
        split at hs
        · exact ⟨_, by assumption⟩
        · cases hs
      refine ⟨ep, hep, ?_⟩
      simp only [Element.placed, h3, ha, List.filter_append, List.filter_cons, hs, if_true, hin, List.getLast?_append, List.getLast?_singleton, Option.some_or, Option.bind_some, hep, Option.map_some]
    · intro hi
      have hin : above.filter t'.scrolls = [] := List.filter_eq_nil_iff.2 fun q hq => by simp [hi q hq]
      simp only [Element.placed, h3, hin, List.getLast?_nil, Option.bind_none]

/-- C59: an element scrolls exactly if its content overflows it on some axis. -/
theorem C59_scrolls_iff {boxes : NodeId → Layout} {depth : Nat} {root body : NodeId} {t t' : Tree} (hw : t.Wf root body)
    (h : placeView boxes depth body t = .ok t') {above : List NodeId} {n : NodeId} (hn : Way t body above n) :
    t'.scrolls n = true ↔ (boxes n).Overflows := by
  obtain ⟨-, -, hp⟩ := placeView_spec hw h
  obtain ⟨location, opacity, clipping, hp, -, -, -⟩ := placed_way hp hn
  cases hp with
  | mk he he' _ =>
    simp only [Tree.scrolls, he', Element.placed]
    rw [Scrolling.ensure_absolute, Scrolling.ensure_isSome]

/-- C59: what a frame does to the scrolling of a displayed element is a `ScrollEvent.frame`. -/
theorem C59_frame_event {boxes : NodeId → Layout} {depth : Nat} {root body : NodeId} {t t' : Tree} (hw : t.Wf root body)
    (h : placeView boxes depth body t = .ok t') {above : List NodeId} {n : NodeId} (hn : Way t body above n) :
    ∃ e e', t.ctx n = some e ∧ t'.ctx n = some e' ∧ e'.scrolling = scrollStep e.scrolling (.frame (boxes n)) := by
  obtain ⟨-, -, hp⟩ := placeView_spec hw h
  obtain ⟨location, opacity, clipping, hp, -, -, -⟩ := placed_way hp hn
  cases hp with
  | mk he he' _ => exact ⟨_, _, he, he', rfl⟩

theorem scrollStep_range {s s' : Option Scrolling} (hs : ∀ r, s = some r → r.InRange) (ev : ScrollEvent)
    (hf : ∀ layout, ev = .frame layout → layout.Filled) (h : scrollStep s ev = s') : ∀ r, s' = some r → r.InRange := by
  intro r hr
  subst hr
  cases ev with
  | frame layout =>
    obtain ⟨f1, f2⟩ := hf layout rfl
    simp only [scrollStep, Scrolling.ensure] at h
    split at h
    · injection h with h
      subst h
      cases s with
      | none => exact ⟨by simp only; constructor <;> grind, by simp only; constructor <;> grind⟩
      | some c =>
        obtain ⟨⟨c1, c2⟩, c3, c4⟩ := hs c rfl
        exact ⟨by simp only; constructor <;> grind, by simp only; constructor <;> grind⟩
    · cases h
  | wheel w =>
    cases s with
    | none => cases h
    | some c =>
      obtain ⟨⟨c1, c2⟩, c3, c4⟩ := hs c rfl
      simp only [scrollStep, Option.map_some, Option.some.injEq] at h
      subst h
      unfold Scrolling.offset
      refine ⟨?_, ?_⟩ <;> split <;> split <;> simp only <;> constructor <;> grind

/-- C59: through every history of frames and turns of the wheel, the offset stays between 0 and what the content
sticks out by, on both axes. Missing from the property: frames in which the content is smaller than the element on
one axis (and larger on the other); `C59_other_axis` shows that the claim fails there. -/
theorem C59_in_range_partial (events : List ScrollEvent) (hf : ∀ layout, .frame layout ∈ events → layout.Filled) :
    ∀ s, events.foldl scrollStep none = some s → s.InRange := by
  suffices ∀ (events : List ScrollEvent) (s : Option Scrolling), (∀ r, s = some r → r.InRange) → (∀ layout, .frame layout ∈ events → layout.Filled) →
      ∀ r, events.foldl scrollStep s = some r → r.InRange from this events none (by simp) hf
  intro events
  induction events with
  | nil => intro s hs _ r hr; exact hs r hr
  | cons ev events ih =>
    intro s hs hf r hr
    refine ih (scrollStep s ev) ?_ (fun l hl => hf l (List.mem_cons_of_mem _ hl)) r hr
    exact scrollStep_range hs ev (fun layout h => hf layout (h ▸ List.mem_cons_self)) rfl

/-- C59, axis by axis: if no frame had content smaller than the element on the horizontal axis, the horizontal
offset is in range, whatever happened on the vertical one. -/
theorem C59_in_range_x_partial (events : List ScrollEvent) (hf : ∀ layout, .frame layout ∈ events → layout.width ≤ layout.contentWidth) :
    ∀ s, events.foldl scrollStep none = some s → 0 ≤ s.x ∧ s.x ≤ s.scrollX := by
  suffices ∀ (events : List ScrollEvent) (s : Option Scrolling), (∀ r, s = some r → 0 ≤ r.x ∧ r.x ≤ r.scrollX) →
      (∀ layout, .frame layout ∈ events → layout.width ≤ layout.contentWidth) →
      ∀ r, events.foldl scrollStep s = some r → 0 ≤ r.x ∧ r.x ≤ r.scrollX from this events none (by simp) hf
  intro events
  induction events with
  | nil => intro s hs _ r hr; exact hs r hr
  | cons ev events ih =>
    intro s hs hf r hr
    refine ih (scrollStep s ev) ?_ (fun l hl => hf l (List.mem_cons_of_mem _ hl)) r hr
    intro r hr
    cases ev with
    | frame layout =>
      have f1 := hf layout List.mem_cons_self
      simp only [scrollStep, Scrolling.ensure] at hr
      split at hr
      · injection hr with hr
        subst hr
        cases s with
        | none => simp only; constructor <;> grind
        | some c => have := hs c rfl; simp only; constructor <;> grind
      · cases hr
    | wheel w =>
      cases s with
      | none => cases hr
      | some c =>
        obtain ⟨c1, c2⟩ := hs c rfl
        simp only [scrollStep, Option.map_some, Option.some.injEq] at hr
        subst hr
        unfold Scrolling.offset
        split <;> split <;> simp only <;> constructor <;> grind

/-- The same for the vertical axis. -/
theorem C59_in_range_y_partial (events : List ScrollEvent) (hf : ∀ layout, .frame layout ∈ events → layout.height ≤ layout.contentHeight) :
    ∀ s, events.foldl scrollStep none = some s → 0 ≤ s.y ∧ s.y ≤ s.scrollY := by
  suffices ∀ (events : List ScrollEvent) (s : Option Scrolling), (∀ r, s = some r → 0 ≤ r.y ∧ r.y ≤ r.scrollY) →
      (∀ layout, .frame layout ∈ events → layout.height ≤ layout.contentHeight) →
      ∀ r, events.foldl scrollStep s = some r → 0 ≤ r.y ∧ r.y ≤ r.scrollY from this events none (by simp) hf
  intro events
  induction events with
  | nil => intro s hs _ r hr; exact hs r hr
  | cons ev events ih =>
    intro s hs hf r hr
    refine ih (scrollStep s ev) ?_ (fun l hl => hf l (List.mem_cons_of_mem _ hl)) r hr
    intro r hr
    cases ev with
    | frame layout =>
      have f1 := hf layout List.mem_cons_self
      simp only [scrollStep, Scrolling.ensure] at hr
      split at hr
      · injection hr with hr
        subst hr
        cases s with
        | none => simp only; constructor <;> grind
        | some c => have := hs c rfl; simp only; constructor <;> grind
      · cases hr
    | wheel w =>
      cases s with
      | none => cases hr
      | some c =>
        obtain ⟨c1, c2⟩ := hs c rfl
        simp only [scrollStep, Option.map_some, Option.some.injEq] at hr
        subst hr
        unfold Scrolling.offset
        split <;> split <;> simp only <;> constructor <;> grind

/-! ## Examples -/

/-- A layout of `styleDoc`: the box (node 2) is 50 high and its content 120. -/
def tallBoxes : NodeId → Layout := fun n =>
  if n = 1 then ⟨0, 0, 200, 100, 200, 100⟩ else if n = 2 then ⟨10, 20, 100, 50, 100, 120⟩
  else if n = 3 then ⟨5, 5, 90, 120, 90, 120⟩ else ⟨1, 2, 20, 10, 20, 10⟩

/-- The tree of `styleDoc` with the box scrolled by 30 and half transparent. -/
def tallTree : Tree := (treeOf styleDoc).modify 2 fun e => { e with selfOpacity := 1/2, scrolling := some ⟨0, 30, 0, 70⟩ }

theorem wf_modify {t : Tree} {root body n : NodeId} {f : Element → Element} (hw : t.Wf root body) (hf : ∀ e, (f e).defs = e.defs) :
    (t.modify n f).Wf root body := by
  refine wf_ctx hw ⟨rfl, fun m => ?_⟩ rfl rfl
  unfold Tree.modify
  by_cases h : m = n
  · subst h; cases ht : t.ctx m with
    | none => simp [ht]
    | some e => simp [ht, hf]
  · simp only [upd_other _ _ h]

theorem tallTree_wf : tallTree.Wf 0 1 := wf_modify styleDoc_wf (fun _ => rfl)

/-- A check of a placed tree that the kernel can evaluate. -/
def checkPlaced (boxes : NodeId → Layout) (t : Tree) (P : Tree → Bool) : Bool := match placeView boxes 9 1 t with | .ok t' => P t' | .error _ => false

theorem checkPlaced_sound {boxes : NodeId → Layout} {t : Tree} {P : Tree → Bool} (h : checkPlaced boxes t P = true) :
    ∃ t', placeView boxes 9 1 t = .ok t' ∧ P t' = true := by
  unfold checkPlaced at h
  split at h
  · exact ⟨_, by assumption, h⟩
  · cases h

theorem tallTree_way : Way tallTree 1 [1, 2] 3 := by
  have h1 : (2 : NodeId) ∈ tallTree.kids 1 := by decide +kernel
  have h2 : (3 : NodeId) ∈ tallTree.kids 2 := by decide +kernel
  exact .down (.down .body h1) h2

/-- C57 and C58 at work: the paragraph in the scrolled, half transparent box. -/
example : ∃ t' e, placeView tallBoxes 9 1 tallTree = .ok t' ∧ Way tallTree 1 [1, 2] 3 ∧ t'.ctx 3 = some e ∧
    e.position = (15, -5) ∧ e.opacity = 1/2 ∧ e.clipping = some ⟨10, 20, 100, 50, 100, 120⟩ ∧ t'.scrolled 2 = (0, 30) := by
  obtain ⟨t', h, hP⟩ := checkPlaced_sound (boxes := tallBoxes) (t := tallTree)
    (P := fun t' => decide ((t'.ctx 3).map (fun e => (e.position, e.opacity, e.clipping)) = some ((15, -5), 1/2, some ⟨10, 20, 100, 50, 100, 120⟩) ∧ t'.scrolled 2 = (0, 30)))
    (by decide +kernel)
  obtain ⟨h1, h2⟩ := of_decide_eq_true hP
  obtain ⟨e, he, h3⟩ := Option.map_eq_some_iff.1 h1
  simp only [Prod.mk.injEq] at h3
  exact ⟨t', e, h, tallTree_way, he, h3.1, h3.2.1, h3.2.2, h2⟩

/-- The same through the theorem. -/
example : ∃ t' e, placeView tallBoxes 9 1 tallTree = .ok t' ∧ t'.ctx 3 = some e ∧ e.opacity = 1/2 := by
  obtain ⟨t', h, -⟩ := checkPlaced_sound (boxes := tallBoxes) (t := tallTree) (P := fun _ => true) (by decide +kernel)
  obtain ⟨e, he, ho⟩ := C58_opacity tallTree_wf h tallTree_way
  refine ⟨t', e, h, he, ho.trans ?_⟩
  decide +kernel

/-- C59 at work: scrolling down and the content shrinking. -/
example : [ScrollEvent.frame ⟨0, 0, 100, 50, 100, 170⟩, .wheel (0, -1), .wheel (0, -1), .wheel (0, -1), .frame ⟨0, 0, 100, 50, 100, 90⟩].foldl scrollStep none =
    some ⟨0, 40, 0, 40⟩ := by decide +kernel

/-- C59 fails where the content overflows on one axis only: the box is 100 wide, its content 60 wide and too high.
The horizontal offset becomes negative (the content is moved right by 40) and stays so when the content fits again. -/
theorem C59_other_axis : ¬ ∀ (events : List ScrollEvent), ∀ s, events.foldl scrollStep none = some s → s.InRange := by
  intro h
  have := (h [.frame ⟨0, 0, 100, 50, 60, 120⟩, .frame ⟨0, 0, 100, 50, 100, 120⟩] ⟨-40, 0, 0, 70⟩ (by decide +kernel)).x.1
  exact absurd this (by decide +kernel)

/-- What that does to the child of such a box: it is shifted by 40 to the right of where the layout put it. -/
theorem C59_child_shifted : ∃ boxes t' e, placeView boxes 9 1 (treeOf styleDoc) = .ok t' ∧ t'.ctx 3 = some e ∧
    e.position.1 = (boxes 1).x + (boxes 2).x + (boxes 3).x + 40 := by
  let boxes : NodeId → Layout := fun n => if n = 2 then ⟨10, 20, 100, 50, 60, 120⟩ else if n = 3 then ⟨0, 0, 60, 120, 60, 120⟩ else ⟨0, 0, 0, 0, 0, 0⟩
  obtain ⟨t', h, hP⟩ := checkPlaced_sound (boxes := boxes) (t := treeOf styleDoc)
    (P := fun t' => decide ((t'.ctx 3).map (fun e => e.position.1) = some 50)) (by decide +kernel)
  obtain ⟨e, he, h3⟩ := Option.map_eq_some_iff.1 (of_decide_eq_true hP)
  exact ⟨boxes, t', e, h, he, by rw [h3]; decide +kernel⟩

end Verif
