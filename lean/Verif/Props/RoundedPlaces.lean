import Verif.Float.Placed
import Verif.Float.Bounds
import Verif.Props.Layout
import Verif.Props.Rounded
/-!
# C96: positions, opacity and clipping in 32-bit arithmetic
-/
namespace Verif

variable {r : Rat → Rat}

theorem placeViewIn_spec {boxes : NodeId → Layout} {depth : Nat} {root body : NodeId} {t t' : Tree} (hw : t.Wf root body)
    (h : placeViewIn r boxes depth body t = .ok t') :
    SameLinks t t' ∧ (∀ m, ¬ InSubtree t body m → t'.ctx m = t.ctx m) ∧ PlacedFromIn r boxes t t' body (0, 0) 1 none :=
  placeTreeIn_spec (linked_of_wf hw) depth ⟨rfl, rfl, rfl⟩ (fun _ _ => rfl) h

theorem placedIn_way {boxes : NodeId → Layout} {t t' : Tree} {body : NodeId} (h : PlacedFromIn r boxes t t' body (0, 0) 1 none) {above : List NodeId} {n : NodeId}
    (hw : Way t body above n) :
    ∃ location opacity clipping, PlacedFromIn r boxes t t' n location opacity clipping ∧
      (above = [] → location = (0, 0) ∧ opacity = 1) ∧
      (∀ outer p, above = outer ++ [p] → ∃ ep, t'.ctx p = some ep ∧ opacity = ep.opacity ∧
        location = (match ep.scrolling with | some s => (r (ep.position.1 - s.x), r (ep.position.2 - s.y)) | none => ep.position)) ∧
      clipping = ((above.filter t'.scrolls).getLast?.bind fun m => (t'.ctx m).map Element.frame) := by
  induction hw with
  | body => exact ⟨(0, 0), 1, none, h, fun _ => ⟨rfl, rfl⟩, fun outer p h => by simp at h, by simp⟩
  | @down above p c _ hc ih =>
    obtain ⟨location, opacity, clipping, hp, -, -, h3⟩ := ih
    cases hp with
    | @mk _ _ _ _ e he he' hk =>
      refine ⟨_, _, _, hk c hc, by simp, fun outer q hq => ?_, ?_⟩
      · obtain ⟨-, hq⟩ := List.append_inj' hq rfl
        simp only [List.cons.injEq, and_true] at hq
        subst hq
        refine ⟨_, he', rfl, ?_⟩
        simp only [Element.innerIn]
        clear hk he'
        cases hs : (e.placedIn r (absoluteIn r boxes p location) opacity clipping).scrolling <;> rfl
      · simp only [List.filter_append, Element.innerIn]
        cases hs : (e.placedIn r (absoluteIn r boxes p location) opacity clipping).scrolling with
        | none =>
          have : t'.scrolls p = false := by simp only [Tree.scrolls, he', hs]; rfl
          simp only [List.filter_cons, this, h3, List.filter_nil]
          simp
        | some s =>
          have : t'.scrolls p = true := by simp only [Tree.scrolls, he', hs]; rfl
          simp only [List.filter_cons, this, if_true, List.filter_nil, List.getLast?_append, List.getLast?_singleton, Option.some_or, Option.bind_some, he', Option.map_some]
          rfl

/-- What a displayed node has. -/
theorem placedIn_node {boxes : NodeId → Layout} {depth : Nat} {root body : NodeId} {t t' : Tree} (hw : t.Wf root body)
    (h : placeViewIn r boxes depth body t = .ok t') {above : List NodeId} {n : NodeId} (hn : Way t body above n) :
    ∃ e e' location opacity clipping, t.ctx n = some e ∧ t'.ctx n = some e' ∧ e' = e.placedIn r (absoluteIn r boxes n location) opacity clipping ∧
      (above = [] → location = (0, 0) ∧ opacity = 1) ∧
      (∀ outer p, above = outer ++ [p] → ∃ ep, t'.ctx p = some ep ∧ opacity = ep.opacity ∧
        location = (match ep.scrolling with | some s => (r (ep.position.1 - s.x), r (ep.position.2 - s.y)) | none => ep.position)) ∧
      clipping = ((above.filter t'.scrolls).getLast?.bind fun m => (t'.ctx m).map Element.frame) := by
  obtain ⟨-, -, hp⟩ := placeViewIn_spec hw h
  obtain ⟨location, opacity, clipping, hp, h1, h2, h3⟩ := placedIn_way hp hn
  cases hp with
  | mk he he' _ => exact ⟨_, _, location, opacity, clipping, he, he', rfl, h1, h2, h3⟩

/-- C96: if the own opacities are from 0 to 1, so is the opacity a displayed element has; it is not more than its own and not more than
that of the element it is in, and exactly that if its own is 1. -/
theorem C96_opacity (hr : Rounds r) {boxes : NodeId → Layout} {depth : Nat} {root body : NodeId} {t t' : Tree} (hw : t.Wf root body)
    (h : placeViewIn r boxes depth body t = .ok t') (hown : ∀ m, IsF32 (t.ownOpacity m) ∧ 0 ≤ t.ownOpacity m ∧ t.ownOpacity m ≤ 1)
    {above : List NodeId} {n : NodeId} (hn : Way t body above n) :
    ∃ e, t'.ctx n = some e ∧ 0 ≤ e.opacity ∧ e.opacity ≤ t.ownOpacity n ∧
      (above = [] → e.opacity = t.ownOpacity n) ∧
      ∀ outer p, above = outer ++ [p] → ∃ ep, t'.ctx p = some ep ∧ e.opacity ≤ ep.opacity ∧ (t.ownOpacity n = 1 → e.opacity = ep.opacity) := by
  induction hn with
  | body =>
    obtain ⟨e, e', location, opacity, clipping, he, he', rfl, h1, h2, -⟩ := placedIn_node hw h .body
    obtain ⟨rfl, rfl⟩ := h1 rfl
    have ho : t.ownOpacity body = e.selfOpacity := by simp only [Tree.ownOpacity, he]
    have e1 : (e.placedIn r (absoluteIn r boxes body (0, 0)) 1 clipping).opacity = t.ownOpacity body := by
      simp only [Element.placedIn, one_mul, ← ho]
      exact hr.exact (hown _).1
    exact ⟨_, he', by rw [e1]; exact (hown _).2.1, by rw [e1], fun _ => e1, fun outer p h => by simp at h⟩
  | @down above p c hp hc ih =>
    obtain ⟨e, e', location, opacity, clipping, he, he', rfl, h1, h2, -⟩ := placedIn_node hw h (.down hp hc)
    obtain ⟨ep, hep, rfl, -⟩ := h2 above p rfl
    obtain ⟨ep', hep', g0, g1, -⟩ := ih
    rw [hep] at hep'; injection hep' with hep'; subst hep'
    have ho : t.ownOpacity c = e.selfOpacity := by simp only [Tree.ownOpacity, he]
    have hf : IsF32 ep.opacity := by
      obtain ⟨_, _, _, _, _, _, k, rfl, _⟩ := placedIn_node hw h hp
      rw [hep] at k; injection k with k; rw [k]
      exact hr.number _
    have e1 : (e.placedIn r (absoluteIn r boxes c location) ep.opacity clipping).opacity = r (ep.opacity * t.ownOpacity c) := by
      simp only [Element.placedIn, ← ho]
    have hle1 : ep.opacity ≤ 1 := le_trans g1 (hown _).2.2
    obtain ⟨o1, o2, o3⟩ := hown c
    refine ⟨_, he', by rw [e1]; exact hr.nonneg (mul_nonneg g0 o2), by rw [e1]; exact hr.le o1 (by nlinarith), by simp, fun outer q hq => ?_⟩
    obtain ⟨-, hq⟩ := List.append_inj' hq rfl
    simp only [List.cons.injEq, and_true] at hq
    subst hq
    refine ⟨ep, hep, by rw [e1]; exact hr.le hf (by nlinarith), fun h1 => ?_⟩
    rw [e1, h1, mul_one]
    exact hr.exact hf

/-- C96: a displayed element in one with opacity 0 has opacity 0. -/
theorem C96_hidden (hr : Rounds r) {boxes : NodeId → Layout} {depth : Nat} {root body : NodeId} {t t' : Tree} (hw : t.Wf root body)
    (h : placeViewIn r boxes depth body t = .ok t') {above : List NodeId} {n : NodeId} (hn : Way t body above n) {m : NodeId} (hm : m ∈ above ++ [n])
    (hz : t.ownOpacity m = 0) : ∃ e, t'.ctx n = some e ∧ e.opacity = 0 := by
  induction hn with
  | body =>
    obtain ⟨e, e', location, opacity, clipping, he, he', rfl, -, -, -⟩ := placedIn_node hw h .body
    simp only [List.nil_append, List.mem_singleton] at hm
    subst hm
    simp only [Tree.ownOpacity, he] at hz
    exact ⟨_, he', by simp only [Element.placedIn, hz, mul_zero]; exact hr.zero⟩
  | @down above p c hp hc ih =>
    obtain ⟨e, e', location, opacity, clipping, he, he', rfl, -, h2, -⟩ := placedIn_node hw h (.down hp hc)
    obtain ⟨ep, hep, rfl, -⟩ := h2 above p rfl
    rcases List.mem_append.1 hm with hm | hm
    · obtain ⟨ep', hep', h0⟩ := ih hm
      rw [hep] at hep'; injection hep' with hep'; subst hep'
      exact ⟨_, he', by simp only [Element.placedIn, h0, zero_mul]; exact hr.zero⟩
    · simp only [List.mem_singleton] at hm
      subst hm
      simp only [Tree.ownOpacity, he] at hz
      exact ⟨_, he', by simp only [Element.placedIn, hz, mul_zero]; exact hr.zero⟩

/-- C96: of two elements in one the first is not to the right of, or below, the second, if the layout has them in this order. -/
theorem C96_order (hr : Rounds r) {boxes : NodeId → Layout} {depth : Nat} {root body : NodeId} {t t' : Tree} (hw : t.Wf root body)
    (h : placeViewIn r boxes depth body t = .ok t') {above : List NodeId} {p c d : NodeId} (hp : Way t body above p) (hc : c ∈ t.kids p) (hd : d ∈ t.kids p) :
    ∃ ec ed, t'.ctx c = some ec ∧ t'.ctx d = some ed ∧
      ((boxes c).x ≤ (boxes d).x → ec.position.1 ≤ ed.position.1) ∧ ((boxes c).y ≤ (boxes d).y → ec.position.2 ≤ ed.position.2) := by
  obtain ⟨e, e', location, opacity, clipping, he, he', rfl, -, h2, -⟩ := placedIn_node hw h (.down hp hc)
  obtain ⟨f, f', location', opacity', clipping', hf, hf', rfl, -, k2, -⟩ := placedIn_node hw h (.down hp hd)
  obtain ⟨ep, hep, -, rfl⟩ := h2 above p rfl
  obtain ⟨ep', hep', -, rfl⟩ := k2 above p rfl
  rw [hep] at hep'; injection hep' with hep'; subst hep'
  refine ⟨_, _, he', hf', fun hx => hr.mono (by linarith), fun hy => hr.mono (by linarith)⟩

/-- C96: an element that the layout puts at the corner of one that is not scrolled is exactly there. -/
theorem C96_corner (hr : Rounds r) {boxes : NodeId → Layout} {depth : Nat} {root body : NodeId} {t t' : Tree} (hw : t.Wf root body)
    (h : placeViewIn r boxes depth body t = .ok t') {above : List NodeId} {p c : NodeId} (hp : Way t body above p) (hc : c ∈ t.kids p)
    (hs : t'.scrolls p = false) : ∃ ep ec, t'.ctx p = some ep ∧ t'.ctx c = some ec ∧
      ((boxes c).x = 0 → ec.position.1 = ep.position.1) ∧ ((boxes c).y = 0 → ec.position.2 = ep.position.2) := by
  obtain ⟨e, e', location, opacity, clipping, he, he', rfl, -, h2, -⟩ := placedIn_node hw h (.down hp hc)
  obtain ⟨ep, hep, -, rfl⟩ := h2 above p rfl
  have hnone : ep.scrolling = none := by
    simp only [Tree.scrolls, hep] at hs
    exact Option.isSome_eq_false_iff.1 hs |> Option.isNone_iff_eq_none.1
  have hf : IsF32 ep.position.1 ∧ IsF32 ep.position.2 := by
    obtain ⟨_, _, _, _, _, _, k, rfl, _⟩ := placedIn_node hw h hp
    rw [hep] at k; injection k with k; rw [k]
    exact ⟨hr.number _, hr.number _⟩
  refine ⟨ep, _, hep, he', fun hx => ?_, fun hy => ?_⟩
  · simp only [Element.placedIn, absoluteIn, hnone, hx, zero_add]
    exact hr.exact hf.1
  · simp only [Element.placedIn, absoluteIn, hnone, hy, zero_add]
    exact hr.exact hf.2

/-- The horizontal position is what C57 says, give or take the rounding of two operations for every element above and of one for the element itself. -/
theorem position_error {place : Element → Rat} {box : NodeId → Rat} {scroll : Scrolling → Rat} (hr : Rounds r) {t t' : Tree} {body : NodeId} {e0 : Int} (he0 : -149 ≤ e0)
    {above : List NodeId} {n : NodeId} (hn : Way t body above n)
    (hstart : ∃ e, t'.ctx body = some e ∧ place e = r (box body + 0))
    (hstep : ∀ {above p c}, Way t body above p → c ∈ t.kids p → ∃ ep ec, t'.ctx p = some ep ∧ t'.ctx c = some ec ∧
      place ec = r (box c + (match ep.scrolling with | some s => r (place ep - scroll s) | none => place ep)))
    (hsmall : ∀ m ∈ above ++ [n], ∀ e, t'.ctx m = some e → |place e| < 2 ^ (e0 + 24) ∧ ∀ s, e.scrolling = some s → |place e - scroll s| ≤ 2 ^ (e0 + 24)) :
    ∃ e, t'.ctx n = some e ∧
      |place e - (((above ++ [n]).map box).sum - (above.map fun m => match (t'.ctx m).bind (·.scrolling) with | some s => scroll s | none => 0).sum)| ≤
        (2 * above.length + 1) * (2 ^ e0 / 2) := by
  have hpos := two_zpow_pos e0
  induction hn with
  | body =>
    obtain ⟨e, he, h1⟩ := hstart
    refine ⟨e, he, ?_⟩
    have hb := hr.small (by omega) (h1 ▸ (hsmall body (by simp) e he).1)
    have := hr.error he0 hb
    rw [add_zero] at this h1
    simp only [List.nil_append, List.map_cons, List.map_nil, List.sum_cons, List.sum_nil, add_zero, sub_zero, List.length_nil, Nat.cast_zero, mul_zero, zero_add, one_mul, h1]
    exact this
  | @down above p c hp hc ih =>
    obtain ⟨ep, hep, g⟩ := ih (fun m hm => hsmall m (by
      rcases List.mem_append.1 hm with hm | hm
      · simp [hm]
      · simp only [List.mem_singleton] at hm; simp [hm]))
    obtain ⟨ep', ec, hep', hec, h1⟩ := hstep hp hc
    rw [hep] at hep'; injection hep' with hep'; subst hep'
    refine ⟨ec, hec, ?_⟩
    have hb := hr.small (by omega) (h1 ▸ (hsmall c (by simp) ec hec).1)
    have herr := hr.error he0 hb
    rw [← h1] at herr
    have hloc : |(match ep.scrolling with | some s => r (place ep - scroll s) | none => place ep) - (place ep - (match ep.scrolling with | some s => scroll s | none => 0))| ≤ 2 ^ e0 / 2 := by
      cases hs : ep.scrolling with
      | none => simp only [sub_zero, sub_self, abs_zero]; positivity
      | some s => exact hr.error he0 ((hsmall p (by simp) ep hep).2 s hs)
    simp only [List.map_append, List.sum_append, List.map_cons, List.map_nil, List.sum_cons, List.sum_nil, add_zero, List.length_append, List.length_cons, List.length_nil, hep, Option.bind_some] at g ⊢
    clear hb h1
    push_cast
    generalize (match ep.scrolling with | some s => r (place ep - scroll s) | none => place ep) = L at herr hloc
    generalize (match ep.scrolling with | some s => scroll s | none => 0) = S at hloc ⊢
    rw [abs_le] at *
    constructor <;> linarith [g.1, g.2, herr.1, herr.2, hloc.1, hloc.2]

/-- C96: the position of a displayed element is the sum of the locations the layout gave to it and to the elements above it, less what
those are scrolled by, up to half of the last place for each operation: with positions below `2 ^ (e + 24)` pixels, `2 ^ e / 2`
for the element and `2 ^ e` for each above it. The size is exactly that of the layout. -/
theorem C96_position (hr : Rounds r) {boxes : NodeId → Layout} {depth : Nat} {root body : NodeId} {t t' : Tree} (hw : t.Wf root body)
    (h : placeViewIn r boxes depth body t = .ok t') {above : List NodeId} {n : NodeId} (hn : Way t body above n) {e0 : Int} (he0 : -149 ≤ e0)
    (hsmall : ∀ m ∈ above ++ [n], ∀ e, t'.ctx m = some e → |e.position.1| < 2 ^ (e0 + 24) ∧ |e.position.2| < 2 ^ (e0 + 24) ∧
      |e.position.1 - e.scrolled.1| ≤ 2 ^ (e0 + 24) ∧ |e.position.2 - e.scrolled.2| ≤ 2 ^ (e0 + 24)) :
    ∃ e, t'.ctx n = some e ∧
      |e.position.1 - (((above ++ [n]).map fun m => (boxes m).x).sum - (above.map fun m => (t'.scrolled m).1).sum)| ≤ (2 * above.length + 1) * (2 ^ e0 / 2) ∧
      |e.position.2 - (((above ++ [n]).map fun m => (boxes m).y).sum - (above.map fun m => (t'.scrolled m).2).sum)| ≤ (2 * above.length + 1) * (2 ^ e0 / 2) ∧
      e.size = ((boxes n).width, (boxes n).height) ∧ e.contentSize = ((boxes n).contentWidth, (boxes n).contentHeight) := by
  obtain ⟨e, e', location, opacity, clipping, he, he', hE, -, -, -⟩ := placedIn_node hw h hn
  have hx := position_error (r := r) (place := fun e => e.position.1) (box := fun m => (boxes m).x) (scroll := fun s => s.x) hr (t := t) (t' := t') (body := body) he0 hn
    (by
      obtain ⟨e, e', location, opacity, clipping, he, he', rfl, h1, -, -⟩ := placedIn_node hw h .body
      obtain ⟨rfl, -⟩ := h1 rfl
      exact ⟨_, he', rfl⟩)
    (fun {above p c} hp hc => by
      obtain ⟨e, e', location, opacity, clipping, he, he', rfl, -, h2, -⟩ := placedIn_node hw h (.down hp hc)
      obtain ⟨ep, hep, -, rfl⟩ := h2 above p rfl
      refine ⟨ep, _, hep, he', ?_⟩
      simp only [Element.placedIn, absoluteIn]
      cases ep.scrolling <;> rfl)
    (fun m hm e he => ⟨(hsmall m hm e he).1, fun s hs => by have := (hsmall m hm e he).2.2.1; simp only [Element.scrolled, hs] at this; exact this⟩)
  have hy := position_error (r := r) (place := fun e => e.position.2) (box := fun m => (boxes m).y) (scroll := fun s => s.y) hr (t := t) (t' := t') (body := body) he0 hn
    (by
      obtain ⟨e, e', location, opacity, clipping, he, he', rfl, h1, -, -⟩ := placedIn_node hw h .body
      obtain ⟨rfl, -⟩ := h1 rfl
      exact ⟨_, he', rfl⟩)
    (fun {above p c} hp hc => by
      obtain ⟨e, e', location, opacity, clipping, he, he', rfl, -, h2, -⟩ := placedIn_node hw h (.down hp hc)
      obtain ⟨ep, hep, -, rfl⟩ := h2 above p rfl
      refine ⟨ep, _, hep, he', ?_⟩
      simp only [Element.placedIn, absoluteIn]
      cases ep.scrolling <;> rfl)
    (fun m hm e he => ⟨(hsmall m hm e he).2.1, fun s hs => by have := (hsmall m hm e he).2.2.2; simp only [Element.scrolled, hs] at this; exact this⟩)
  have sx : ∀ m, (match (t'.ctx m).bind (·.scrolling) with | some s => s.x | none => 0) = (t'.scrolled m).1 := by
    intro m
    simp only [Tree.scrolled]
    cases t'.ctx m with
    | none => rfl
    | some e => simp only [Option.bind_some, Element.scrolled]; cases e.scrolling <;> rfl
  have sy : ∀ m, (match (t'.ctx m).bind (·.scrolling) with | some s => s.y | none => 0) = (t'.scrolled m).2 := by
    intro m
    simp only [Tree.scrolled]
    cases t'.ctx m with
    | none => rfl
    | some e => simp only [Option.bind_some, Element.scrolled]; cases e.scrolling <;> rfl
  simp only [sx] at hx
  simp only [sy] at hy
  obtain ⟨e1, k1, hx⟩ := hx
  obtain ⟨e2, k2, hy⟩ := hy
  rw [he'] at k1 k2
  injection k1 with k1; injection k2 with k2
  subst k1 k2
  refine ⟨e', he', hx, hy, ?_, ?_⟩ <;> rw [hE] <;> rfl

/-- C96: clipping and what scrolls are as without rounding: a displayed element is clipped by the frame of the nearest element above it that
scrolls, and by nothing if there is none; the elements that scroll are those with larger content. -/
theorem C96_clipping {boxes : NodeId → Layout} {depth : Nat} {root body : NodeId} {t t' : Tree} (hw : t.Wf root body)
    (h : placeViewIn r boxes depth body t = .ok t') {above : List NodeId} {n : NodeId} (hn : Way t body above n) :
    ∃ e, t'.ctx n = some e ∧
      (∀ outer p inner, above = outer ++ p :: inner → t'.scrolls p = true → (∀ q ∈ inner, t'.scrolls q = false) →
        ∃ ep, t'.ctx p = some ep ∧ e.clipping = some ep.frame) ∧
      ((∀ q ∈ above, t'.scrolls q = false) → e.clipping = none) ∧ (t'.scrolls n = true ↔ (boxes n).Overflows) := by
  obtain ⟨e, e', location, opacity, clipping, he, he', rfl, -, -, h3⟩ := placedIn_node hw h hn
  refine ⟨_, he', ?_, ?_, ?_⟩
  · intro outer p inner ha hs hi
    have hin : inner.filter t'.scrolls = [] := List.filter_eq_nil_iff.2 fun q hq => by simp [hi q hq]
    have hl : (above.filter t'.scrolls).getLast? = some p := by
      rw [ha, List.filter_append, List.filter_cons, if_pos hs, hin]
      simp
    rw [hl] at h3
    cases hp : t'.ctx p with
    | none => simp only [Tree.scrolls, hp] at hs; cases hs
    | some ep => exact ⟨ep, rfl, by simp only [Element.placedIn, h3, Option.bind_some, hp, Option.map_some]⟩
  · intro hq
    have : above.filter t'.scrolls = [] := List.filter_eq_nil_iff.2 fun q hq' => by simp [hq q hq']
    rw [this] at h3
    simpa [Element.placedIn] using h3
  · have key : ∀ (l : Layout) (s : Option Scrolling), (Scrolling.ensureIn r l s).isSome = true ↔ l.Overflows := by
      intro l s
      unfold Scrolling.ensureIn Layout.Overflows
      by_cases hc : l.contentWidth > l.width ∨ l.contentHeight > l.height
      · simp only [hc, if_true, Option.isSome_some]
      · simp only [hc, if_false, Option.isSome_none, Bool.false_eq_true]
    simp only [Tree.scrolls, he', Element.placedIn]
    exact key _ _

/-! ## Example -/

/-- A layout of `styleDoc` with positions that are not `f32`-exact sums. -/
def tenthBoxes : NodeId → Layout := fun n =>
  if n = 1 then ⟨0, 0, 200, 100, 200, 100⟩ else if n = 2 then ⟨f32 (101 / 10), f32 (203 / 10), 100, 50, 100, 120⟩
  else if n = 3 then ⟨f32 (1 / 10), f32 (1 / 5), 90, 120, 90, 120⟩ else ⟨1, 2, 20, 10, 20, 10⟩

/-- The tree of `styleDoc` with the box scrolled and of opacity `0.7`, the paragraph in it of opacity `0.3`. -/
def tenthTree : Tree := ((treeOf styleDoc).modify 2 fun e => { e with selfOpacity := f32 (7 / 10), scrolling := some ⟨0, f32 (301 / 10), 0, 70⟩ }).modify 3
  fun e => { e with selfOpacity := f32 (3 / 10) }

theorem tenthTree_wf : tenthTree.Wf 0 1 := wf_modify (wf_modify styleDoc_wf (fun _ => rfl)) (fun _ => rfl)

theorem tenthTree_way : Way tenthTree 1 [1, 2] 3 := by
  have h1 : (2 : NodeId) ∈ tenthTree.kids 1 := by decide +kernel
  have h2 : (3 : NodeId) ∈ tenthTree.kids 2 := by decide +kernel
  exact .down (.down .body h1) h2

/-- C96 at work: the paragraph is at `f32` positions near the sums, and its opacity is near the product; neither is the exact one. -/
theorem C96_example : ∃ t' e, placeViewIn f32 tenthBoxes 9 1 tenthTree = .ok t' ∧ Way tenthTree 1 [1, 2] 3 ∧ t'.ctx 3 = some e ∧
    e.position = (2673869 / 262144, -10066331 / 1048576) ∧ e.position.1 ≠ (tenthBoxes 2).x + (tenthBoxes 3).x ∧
    |e.position.1 - ((tenthBoxes 2).x + (tenthBoxes 3).x)| ≤ 5 * (2 ^ (-17 : Int) / 2) ∧
    e.opacity = f32 (f32 (7 / 10) * f32 (3 / 10)) ∧ e.opacity ≤ f32 (3 / 10) ∧ t'.scrolls 2 = true := by
  have hc : (match placeViewIn f32 tenthBoxes 9 1 tenthTree with
      | .ok t' => decide ((t'.ctx 3).map (fun e => (e.position, e.opacity)) = some ((2673869 / 262144, -10066331 / 1048576), f32 (f32 (7 / 10) * f32 (3 / 10))) ∧ t'.scrolls 2 = true)
      | .error _ => false) = true := by decide +kernel
  cases h : placeViewIn f32 tenthBoxes 9 1 tenthTree with
  | error x => rw [h] at hc; cases hc
  | ok t' =>
    rw [h] at hc
    obtain ⟨h1, h2⟩ := of_decide_eq_true hc
    obtain ⟨e, he, h3⟩ := Option.map_eq_some_iff.1 h1
    simp only [Prod.mk.injEq] at h3
    refine ⟨t', e, rfl, tenthTree_way, he, h3.1, ?_, ?_, h3.2, ?_, h2⟩
    · rw [h3.1]; decide +kernel
    · rw [h3.1]; decide +kernel
    · rw [h3.2]; decide +kernel

end Verif
