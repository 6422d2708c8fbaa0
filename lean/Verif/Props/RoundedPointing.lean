import Verif.Float.Pointing
import Verif.Float.Lengths
import Verif.Css.AnimationLemmas
import Verif.Props.Input
import Verif.Props.ReadCss
import Verif.Props.RoundedPlaces
/-!
# C99, C100: pointing and colours in 32-bit arithmetic
-/
namespace Verif

variable {r : Rat → Rat}

/-! ## C99: pointing -/

/-- The numbers of an element that pointing looks at are `f32`. -/
structure Element.Numbers (e : Element) : Prop where
  x : IsF32 e.position.1
  y : IsF32 e.position.2
  width : IsF32 e.size.1
  height : IsF32 e.size.2

/-- The sign of a rounded difference is right. -/
theorem Rounds.sub_nonneg_iff (hr : Rounds r) {a b : Rat} (ha : IsF32 a) (hb : IsF32 b) : 0 ≤ r (a - b) ↔ b ≤ a := by
  constructor
  · intro h
    by_contra hc
    have hc := not_le.1 hc
    obtain ⟨m, hm⟩ := ha.smallest
    obtain ⟨n, hn⟩ := hb.smallest
    have hs := two_zpow_pos (-149)
    have hlt : (m : Rat) * 2 ^ (-149 : Int) < n * 2 ^ (-149 : Int) := by rw [← hm, ← hn]; exact hc
    have := step_apart hs hlt
    rw [← hm, ← hn] at this
    have hle := hr.le (IsF32.power (e := -149) le_rfl).neg (x := a - b) (by linarith)
    linarith
  · intro h
    exact hr.nonneg (by linarith)

theorem hoversIn_iff (hr : Rounds r) {p : Rat × Rat} (hp : IsF32 p.1 ∧ IsF32 p.2) {e : Element} (he : e.Numbers) :
    hoversIn r p e = true ↔ (e.position.1 ≤ p.1 ∧ r (p.1 - e.position.1) < e.size.1) ∧ (e.position.2 ≤ p.2 ∧ r (p.2 - e.position.2) < e.size.2) := by
  unfold hoversIn
  simp only [Bool.and_eq_true, decide_eq_true_eq, ge_iff_le, hr.sub_nonneg_iff hp.1 he.x, hr.sub_nonneg_iff hp.2 he.y, and_assoc]

/-- `Pointed` in rounded arithmetic, as a test. -/
def pointedInB (r : Rat → Rat) (t : Tree) (p : Rat × Rat) (n : NodeId) : Bool :=
  match t.ctx n with
  | some e => decide (e.pointerEvents = .auto) && e.visible && hoversIn r p e
  | none => false

theorem underMouseIn_ok {t : Tree} {root body : NodeId} (hw : t.Wf root body) (p : Rat × Rat) (depth : Nat) (n : NodeId)
    (hn : (t.ctx n).isSome) (hd : t.next ≤ n + depth) :
    underMouseIn r t p depth n = .ok ((preorder t depth n).filter (pointedInB r t p)) := by
  induction depth generalizing n with
  | zero => exact absurd (hw.exist n hn) (Nat.not_lt.2 hd)
  | succ depth ih =>
    obtain ⟨e, he⟩ := Option.isSome_iff_exists.1 hn
    have hk := concatNodes_ok (f := underMouseIn r t p depth) (g := fun c => (preorder t depth c).filter (pointedInB r t p))
      (t.kids n) (fun c hc => by
        obtain ⟨h1, h2, h3⟩ := hw.slotsYounger n c (hw.sub n c hc)
        exact ih c h3 (by unfold NodeId at *; omega))
    simp only [underMouseIn, Tree.elem, he, hk, preorder, List.filter_cons, List.filter_flatMap]
    have : pointedInB r t p n = (decide (e.pointerEvents = .auto) && e.visible && hoversIn r p e) := by
      unfold pointedInB; rw [he]
    rw [this]
    cases h : (decide (e.pointerEvents = .auto) && e.visible && hoversIn r p e) <;> simp [h]

/-- A difference that is rounded up to the size is as near to it as rounding can be off. -/
theorem Rounds.missed (hr : Rounds r) {a b w : Rat} (ha : IsF32 a) (hb : IsF32 b) (hba : b ≤ a) (h1 : a - b < w) (h2 : w ≤ r (a - b)) :
    w - (a - b) ≤ (a - b) / 2 ^ 24 := by
  by_cases hsmall : |a - b| < 2 ^ (-126 : Int)
  · obtain ⟨m, hm⟩ := ha.smallest
    obtain ⟨n, hn⟩ := hb.smallest
    have hs := two_zpow_pos (-149)
    have heq : a - b = ((m - n : Int) : Rat) * 2 ^ (-149 : Int) := by rw [hm, hn]; push_cast; ring
    have h23 : (2 : Rat) ^ (-126 : Int) = 2 ^ 23 * 2 ^ (-149 : Int) := by
      have := two_zpow_shift (-149) 23
      norm_num at this ⊢
    have hb' : |((m - n : Int) : Rat)| < 2 ^ 23 := by
      rw [heq, abs_mul, abs_of_pos hs, h23] at hsmall
      exact lt_of_mul_lt_mul_right hsmall hs.le
    have hi : |m - n| < 2 ^ 24 := by
      have : |m - n| < 2 ^ 23 := by exact_mod_cast hb'
      omega
    have := hr.exact (x := a - b) ⟨m - n, -149, hi, le_rfl, heq⟩
    linarith
  · have := hr.relative (not_lt.1 hsmall)
    rw [abs_of_nonneg (by linarith : 0 ≤ a - b)] at this
    rw [abs_of_nonneg (by linarith)] at this
    linarith

/-- C99: in 32-bit arithmetic, nothing is found under the pointer that is not displayed there; what is displayed there and not found has
its right or lower edge so near to the pointer that the distance is at most one part in 2^24 of that from the other edge. -/
theorem C99_pointing (hr : Rounds r) {t : Tree} {root body : NodeId} (hw : t.Wf root body) {p : Rat × Rat} (hp : IsF32 p.1 ∧ IsF32 p.2)
    (hn : ∀ n e, t.ctx n = some e → e.Numbers) :
    ∃ found, underMouseIn r t p t.next body = .ok found ∧
      (∀ n ∈ found, Displayed t body n ∧ Pointed t p n) ∧
      ∀ n, Displayed t body n → Pointed t p n → n ∉ found → ∃ e, t.ctx n = some e ∧
        (e.position.1 + e.size.1 - p.1 ≤ (p.1 - e.position.1) / 2 ^ 24 ∨ e.position.2 + e.size.2 - p.2 ≤ (p.2 - e.position.2) / 2 ^ 24) := by
  refine ⟨_, underMouseIn_ok hw p t.next body (body_isSome hw) (by unfold NodeId; omega), fun n hf => ?_, fun n hd hpt hf => ?_⟩
  · obtain ⟨h1, h2⟩ := List.mem_filter.1 hf
    refine ⟨(preorder_mem hw t.next body (body_isSome hw) (by unfold NodeId; omega) n).1 h1, ?_⟩
    unfold pointedInB at h2
    cases he : t.ctx n with
    | none => rw [he] at h2; cases h2
    | some e =>
      rw [he] at h2
      simp only [Bool.and_eq_true, decide_eq_true_eq] at h2
      obtain ⟨⟨g1, g2⟩, g3⟩ := h2
      have nums := hn n e he
      obtain ⟨⟨x1, x2⟩, y1, y2⟩ := (hoversIn_iff hr hp nums).1 g3
      refine ⟨e, he, g1, g2, x1, ?_, y1, ?_⟩
      · by_contra hc
        have := hr.ge nums.width (x := p.1 - e.position.1) (by linarith)
        linarith
      · by_contra hc
        have := hr.ge nums.height (x := p.2 - e.position.2) (by linarith)
        linarith
  · obtain ⟨e, he, g1, g2, x1, x2, y1, y2⟩ := hpt
    have nums := hn n e he
    refine ⟨e, he, ?_⟩
    by_contra hc
    rw [not_or] at hc
    apply hf
    rw [List.mem_filter]
    refine ⟨(preorder_mem hw t.next body (body_isSome hw) (by unfold NodeId; omega) n).2 hd, ?_⟩
    unfold pointedInB
    rw [he]
    simp only [Bool.and_eq_true, decide_eq_true_eq]
    refine ⟨⟨g1, g2⟩, (hoversIn_iff hr hp nums).2 ⟨⟨x1, ?_⟩, y1, ?_⟩⟩
    · by_contra h
      exact hc.1 (by have := hr.missed hp.1 nums.x x1 (by linarith) (not_lt.1 h); linarith)
    · by_contra h
      exact hc.2 (by have := hr.missed hp.2 nums.y y1 (by linarith) (not_lt.1 h); linarith)

/-- A whole number of pixels. -/
def Pixels (x : Rat) : Prop := ∃ n : Int, x = n ∧ |n| < 2 ^ 23

/-- C99: on a screen of whole pixels pointing is exact. -/
theorem C99_whole (hr : Rounds r) {t : Tree} {root body : NodeId} (hw : t.Wf root body) {p : Rat × Rat} (hp : Pixels p.1 ∧ Pixels p.2)
    (hn : ∀ n e, t.ctx n = some e → Pixels e.position.1 ∧ Pixels e.position.2) :
    ∃ found, underMouseIn r t p t.next body = .ok found ∧ ∀ n, n ∈ found ↔ Displayed t body n ∧ Pointed t p n := by
  refine ⟨_, underMouseIn_ok hw p t.next body (body_isSome hw) (by unfold NodeId; omega), fun n => ?_⟩
  rw [List.mem_filter, preorder_mem hw t.next body (body_isSome hw) (by unfold NodeId; omega), ← pointedB_iff]
  refine and_congr_right fun _ => ?_
  unfold pointedInB pointedB
  cases he : t.ctx n with
  | none => rfl
  | some e =>
    have hex : ∀ {a b : Rat}, Pixels a → Pixels b → r (a - b) = a - b := by
      rintro a b ⟨m, rfl, hm⟩ ⟨k, rfl, hk⟩
      have : IsF32 (((m - k : Int)) : Rat) := IsF32.ofInt (by rw [abs_lt] at *; constructor <;> omega)
      push_cast at this
      exact hr.exact this
    obtain ⟨h1, h2⟩ := hn n e he
    simp only [hoversIn, hovers, hex hp.1 h1, hex hp.2 h2]

/-- C99, where rounding is visible: a point inside a box that is not found. -/
theorem C99_edge_example : let e : Element := { node := 1, position := (2 ^ (-30 : Int), 0), size := (1 + 2 ^ (-23 : Int), 1) }
    let p : Rat × Rat := (1 + 2 ^ (-23 : Int), 0)
    e.Numbers ∧ IsF32 p.1 ∧ IsF32 p.2 ∧ Inside p e ∧ hoversIn f32 p e = false ∧ hoversIn f32 (1, 0) e = true := by
  have h : IsF32 (1 + 2 ^ (-23 : Int)) := ⟨8388609, -23, by norm_num, by norm_num, by norm_num⟩
  exact ⟨⟨IsF32.power (by norm_num), IsF32.zero, h, IsF32.one⟩, h, IsF32.zero, ⟨by decide +kernel, by decide +kernel, by decide +kernel, by decide +kernel⟩,
    by decide +kernel, by decide +kernel⟩

/-- The tree of `styleDoc` with the box at (10, 20) and the paragraph in it at (30, 20), up to (50, 60). -/
def pinTree : Tree := (((treeOf styleDoc).modify 1 fun e => { e with size := (800, 600) }).modify 2 fun e => { e with position := (10, 20), size := (100, 100) }).modify 3
  fun e => { e with position := (30, 20), size := (20, 40) }

theorem pinTree_wf : pinTree.Wf 0 1 := wf_modify (wf_modify (wf_modify styleDoc_wf (fun _ => rfl)) (fun _ => rfl)) (fun _ => rfl)

/-- C99 at work: the hypotheses of both theorems hold of a displayed tree; (49, 59) is in the paragraph, (50, 59) only in the box. -/
theorem C99_example : pinTree.Wf 0 1 ∧ (∀ n e, pinTree.ctx n = some e → e.Numbers ∧ Pixels e.position.1 ∧ Pixels e.position.2) ∧
    (underMouseIn f32 pinTree (49, 59) pinTree.next 1).toOption = some [1, 2, 3] ∧ (underMouseIn f32 pinTree (50, 59) pinTree.next 1).toOption = some [1, 2] := by
  refine ⟨pinTree_wf, ?_, by decide +kernel, by decide +kernel⟩
  have whole : ∀ {x : Rat}, x.den = 1 ∧ x.num.natAbs < 2 ^ 23 → IsF32 x ∧ Pixels x := by
    rintro x ⟨h1, h2⟩
    have hx : x = x.num := (Rat.den_eq_one_iff x).1 h1 |>.symm
    have hb : |x.num| < 2 ^ 23 := by rw [Int.abs_eq_natAbs]; exact_mod_cast h2
    exact ⟨by rw [hx]; exact IsF32.ofInt (by omega), x.num, hx, hb⟩
  have hall : ∀ n ∈ List.range pinTree.next, ∀ e ∈ pinTree.ctx n, ∀ x ∈ [e.position.1, e.position.2, e.size.1, e.size.2], x.den = 1 ∧ x.num.natAbs < 2 ^ 23 := by decide +kernel
  intro n e he
  have hn : n < pinTree.next := pinTree_wf.exist n (by rw [he]; rfl)
  have := fun x hx => whole (hall n (List.mem_range.2 hn) e he x hx)
  exact ⟨⟨(this _ (by simp)).1, (this _ (by simp)).1, (this _ (by simp)).1, (this _ (by simp)).1⟩, (this _ (by simp)).2, (this _ (by simp)).2⟩

/-! ## C100: colours -/

theorem asU8_of_floor {v : Rat} {n : Nat} (h1 : (n : Rat) ≤ v) (h2 : v < n + 1) (hn : n ≤ 255) : asU8 v = n := by
  have a1 := asU8_mono h1
  rw [asU8_nat n hn] at a1
  refine le_antisymm ?_ a1
  have hc := asU8_clamped v
  by_cases h255 : 255 ≤ v
  · have : (254 : Rat) < n := by linarith
    have : 254 < n := by exact_mod_cast this
    have := asU8_le v
    omega
  · have hv0 : 0 ≤ v := le_trans (Nat.cast_nonneg n) h1
    have := (hc.inside hv0 (by linarith)).1
    have : ((asU8 v : Nat) : Rat) < ((n + 1 : Nat) : Rat) := by push_cast; linarith
    have : asU8 v < n + 1 := by exact_mod_cast this
    omega

/-- A part of 1 that is read and made a byte is off by at most what rounding is off twice. -/
theorem byte_near (hr : Rounds r) {p : Rat} (h0 : 0 ≤ p) (h1 : p ≤ 1) : |r (r p * 255) - 255 * p| ≤ 2 ^ (-15 : Int) := by
  have e1 : |r p - p| ≤ 2 ^ (-24 : Int) / 2 := hr.error (by norm_num) (by rw [abs_of_nonneg h0]; norm_num; exact h1)
  have q0 := hr.nonneg h0
  have q1 : r p ≤ 1 := hr.le IsF32.one h1
  have e2 : |r (r p * 255) - r p * 255| ≤ 2 ^ (-16 : Int) / 2 := hr.error (by norm_num) (by rw [abs_of_nonneg (by linarith)]; norm_num; linarith)
  rw [abs_le] at *
  norm_num at e1 e2 ⊢
  constructor <;> linarith [e1.1, e1.2, e2.1, e2.2]

/-- C100: a component that is a part of 1, as a percentage or, for the opacity, as a number, is what CSS says without its fraction, give
or take a part of 32768; larger ones never give less; from 0 to 255 in any case. -/
theorem C100_near (hr : Rounds r) {p : Rat} (h0 : 0 ≤ p) (h1 : p ≤ 1) :
    ((mapCIn r (.percentage (r p)) : Rat) ≤ 255 * p + 1 / 32768 ∧ 255 * p - 1 / 32768 < mapCIn r (.percentage (r p)) + 1) ∧
    mapAIn r (.percentage (r p)) = mapCIn r (.percentage (r p)) ∧ mapAIn r (.number (r p)) = mapCIn r (.percentage (r p)) := by
  have hb := byte_near hr h0 h1
  have hc := asU8_clamped (r (r p * 255))
  have q0 : 0 ≤ r (r p * 255) := hr.nonneg (mul_nonneg (hr.nonneg h0) (by norm_num))
  have q1 : r (r p * 255) ≤ 255 := by
    have := IsF32.ofNat (m := 255) (by norm_num)
    exact hr.le (by exact_mod_cast this) (by have := hr.le IsF32.one h1; linarith)
  obtain ⟨i1, i2⟩ := hc.inside q0 q1
  rw [abs_le] at hb
  norm_num at hb
  refine ⟨⟨?_, ?_⟩, rfl, rfl⟩
  · simp only [mapCIn]; norm_num; linarith [hb.2]
  · simp only [mapCIn]; norm_num; linarith [hb.1]

/-- C100: larger components never give less, and whatever is above 1 gives 255, below 0 gives 0. -/
theorem C100_order (hr : Rounds r) {p q : Rat} (h : p ≤ q) : mapCIn r (.percentage (r p)) ≤ mapCIn r (.percentage (r q)) ∧
    mapCIn r (.number (r p)) ≤ mapCIn r (.number (r q)) ∧ mapAIn r (.number (r p)) ≤ mapAIn r (.number (r q)) ∧
    (1 ≤ q → mapCIn r (.percentage (r q)) = 255) ∧ (p ≤ 0 → mapCIn r (.percentage (r p)) = 0) := by
  have hm : r (r p * 255) ≤ r (r q * 255) := hr.mono (by have := hr.mono h; linarith)
  refine ⟨asU8_mono hm, asU8_mono (hr.mono h), asU8_mono hm, fun hq => ?_, fun hp => ?_⟩
  · have := hr.ge IsF32.one hq
    have h255 := IsF32.ofNat (m := 255) (by norm_num)
    exact (asU8_clamped _).high (hr.ge (by exact_mod_cast h255) (by push_cast; linarith))
  · have := hr.le IsF32.zero hp
    exact (asU8_clamped _).low (hr.le IsF32.zero (by linarith))

theorem r_fifths (hr : Rounds r) {n : Nat} (h : n = 20 ∨ n = 40 ∨ n = 60 ∨ n = 80) : (n : Rat) / 100 ≤ r (n / 100) := by
  have key : ∀ {x : Rat} {e : Int} {k : Int}, 2 ^ (e + 23) ≤ x → |k| < 2 ^ 24 → -149 ≤ e → x ≤ k * 2 ^ e → 2 * (k * 2 ^ e - x) < 2 ^ e → x ≤ r x := by
    intro x e k hx hk he h1 h2
    by_contra hc
    have hc := not_le.1 hc
    have hp := two_zpow_pos e
    have hp' := two_zpow_pos (e + 23)
    have hge : 2 ^ (e + 23) ≤ r x := hr.ge (IsF32.power (by omega)) hx
    obtain ⟨m, hm⟩ := (hr.number x).multiple (e := e) (by rw [abs_of_pos (by linarith)]; exact hge)
    have hs := step_apart hp (a := m) (b := k) (by rw [← hm]; linarith)
    rw [← hm] at hs
    have := hr.nearest x (k * 2 ^ e) ⟨k, e, hk, he, rfl⟩
    rw [abs_of_neg (by linarith), abs_of_nonneg (by linarith)] at this
    linarith
  rcases h with rfl | rfl | rfl | rfl
  · exact key (e := -26) (k := 13421773) (by norm_num) (by norm_num) (by norm_num) (by norm_num) (by norm_num)
  · exact key (e := -25) (k := 13421773) (by norm_num) (by norm_num) (by norm_num) (by norm_num) (by norm_num)
  · exact key (e := -24) (k := 10066330) (by norm_num) (by norm_num) (by norm_num) (by norm_num) (by norm_num)
  · exact key (e := -24) (k := 13421773) (by norm_num) (by norm_num) (by norm_num) (by norm_num) (by norm_num)

/-- C100: whole percentages (and opacities of two decimals) are exactly what CSS says, without its fraction: rounding is never visible. -/
theorem C100_percent (hr : Rounds r) {n : Nat} (hn : n ≤ 100) :
    mapCIn r (.percentage (r (n / 100))) = n * 255 / 100 ∧ mapAIn r (.number (r (n / 100))) = n * 255 / 100 := by
  suffices asU8 (r (r (n / 100) * 255)) = n * 255 / 100 from ⟨this, this⟩
  have hnq : (n : Rat) ≤ 100 := by exact_mod_cast hn
  have hb := byte_near hr (p := (n : Rat) / 100) (by positivity) (by linarith)
  rw [abs_le] at hb
  norm_num at hb
  have hdiv : (100 : Rat) * ((n * 255 / 100 : Nat) : Rat) + ((n * 255 % 100 : Nat) : Rat) = n * 255 := by exact_mod_cast Nat.div_add_mod (n * 255) 100
  have hmod : n * 255 % 100 ≤ 95 := by omega
  have hmodq : ((n * 255 % 100 : Nat) : Rat) ≤ 95 := by exact_mod_cast hmod
  refine asU8_of_floor ?_ (by linarith [hb.2]) (by omega)
  by_cases hz : n * 255 % 100 = 0
  · rw [hz] at hdiv
    have h255 : IsF32 ((n * 255 / 100 : Nat) : Rat) := IsF32.ofNat (by omega)
    refine hr.ge h255 ?_
    have hcase : n = 0 ∨ n = 100 ∨ n = 20 ∨ n = 40 ∨ n = 60 ∨ n = 80 := by omega
    have hle : (n : Rat) / 100 ≤ r (n / 100) := by
      rcases hcase with rfl | rfl | h
      · norm_num; rw [hr.zero]
      · norm_num; rw [hr.one]
      · exact r_fifths hr h
    push_cast at hdiv
    linarith
  · have : 1 ≤ n * 255 % 100 := by omega
    have : (1 : Rat) ≤ ((n * 255 % 100 : Nat) : Rat) := by exact_mod_cast this
    linarith [hb.1]

/-- C100: what `rgb()` and `rgba()` are, for components of any kind: each byte is that of its own component, the colour of `rgb()` is
opaque, and whole percentages and opacities of two decimals give exactly the bytes of the exact arithmetic. -/
theorem C100_functions (hr : Rounds r) {a b c n : Nat} (ha : a ≤ 100) (hb : b ≤ 100) (hc : c ≤ 100) (hn : n ≤ 100) :
    computeFunctionIn r "rgb" [.percentage (r (a / 100)), .percentage (r (b / 100)), .percentage (r (c / 100))] =
      .color ⟨a * 255 / 100, b * 255 / 100, c * 255 / 100, 255⟩ ∧
    computeFunctionIn r "rgba" [.percentage (r (a / 100)), .percentage (r (b / 100)), .percentage (r (c / 100)), .number (r (n / 100))] =
      .color ⟨a * 255 / 100, b * 255 / 100, c * 255 / 100, n * 255 / 100⟩ ∧
    computeFunctionIn r "rgba" [.percentage (r (a / 100)), .percentage (r (b / 100)), .percentage (r (c / 100)), .percentage (r (n / 100))] =
      .color ⟨a * 255 / 100, b * 255 / 100, c * 255 / 100, n * 255 / 100⟩ ∧
    ∀ i j k : Nat, i ≤ 255 → j ≤ 255 → k ≤ 255 →
      computeFunctionIn r "rgb" [.number i, .number j, .number k] = .color ⟨i, j, k, 255⟩ ∧
      computeFunctionIn r "rgba" [.number i, .number j, .number k, .number (r (n / 100))] = .color ⟨i, j, k, n * 255 / 100⟩ := by
  have e : ∀ {m : Nat}, m ≤ 100 → mapCIn r (.percentage (r (m / 100))) = m * 255 / 100 := fun h => (C100_percent hr h).1
  have eA : mapAIn r (.number (r (n / 100))) = n * 255 / 100 := (C100_percent hr hn).2
  have eP : mapAIn r (.percentage (r (n / 100))) = n * 255 / 100 := (C100_percent hr hn).1
  have eN : ∀ {m : Nat}, m ≤ 255 → mapCIn r (.number m) = m := fun h => asU8_nat _ h
  refine ⟨?_, ?_, ?_, fun i j k hi hj hk => ⟨?_, ?_⟩⟩
  all_goals simp only [computeFunctionIn, if_true, if_neg (show ¬ "rgba" = "rgb" by decide)]
  · rw [e ha, e hb, e hc]
  · rw [e ha, e hb, e hc, eA]
  · rw [e ha, e hb, e hc, eP]
  · rw [eN hi, eN hj, eN hk]
  · rw [eN hi, eN hj, eN hk, eA]

/-- C100 at work, and where rounding is visible: `rgb(20%, 50%, 100%)`; and 0.00392156863 is a little more than 1/255 and gives 1, while
its double 0.00784313726, a little more than 2/255, gives 2; 0.0117647058 is a little less than 3/255 and gives 3 all the same. -/
theorem C100_example : computeFunctionIn f32 "rgb" [.percentage (f32 (20 / 100)), .percentage (f32 (50 / 100)), .percentage (f32 (100 / 100))] = .color ⟨51, 127, 255, 255⟩ ∧
    mapAIn f32 (.number (f32 (392156863 / 100000000000))) = 1 ∧ mapAIn f32 (.number (f32 (784313726 / 100000000000))) = 2 ∧
    mapAIn f32 (.number (f32 (117647058 / 10000000000))) = 3 ∧ mapA (.number (117647058 / 10000000000)) = 2 := by
  decide +kernel

end Verif
