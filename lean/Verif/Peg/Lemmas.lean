import Verif.Peg.Basic
import Mathlib.Tactic.Common
import Mathlib.Tactic.SplitIfs
/-!
# Laws of parsing expressions
-/
namespace Verif
variable {R : Type} {g : Grammar R}

theorem run_succ : ∀ (fuel : Nat) {a : Atomicity} {e : Peg R} {i : List Char} {r : Parsed R}, run g fuel a e i = some r → run g (fuel + 1) a e i = some r := by
  intro fuel
  induction fuel with
  | zero => intro a e i r h; cases e <;> simp [run] at h
  | succ fuel ih =>
    intro a e i r h
    cases e with
    | chr p => simpa [run] using h
    | lit s => simpa [run] using h
    | ilit s => simpa [run] using h
    | eps => simpa [run] using h
    | eoi => simpa [run] using h
    | call q =>
      rw [run] at h ⊢
      cases hx : run g fuel ((g.kind q).inside a) (g.body q) i with
      | none => rw [hx] at h; simp at h
      | some x => rw [ih hx]; rw [hx] at h; exact h
    | cat x y =>
      rw [run] at h ⊢
      cases hx : run g fuel a x i with
      | none => rw [hx] at h; simp at h
      | some px =>
        rw [ih hx]; rw [hx] at h
        cases px with
        | none => exact h
        | some p =>
          obtain ⟨ps, i1⟩ := p
          simp only at h ⊢
          cases hy : run g fuel a y i1 with
          | none => rw [hy] at h; simp at h
          | some py => rw [ih hy]; rw [hy] at h; exact h
    | alt x y =>
      rw [run] at h ⊢
      cases hx : run g fuel a x i with
      | none => rw [hx] at h; simp at h
      | some px =>
        rw [ih hx]; rw [hx] at h
        cases px with
        | none => exact ih h
        | some p => exact h
    | rep x =>
      rw [run] at h ⊢
      cases hx : run g fuel a x i with
      | none => rw [hx] at h; simp at h
      | some px =>
        rw [ih hx]; rw [hx] at h
        cases px with
        | none => exact h
        | some p =>
          obtain ⟨ps, i1⟩ := p
          simp only at h ⊢
          cases hy : run g fuel a (.rep x) i1 with
          | none => rw [hy] at h; simp at h
          | some py => rw [ih hy]; rw [hy] at h; exact h
    | neg x =>
      rw [run] at h ⊢
      cases hx : run g fuel a x i with
      | none => rw [hx] at h; simp at h
      | some px => rw [ih hx]; rw [hx] at h; exact h
    | gap =>
      rw [run] at h ⊢
      split at h
      · rw [if_pos (by assumption)]; exact ih h
      · rw [if_neg (by assumption)]; exact h

theorem run_mono {fuel fuel' : Nat} (hf : fuel ≤ fuel') {a : Atomicity} {e : Peg R} {i : List Char} {r : Parsed R} (h : run g fuel a e i = some r) :
    run g fuel' a e i = some r := by
  induction hf with
  | refl => exact h
  | step _ ih => exact run_succ _ ih

/-- With enough fuel the result is `r`. -/
def Runs (g : Grammar R) (a : Atomicity) (e : Peg R) (i : List Char) (r : Parsed R) : Prop := ∃ fuel, run g fuel a e i = some r

theorem Runs.unique {a : Atomicity} {e : Peg R} {i : List Char} {r r' : Parsed R} (h : Runs g a e i r) (h' : Runs g a e i r') : r = r' := by
  obtain ⟨f, h⟩ := h
  obtain ⟨f', h'⟩ := h'
  have h1 := run_mono (Nat.le_max_left f f') h
  have h2 := run_mono (Nat.le_max_right f f') h'
  rw [h1] at h2
  exact Option.some.inj h2

theorem Runs.settles {a : Atomicity} {e : Peg R} {i : List Char} {r : Parsed R} (h : Runs g a e i r) : ∃ F, ∀ fuel ≥ F, run g fuel a e i = some r := by
  obtain ⟨f, h⟩ := h
  exact ⟨f, fun _ hf => run_mono hf h⟩

theorem Runs.eps {a : Atomicity} {i : List Char} : Runs g a .eps i (some ([], i)) := ⟨1, rfl⟩

theorem Runs.chr {a : Atomicity} {p : Char → Bool} {c : Char} {i : List Char} (h : p c = true) : Runs g a (.chr p) (c :: i) (some ([], i)) := ⟨1, by simp [run, h]⟩

theorem Runs.chr_not {a : Atomicity} {p : Char → Bool} {i : List Char} (h : ∀ c r, i = c :: r → p c = false) : Runs g a (.chr p) i none := by
  refine ⟨1, ?_⟩
  cases i with
  | nil => rfl
  | cons c i => simp [run, h c i rfl]

theorem stripPrefix_append (s i : List Char) : stripPrefix s (s ++ i) = some i := by
  induction s with
  | nil => simp [stripPrefix]
  | cons c s ih => simp [stripPrefix, ih]

theorem stripPrefix_some {s i r : List Char} (h : stripPrefix s i = some r) : i = s ++ r := by
  induction s generalizing i with
  | nil => simp [stripPrefix] at h; simp [h]
  | cons c s ih =>
    cases i with
    | nil => simp [stripPrefix] at h
    | cons d i =>
      simp only [stripPrefix] at h
      split at h
      · rename_i hc; subst hc; rw [ih h]; rfl
      · cases h

theorem Runs.lit {a : Atomicity} {s i : List Char} : Runs g a (.lit s) (s ++ i) (some ([], i)) := ⟨1, by simp [run, stripPrefix_append]⟩

theorem Runs.lit_not {a : Atomicity} {s i : List Char} (h : ¬ s <+: i) : Runs g a (.lit s) i none := by
  refine ⟨1, ?_⟩
  cases hs : stripPrefix s i with
  | none => simp [run, hs]
  | some r => exact absurd ⟨r, (stripPrefix_some hs).symm⟩ h

theorem Runs.ilit {a : Atomicity} {s i r : List Char} (h : stripInsensitive s i = some r) : Runs g a (.ilit s) i (some ([], r)) := ⟨1, by simp [run, h]⟩
theorem Runs.ilit_not {a : Atomicity} {s i : List Char} (h : stripInsensitive s i = none) : Runs g a (.ilit s) i none := ⟨1, by simp [run, h]⟩

theorem Runs.eoi {a : Atomicity} : Runs g a .eoi [] (some ([], [])) := ⟨1, rfl⟩
theorem Runs.eoi_not {a : Atomicity} {c : Char} {i : List Char} : Runs g a .eoi (c :: i) none := ⟨1, rfl⟩

theorem Runs.cat {a : Atomicity} {x y : Peg R} {i i1 i2 : List Char} {ps qs : List (Pair R)} (hx : Runs g a x i (some (ps, i1))) (hy : Runs g a y i1 (some (qs, i2))) :
    Runs g a (.cat x y) i (some (ps ++ qs, i2)) := by
  obtain ⟨f, hx⟩ := hx
  obtain ⟨f', hy⟩ := hy
  exact ⟨max f f' + 1, by rw [run, run_mono (Nat.le_max_left f f') hx]; simp only; rw [run_mono (Nat.le_max_right f f') hy]⟩

theorem Runs.cat_left {a : Atomicity} {x y : Peg R} {i : List Char} (hx : Runs g a x i none) : Runs g a (.cat x y) i none := by
  obtain ⟨f, hx⟩ := hx
  exact ⟨f + 1, by rw [run, hx]⟩

theorem Runs.cat_right {a : Atomicity} {x y : Peg R} {i i1 : List Char} {ps : List (Pair R)} (hx : Runs g a x i (some (ps, i1))) (hy : Runs g a y i1 none) :
    Runs g a (.cat x y) i none := by
  obtain ⟨f, hx⟩ := hx
  obtain ⟨f', hy⟩ := hy
  exact ⟨max f f' + 1, by rw [run, run_mono (Nat.le_max_left f f') hx]; simp only; rw [run_mono (Nat.le_max_right f f') hy]⟩

theorem Runs.alt_left {a : Atomicity} {x y : Peg R} {i : List Char} {r : List (Pair R) × List Char} (hx : Runs g a x i (some r)) : Runs g a (.alt x y) i (some r) := by
  obtain ⟨f, hx⟩ := hx
  exact ⟨f + 1, by rw [run, hx]⟩

theorem Runs.alt_right {a : Atomicity} {x y : Peg R} {i : List Char} {r : Parsed R} (hx : Runs g a x i none) (hy : Runs g a y i r) : Runs g a (.alt x y) i r := by
  obtain ⟨f, hx⟩ := hx
  obtain ⟨f', hy⟩ := hy
  exact ⟨max f f' + 1, by rw [run, run_mono (Nat.le_max_left f f') hx]; simp only; rw [run_mono (Nat.le_max_right f f') hy]⟩

theorem Runs.rep_stop {a : Atomicity} {x : Peg R} {i : List Char} (hx : Runs g a x i none) : Runs g a (.rep x) i (some ([], i)) := by
  obtain ⟨f, hx⟩ := hx
  exact ⟨f + 1, by rw [run, hx]⟩

theorem Runs.rep_step {a : Atomicity} {x : Peg R} {i i1 i2 : List Char} {ps qs : List (Pair R)} (hx : Runs g a x i (some (ps, i1)))
    (hy : Runs g a (.rep x) i1 (some (qs, i2))) : Runs g a (.rep x) i (some (ps ++ qs, i2)) := by
  obtain ⟨f, hx⟩ := hx
  obtain ⟨f', hy⟩ := hy
  exact ⟨max f f' + 1, by rw [run, run_mono (Nat.le_max_left f f') hx]; simp only; rw [run_mono (Nat.le_max_right f f') hy]⟩

theorem Runs.neg {a : Atomicity} {x : Peg R} {i : List Char} (hx : Runs g a x i none) : Runs g a (.neg x) i (some ([], i)) := by
  obtain ⟨f, hx⟩ := hx
  exact ⟨f + 1, by rw [run, hx]⟩

theorem Runs.neg_not {a : Atomicity} {x : Peg R} {i : List Char} {r : List (Pair R) × List Char} (hx : Runs g a x i (some r)) : Runs g a (.neg x) i none := by
  obtain ⟨f, hx⟩ := hx
  exact ⟨f + 1, by rw [run, hx]⟩

theorem Runs.gap {i : List Char} {r : Parsed R} (h : Runs g .atomic g.skip i r) : Runs g .nonAtomic .gap i r := by
  obtain ⟨f, h⟩ := h
  exact ⟨f + 1, by rw [run, if_pos rfl]; exact h⟩

theorem Runs.gap_off {a : Atomicity} (ha : a ≠ .nonAtomic) {i : List Char} : Runs g a .gap i (some ([], i)) := ⟨1, by rw [run, if_neg ha]⟩

theorem Runs.call {a : Atomicity} {r : R} {i : List Char} {p : Parsed R} (h : Runs g ((g.kind r).inside a) (g.body r) i p) :
    Runs g a (.call r) i (wrap ((g.kind r).seen a) r i p) := by
  obtain ⟨f, h⟩ := h
  exact ⟨f + 1, by rw [run, h]; rfl⟩

/-! ## Derivations -/

/-- What a match looks like: the text it took and its pairs. -/
inductive Derives (g : Grammar R) : Atomicity → Peg R → List Char → List (Pair R) → Prop
  | chr {a p c} : p c = true → Derives g a (.chr p) [c] []
  | lit {a s} : Derives g a (.lit s) s []
  | ilit {a s t} : stripInsensitive s t = some [] → Derives g a (.ilit s) t []
  | eps {a} : Derives g a .eps [] []
  | eoi {a} : Derives g a .eoi [] []
  | call {a r t ps} : Derives g ((g.kind r).inside a) (g.body r) t ps →
      Derives g a (.call r) t (if (g.kind r).seen a then [.mk r t ps] else ps)
  | cat {a x y t u ps qs} : Derives g a x t ps → Derives g a y u qs → Derives g a (.cat x y) (t ++ u) (ps ++ qs)
  | altLeft {a x y t ps} : Derives g a x t ps → Derives g a (.alt x y) t ps
  | altRight {a x y t ps} : Derives g a y t ps → Derives g a (.alt x y) t ps
  | repStop {a x} : Derives g a (.rep x) [] []
  | repStep {a x t u ps qs} : Derives g a x t ps → Derives g a (.rep x) u qs → Derives g a (.rep x) (t ++ u) (ps ++ qs)
  | neg {a x} : Derives g a (.neg x) [] []
  | gap {t ps} : Derives g .atomic g.skip t ps → Derives g .nonAtomic .gap t ps
  | gapOff {a} : a ≠ .nonAtomic → Derives g a .gap [] []

theorem stripInsensitive_some {s i r : List Char} (h : stripInsensitive s i = some r) : ∃ t, i = t ++ r ∧ stripInsensitive s t = some [] := by
  induction s generalizing i with
  | nil => simp [stripInsensitive] at h; exact ⟨[], by simp [h], rfl⟩
  | cons c s ih =>
    cases i with
    | nil => simp [stripInsensitive] at h
    | cons d i =>
      simp only [stripInsensitive] at h
      split at h
      · rename_i hc
        obtain ⟨t, rfl, ht⟩ := ih h
        exact ⟨d :: t, rfl, by simp [stripInsensitive, hc, ht]⟩
      · cases h

theorem run_derives : ∀ (fuel : Nat) {a : Atomicity} {e : Peg R} {i rest : List Char} {ps : List (Pair R)}, run g fuel a e i = some (some (ps, rest)) →
    ∃ t, i = t ++ rest ∧ Derives g a e t ps := by
  intro fuel
  induction fuel with
  | zero => intro a e i rest ps h; cases e <;> simp [run] at h
  | succ fuel ih =>
    intro a e i rest ps h
    cases e with
    | chr p =>
      cases i with
      | nil => simp [run] at h
      | cons c i =>
        simp only [run] at h
        split at h
        · rename_i hp
          simp only [Option.some.injEq, Prod.mk.injEq] at h
          obtain ⟨rfl, rfl⟩ := h
          exact ⟨[c], rfl, .chr hp⟩
        · simp at h
    | lit s =>
      rw [run] at h
      cases hs : stripPrefix s i with
      | none => rw [hs] at h; simp at h
      | some r =>
        rw [hs] at h
        simp only [Option.map_some, Option.some.injEq, Prod.mk.injEq] at h
        obtain ⟨rfl, rfl⟩ := h
        exact ⟨s, stripPrefix_some hs, .lit⟩
    | ilit s =>
      rw [run] at h
      cases hs : stripInsensitive s i with
      | none => rw [hs] at h; simp at h
      | some r =>
        rw [hs] at h
        simp only [Option.map_some, Option.some.injEq, Prod.mk.injEq] at h
        obtain ⟨rfl, rfl⟩ := h
        obtain ⟨t, ht, h2⟩ := stripInsensitive_some hs
        exact ⟨t, ht, .ilit h2⟩
    | eps =>
      simp only [run, Option.some.injEq, Prod.mk.injEq] at h
      obtain ⟨rfl, rfl⟩ := h
      exact ⟨[], rfl, .eps⟩
    | eoi =>
      cases i with
      | nil =>
        simp only [run, Option.some.injEq, Prod.mk.injEq] at h
        obtain ⟨rfl, rfl⟩ := h
        exact ⟨[], rfl, .eoi⟩
      | cons c i => simp [run] at h
    | call q =>
      rw [run] at h
      cases hx : run g fuel ((g.kind q).inside a) (g.body q) i with
      | none => rw [hx] at h; simp at h
      | some px =>
        rw [hx] at h
        cases px with
        | none => simp [wrap] at h
        | some p =>
          obtain ⟨qs, r1⟩ := p
          simp only [Option.map_some, wrap, Option.some.injEq, Prod.mk.injEq] at h
          obtain ⟨h1, rfl⟩ := h
          obtain ⟨t, rfl, ht⟩ := ih hx
          refine ⟨t, rfl, ?_⟩
          have := Derives.call ht
          rw [← h1]
          simpa using this
    | cat x y =>
      rw [run] at h
      cases hx : run g fuel a x i with
      | none => rw [hx] at h; simp at h
      | some px =>
        rw [hx] at h
        cases px with
        | none => simp at h
        | some p =>
          obtain ⟨qs, r1⟩ := p
          simp only at h
          cases hy : run g fuel a y r1 with
          | none => rw [hy] at h; simp at h
          | some py =>
            rw [hy] at h
            cases py with
            | none => simp at h
            | some p2 =>
              obtain ⟨qs2, r2⟩ := p2
              simp only [Option.some.injEq, Prod.mk.injEq] at h
              obtain ⟨rfl, rfl⟩ := h
              obtain ⟨t, rfl, ht⟩ := ih hx
              obtain ⟨u, rfl, hu⟩ := ih hy
              exact ⟨t ++ u, by simp, .cat ht hu⟩
    | alt x y =>
      rw [run] at h
      cases hx : run g fuel a x i with
      | none => rw [hx] at h; simp at h
      | some px =>
        rw [hx] at h
        cases px with
        | none =>
          obtain ⟨t, rfl, ht⟩ := ih h
          exact ⟨t, rfl, .altRight ht⟩
        | some p =>
          simp only [Option.some.injEq] at h
          subst h
          obtain ⟨t, rfl, ht⟩ := ih hx
          exact ⟨t, rfl, .altLeft ht⟩
    | rep x =>
      rw [run] at h
      cases hx : run g fuel a x i with
      | none => rw [hx] at h; simp at h
      | some px =>
        rw [hx] at h
        cases px with
        | none =>
          simp only [Option.some.injEq, Prod.mk.injEq] at h
          obtain ⟨rfl, rfl⟩ := h
          exact ⟨[], rfl, .repStop⟩
        | some p =>
          obtain ⟨qs, r1⟩ := p
          simp only at h
          cases hy : run g fuel a (.rep x) r1 with
          | none => rw [hy] at h; simp at h
          | some py =>
            rw [hy] at h
            cases py with
            | none => simp at h
            | some p2 =>
              obtain ⟨qs2, r2⟩ := p2
              simp only [Option.some.injEq, Prod.mk.injEq] at h
              obtain ⟨rfl, rfl⟩ := h
              obtain ⟨t, rfl, ht⟩ := ih hx
              obtain ⟨u, rfl, hu⟩ := ih hy
              exact ⟨t ++ u, by simp, .repStep ht hu⟩
    | neg x =>
      rw [run] at h
      cases hx : run g fuel a x i with
      | none => rw [hx] at h; simp at h
      | some px =>
        rw [hx] at h
        cases px with
        | none =>
          simp only [Option.some.injEq, Prod.mk.injEq] at h
          obtain ⟨rfl, rfl⟩ := h
          exact ⟨[], rfl, .neg⟩
        | some p => simp at h
    | gap =>
      rw [run] at h
      split at h
      · rename_i ha
        subst ha
        obtain ⟨t, rfl, ht⟩ := ih h
        exact ⟨t, rfl, .gap ht⟩
      · simp only [Option.some.injEq, Prod.mk.injEq] at h
        obtain ⟨rfl, rfl⟩ := h
        exact ⟨[], rfl, .gapOff (by assumption)⟩

theorem Runs.derives {a : Atomicity} {e : Peg R} {i rest : List Char} {ps : List (Pair R)} (h : Runs g a e i (some (ps, rest))) :
    ∃ t, i = t ++ rest ∧ Derives g a e t ps := by
  obtain ⟨f, h⟩ := h
  exact run_derives f h

/-! ## Coming to an end -/

/-- May match without taking a character; `nul` says so of the rules. -/
def Peg.nullable (nul : R → Bool) : Peg R → Bool
  | .chr _ => false
  | .lit s => s.isEmpty
  | .ilit s => s.isEmpty
  | .eps => true
  | .eoi => true
  | .call r => nul r
  | .cat x y => x.nullable nul && y.nullable nul
  | .alt x y => x.nullable nul || y.nullable nul
  | .rep _ => true
  | .neg _ => true
  | .gap => true

/-- Nothing that may match without taking a character is repeated. -/
def Peg.Steady (nul : R → Bool) : Peg R → Bool
  | .cat x y => x.Steady nul && y.Steady nul
  | .alt x y => x.Steady nul && y.Steady nul
  | .rep x => x.Steady nul && !x.nullable nul
  | .neg x => x.Steady nul
  | _ => true

/-- The rules called before a character is taken have a rank below `k`. -/
def Peg.guarded (nul : R → Bool) (rank : R → Nat) (k : Nat) : Peg R → Bool
  | .call r => decide (rank r < k)
  | .cat x y => x.guarded nul rank k && (!x.nullable nul || y.guarded nul rank k)
  | .alt x y => x.guarded nul rank k && y.guarded nul rank k
  | .rep x => x.guarded nul rank k
  | .neg x => x.guarded nul rank k
  | _ => true

/-- A grammar whose parsers come to an end. -/
structure Grammar.Tidy (g : Grammar R) (nul : R → Bool) (rank : R → Nat) (top : Nat) : Prop where
  steady : ∀ r, (g.body r).Steady nul = true
  guarded : ∀ r, (g.body r).guarded nul rank (rank r) = true
  skipSteady : g.skip.Steady nul = true
  skipGuarded : g.skip.guarded nul rank 0 = true
  nullable : ∀ r, (g.body r).nullable nul = true → nul r = true
  below_top : ∀ r, rank r < top

theorem derives_nullable {nul : R → Bool} (hn : ∀ r, (g.body r).nullable nul = true → nul r = true) {a : Atomicity} {e : Peg R} {t : List Char} {ps : List (Pair R)}
    (h : Derives g a e t ps) : t = [] → e.nullable nul = true := by
  induction h with
  | chr _ => intro h; cases h
  | lit => intro h; simp [Peg.nullable, h]
  | @ilit a s t hs =>
    intro h
    subst h
    cases s with
    | nil => rfl
    | cons c s => simp [stripInsensitive] at hs
  | eps => intro _; rfl
  | eoi => intro _; rfl
  | call _ ih => intro h; exact hn _ (ih h)
  | cat _ _ ih1 ih2 =>
    intro h
    obtain ⟨h1, h2⟩ := List.append_eq_nil_iff.1 h
    simp [Peg.nullable, ih1 h1, ih2 h2]
  | altLeft _ ih => intro h; simp [Peg.nullable, ih h]
  | altRight _ ih => intro h; simp [Peg.nullable, ih h]
  | repStop => intro _; rfl
  | repStep => intro _; rfl
  | neg => intro _; rfl
  | gap => intro _; rfl
  | gapOff => intro _; rfl

theorem Peg.guarded_top {nul : R → Bool} {rank : R → Nat} {top : Nat} (h : ∀ r, rank r < top) : ∀ e : Peg R, e.guarded nul rank top = true
  | .chr _ => rfl | .lit _ => rfl | .ilit _ => rfl | .eps => rfl | .eoi => rfl | .gap => rfl
  | .call r => by simp [guarded, h r]
  | .cat x y => by simp [guarded, guarded_top h x, guarded_top h y]
  | .alt x y => by simp [guarded, guarded_top h x, guarded_top h y]
  | .rep x => by simp [guarded, guarded_top h x]
  | .neg x => by simp [guarded, guarded_top h x]

/-- Steps inside one rule: with enough fuel for the rules called first and for shorter input, an expression comes to an end. -/
theorem runs_expr {nul : R → Bool} (hn : ∀ r, (g.body r).nullable nul = true → nul r = true) {rank : R → Nat} {k : Nat} {n : Nat}
    (hcall : ∀ r a i, rank r < k → i.length ≤ n → ∃ p, Runs g a (.call r) i p)
    {a : Atomicity} (hgap : ∀ i, i.length ≤ n → ∃ p, Runs g a .gap i p)
    (hshort : ∀ e : Peg R, e.Steady nul = true → ∀ a i, i.length < n → ∃ p, Runs g a e i p) (e : Peg R) (hs : e.Steady nul = true) (hg : e.guarded nul rank k = true) :
    ∀ i, i.length ≤ n → ∃ p, Runs g a e i p := by
  induction e with
  | chr p => intro i _; exact ⟨_, 1, rfl⟩
  | lit s => intro i _; exact ⟨_, 1, rfl⟩
  | ilit s => intro i _; exact ⟨_, 1, rfl⟩
  | eps => intro i _; exact ⟨_, 1, rfl⟩
  | eoi => intro i _; exact ⟨_, 1, rfl⟩
  | gap => intro i hi; exact hgap i hi
  | call r => intro i hi; exact hcall r a i (by simpa [Peg.guarded] using hg) hi
  | cat x y ihx ihy =>
    intro i hi
    simp only [Peg.Steady, Bool.and_eq_true] at hs
    simp only [Peg.guarded, Bool.and_eq_true, Bool.or_eq_true, Bool.not_eq_true'] at hg
    obtain ⟨p, hp⟩ := ihx hs.1 hg.1 i hi
    cases p with
    | none => exact ⟨_, hp.cat_left⟩
    | some p =>
      obtain ⟨ps, i1⟩ := p
      obtain ⟨t, rfl, ht⟩ := hp.derives
      have : ∃ q, Runs g a y i1 q := by
        by_cases h : t = []
        · subst h
          have hx := derives_nullable hn ht rfl
          refine ihy hs.2 ?_ i1 (by simpa using hi)
          rcases hg.2 with h | h
          · rw [hx] at h; cases h
          · exact h
        · refine hshort y hs.2 a i1 ?_
          have := List.length_pos_of_ne_nil h
          simp only [List.length_append] at hi
          omega
      obtain ⟨q, hq⟩ := this
      cases q with
      | none => exact ⟨_, hp.cat_right hq⟩
      | some q => exact ⟨_, hp.cat hq⟩
  | alt x y ihx ihy =>
    intro i hi
    simp only [Peg.Steady, Bool.and_eq_true] at hs
    simp only [Peg.guarded, Bool.and_eq_true] at hg
    obtain ⟨p, hp⟩ := ihx hs.1 hg.1 i hi
    cases p with
    | none =>
      obtain ⟨q, hq⟩ := ihy hs.2 hg.2 i hi
      exact ⟨_, hp.alt_right hq⟩
    | some p => exact ⟨_, hp.alt_left⟩
  | rep x ihx =>
    intro i hi
    have hs' := hs
    simp only [Peg.Steady, Bool.and_eq_true, Bool.not_eq_true'] at hs
    simp only [Peg.guarded] at hg
    obtain ⟨p, hp⟩ := ihx hs.1 hg i hi
    cases p with
    | none => exact ⟨_, hp.rep_stop⟩
    | some p =>
      obtain ⟨ps, i1⟩ := p
      obtain ⟨t, rfl, ht⟩ := hp.derives
      have hne : t ≠ [] := fun h => by
        have := derives_nullable hn ht h
        rw [hs.2] at this; cases this
      have := List.length_pos_of_ne_nil hne
      obtain ⟨q, hq⟩ := hshort (.rep x) hs' a i1 (by simp only [List.length_append] at hi; omega)
      cases q with
      | none =>
        obtain ⟨f, hq⟩ := hq
        exfalso
        clear hp ht hs' hs hi
        induction f generalizing i1 with
        | zero => simp [run] at hq
        | succ f ih =>
          rw [run] at hq
          split at hq
          · cases hq
          · cases hq
          · split at hq
            · cases hq
            · exact ih _ (by assumption)
            · cases hq
      | some q => exact ⟨_, hp.rep_step hq⟩
  | neg x ihx =>
    intro i hi
    simp only [Peg.Steady] at hs
    simp only [Peg.guarded] at hg
    obtain ⟨p, hp⟩ := ihx hs hg i hi
    cases p with
    | none => exact ⟨_, hp.neg⟩
    | some p => exact ⟨_, hp.neg_not⟩

/-- Every expression of a tidy grammar comes to an end on every input. -/
theorem runs_total {nul : R → Bool} {rank : R → Nat} {top : Nat} (ht : g.Tidy nul rank top) : ∀ (n : Nat) (e : Peg R), e.Steady nul = true →
    ∀ a (i : List Char), i.length ≤ n → ∃ p, Runs g a e i p := by
  intro n
  induction n with
  | zero =>
    have hshort : ∀ e : Peg R, e.Steady nul = true → ∀ a (i : List Char), i.length < 0 → ∃ p, Runs g a e i p := fun _ _ _ i h => absurd h (Nat.not_lt_zero _)
    exact total_at ht hshort
  | succ n ih => exact total_at ht (fun e hs a i hi => ih e hs a i (by omega))
where
  total_at {nul : R → Bool} {rank : R → Nat} {top : Nat} (ht : g.Tidy nul rank top) {n : Nat}
      (hshort : ∀ e : Peg R, e.Steady nul = true → ∀ a (i : List Char), i.length < n → ∃ p, Runs g a e i p) :
      ∀ (e : Peg R), e.Steady nul = true → ∀ a (i : List Char), i.length ≤ n → ∃ p, Runs g a e i p := by
    have hgap : ∀ a (i : List Char), i.length ≤ n → ∃ p, Runs g a .gap i p := by
      have key : ∀ i : List Char, i.length ≤ n → ∃ p, Runs g .atomic g.skip i p :=
        runs_expr ht.nullable (rank := rank) (k := 0) (n := n) (fun r a i h => absurd h (Nat.not_lt_zero _)) (fun i _ => ⟨_, .gap_off (by decide)⟩) hshort
          g.skip ht.skipSteady ht.skipGuarded
      intro a i hi
      by_cases ha : a = .nonAtomic
      · subst ha
        obtain ⟨p, hp⟩ := key i hi
        exact ⟨p, hp.gap⟩
      · exact ⟨_, .gap_off ha⟩
    have hcall : ∀ k, ∀ r a (i : List Char), rank r < k → i.length ≤ n → ∃ p, Runs g a (.call r) i p := by
      intro k
      induction k with
      | zero => intro r a i h; exact absurd h (Nat.not_lt_zero _)
      | succ k ih =>
        intro r a i h hi
        obtain ⟨p, hp⟩ := runs_expr ht.nullable (rank := rank) (k := rank r) (n := n) (fun r' a' i' h' => ih r' a' i' (by omega)) (hgap ((g.kind r).inside a)) hshort (g.body r) (ht.steady r) (ht.guarded r) i hi
        exact ⟨_, hp.call⟩
    intro e hs a i hi
    exact runs_expr ht.nullable (rank := rank) (k := top) (n := n) (hcall top) (hgap a) hshort e hs (Peg.guarded_top ht.below_top e) i hi

end Verif
