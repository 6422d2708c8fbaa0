import Verif.Value
import Std.Data.String.ToInt
/-!
# C01, C02, C03: evaluation of bound values
-/
namespace Verif
open Json

/-! ## C01 -/

/-- C01: a value counts as false exactly when it is null, false, a number equal to 0, the empty string or
the empty array; every other value, including every object, counts as true. -/
theorem C01_truthiness (v : Json) :
    v.evalBoolean = false ↔
      v = null ∨ v = bool false ∨ v = num (.int 0) ∨ v = num (.float 0) ∨ v = str "" ∨ v = arr [] := by
  cases v with
  | null => simp [evalBoolean]
  | bool b => simp [evalBoolean]
  | num n =>
    cases n with
    | int z =>
      have : ((roundInt z : Int) : Rat) = 0 ↔ roundInt z = 0 := by
        rw [← Rat.intCast_zero, Rat.intCast_inj]
      simp [evalBoolean, Num.asF64, this, roundInt_eq_zero]
    | float q => by_cases h : q = 0 <;> simp [evalBoolean, Num.asF64, h]
  | str s => simp [evalBoolean]
  | arr l => simp [evalBoolean]
  | obj l => simp [evalBoolean]

theorem C01_objects_true (fields) : (obj fields).evalBoolean = true := rfl

example : (num (.int 3)).evalBoolean = true ∧ (arr []).evalBoolean = false := by decide

/-! ## C02 -/

/-- C02: the result is always a `u64`. -/
theorem C02_range (v : Json) : v.evalU64 < 2 ^ 64 := by
  cases v with
  | null => simp [evalU64]
  | bool b => cases b <;> simp [evalU64]
  | num n => simp only [evalU64, f64AsU64]; split <;> omega
  | str s =>
    simp only [evalU64]
    cases h : parseU64 s with
    | none => simp
    | some n => simpa using parseU64_lt h
  | arr l => simp [evalU64]
  | obj l => simp [evalU64]

/-- C02: integers up to 2^53 are returned as they are. -/
theorem C02_int_exact (n : Nat) (h : n ≤ 2 ^ 53) : (num (.int n)).evalU64 = n := by
  have h1 : roundInt (n : Int) = (n : Int) := by
    show Int.ofNat (roundF64 n) = _
    rw [roundF64_small h]; rfl
  simp only [evalU64, Num.asF64, h1, f64AsU64]
  by_cases h0 : n = 0
  · subst h0; simp
  · have hpos : ¬ (((n : Int) : Rat) ≤ 0) := by
      rw [← Rat.intCast_zero, Rat.intCast_le_intCast]; omega
    simp only [hpos, if_false, Rat.floor_intCast, Int.toNat_natCast]
    omega

/-- C02: a decimal string of a `u64` is read as that number. -/
theorem C02_decimal_string (n : Nat) (h : n < 2 ^ 64) : (str (toString n)).evalU64 = n := by
  rw [evalU64, parseU64_repr n h]; rfl

/-- C02: negative numbers, null, arrays, objects and unparsable strings give 0. -/
theorem C02_zero :
    null.evalU64 = 0 ∧ (∀ l, (arr l).evalU64 = 0) ∧ (∀ l, (obj l).evalU64 = 0) ∧
    (∀ z : Int, z ≤ 0 → (num (.int z)).evalU64 = 0) ∧
    (∀ q : Rat, q ≤ 0 → (num (.float q)).evalU64 = 0) ∧
    (∀ s : String, (∃ c ∈ s.toList, c ≠ '+' ∧ c.isDigit = false) → (str s).evalU64 = 0) := by
  refine ⟨rfl, fun _ => rfl, fun _ => rfl, ?_, ?_, ?_⟩
  · intro z hz
    have : ((roundInt z : Int) : Rat) ≤ 0 := by
      rw [← Rat.intCast_zero, Rat.intCast_le_intCast]
      cases z with
      | ofNat n => have : n = 0 := by simp at hz; omega
                   subst this; decide
      | negSucc n => simp only [roundInt, Int.ofNat_eq_natCast]; omega
    simp [evalU64, Num.asF64, f64AsU64, this]
  · intro q hq; simp [evalU64, Num.asF64, f64AsU64, hq]
  · rintro s ⟨c, hc, hp, hd⟩
    have : parseU64 s = none := by
      have key : ∀ l : List Char, c ∈ l → l.all Char.isDigit = false := by
        intro l hl
        rw [List.all_eq_false]; exact ⟨c, hl, by simp [hd]⟩
      unfold parseU64
      split
      · rename_i t e
        rw [e] at hc
        rcases List.mem_cons.1 hc with h | h
        · exact absurd h hp
        · simp [key t h]
      · simp [key _ hc]
    simp [evalU64, this]

/-- C02: `eval_usize` agrees with `eval_u64`. -/
theorem C02_usize (v : Json) : v.evalUsize = v.evalU64 := rfl

/-- Finding for C02: the bound 2^53 is sharp, an integer above it may change. -/
theorem C02_bound_sharp : (num (.int (2 ^ 53 + 1))).evalU64 ≠ 2 ^ 53 + 1 := by
  have h1 : roundInt (2 ^ 53 + 1) = 2 ^ 53 := by decide
  simp only [evalU64, Num.asF64, h1, f64AsU64]
  have : ¬ (((2 ^ 53 : Int) : Rat) ≤ 0) := by
    rw [← Rat.intCast_zero, Rat.intCast_le_intCast]; decide
  simp only [this, if_false, Rat.floor_intCast]
  decide

example : (str "42").evalU64 = 42 := C02_decimal_string 42 (by decide)
example : (num (.int 42)).evalU64 = 42 := C02_int_exact 42 (by decide)

/-! ## C03 -/

/-- C03: the text of a value. -/
theorem C03_text :
    null.evalString = "" ∧ (bool true).evalString = "true" ∧ (bool false).evalString = "false" ∧
    (∀ z : Int, (num (.int z)).evalString = toString z) ∧ (∀ s, (str s).evalString = s) ∧
    (∀ l, (arr l).evalString = "[array]") ∧ (∀ l, (obj l).evalString = "{object}") :=
  ⟨rfl, rfl, rfl, fun _ => rfl, fun _ => rfl, fun _ => rfl, fun _ => rfl⟩

/-- C03: reading the text of a non-negative integer back as a number gives the integer: nothing is lost
between the displayed text and the value. -/
theorem C03_text_roundtrip (n : Nat) (h : n < 2 ^ 64) :
    (str ((num (.int n)).evalString)).evalU64 = n := by
  have : (num (.int n)).evalString = toString n := rfl
  rw [this]; exact C02_decimal_string n h

/-- C03: different strings or integers show different texts. -/
theorem C03_text_injective :
    (∀ a b : Int, (num (.int a)).evalString = (num (.int b)).evalString → a = b) ∧
    (∀ a b : String, (str a).evalString = (str b).evalString → a = b) := by
  refine ⟨fun a b h => ?_, fun a b h => h⟩
  exact Int.repr_injective h

/-- C03: `eval_array` yields one string per element, in order, and a singleton otherwise. -/
theorem C03_array (l : List Json) :
    (arr l).evalArray.length = l.length ∧
    (∀ i (h : i < l.length), (arr l).evalArray[i]? = some (l[i].evalString)) ∧
    (∀ v : Json, (∀ l, v ≠ arr l) → v.evalArray = [v.evalString]) := by
  refine ⟨by simp [evalArray], ?_, ?_⟩
  · intro i h; simp [evalArray, h]
  · intro v h; cases v with
    | arr l => exact absurd rfl (h l)
    | _ => rfl

example : (arr [num (.int (-5)), null, str "x"]).evalArray = ["-5", "", "x"] := by decide

end Verif
