import Verif.Json
/-!
# Evaluation of JSON values (`src/value.rs`)
-/
namespace Verif

/-- Nearest 53-bit float (ties to even) of a natural number: the conversion `u64 as f64` inside
`serde_json::Number::as_f64` (trusted IEEE semantics). -/
def roundF64 (n : Nat) : Nat :=
  if n < 2 ^ 53 then n
  else
    let u := 2 ^ (n.log2 - 52)
    let q := n / u
    let r := n % u
    (if 2 * r < u then q
     else if 2 * r > u then q + 1
     else if q % 2 = 0 then q else q + 1) * u

/-- `i64 as f64` / `u64 as f64`. -/
def roundInt (z : Int) : Int :=
  match z with
  | .ofNat n => Int.ofNat (roundF64 n)
  | .negSucc n => - Int.ofNat (roundF64 (n + 1))

/-- `serde_json::Number::as_f64` (never `None` without `arbitrary_precision`). -/
def Num.asF64 : Num → Rat
  | .int z => (roundInt z : Int)
  | .float q => q

/-- Rust `f64 as u64`: truncation toward zero, saturating (no NaN in a JSON number). -/
def f64AsU64 (q : Rat) : Nat :=
  if q ≤ 0 then 0 else min q.floor.toNat (2 ^ 64 - 1)

/-- Rust `str::parse::<u64>` (trusted): optional `+`, at least one digit, only digits, no overflow. -/
def parseU64 (s : String) : Option Nat :=
  let cs := match s.toList with
    | '+' :: t => t
    | l => l
  if cs = [] then none
  else if cs.all Char.isDigit then
    let n := Nat.ofDigitChars 10 cs 0
    if n < 2 ^ 64 then some n else none
  else none

/-- Formatting of a float (`serde_json::Number` `Display` for `f64`, the ryu crate).  Not modelled: any
function. -/
opaque fmtFloat : Rat → String

/-- `Number::to_string`. -/
def Num.toText : Num → String
  | .int z => toString z
  | .float q => fmtFloat q

namespace Json

/-- `value.rs` 54-63 `eval_string`. -/
def evalString : Json → String
  | null => ""
  | bool b => if b then "true" else "false"
  | num n => n.toText
  | str s => s
  | arr _ => "[array]"
  | obj _ => "{object}"

/-- `value.rs` 16-21 `eval_array`. -/
def evalArray : Json → List String
  | arr l => l.map evalString
  | v => [v.evalString]

/-- `value.rs` 23-40 `eval_u64`. -/
def evalU64 : Json → Nat
  | null => 0
  | bool b => if b then 1 else 0
  | num n => f64AsU64 n.asF64
  | str s => (parseU64 s).getD 0
  | arr _ => 0
  | obj _ => 0

/-- `value.rs` 43-45 `eval_usize` (64-bit target). -/
def evalUsize (v : Json) : Nat := v.evalU64

/-- `value.rs` 65-74 `eval_boolean`.  `string.len()` counts bytes; it is positive exactly for a
non-empty string. -/
def evalBoolean : Json → Bool
  | null => false
  | bool b => b
  | num n => decide (n.asF64 ≠ 0)
  | str s => decide (s.utf8ByteSize > 0)
  | arr l => decide (l.length > 0)
  | obj _ => true

end Json

/-! ### helper lemmas -/

theorem roundF64_small {n : Nat} (h : n ≤ 2 ^ 53) : roundF64 n = n := by
  unfold roundF64
  by_cases h' : n < 2 ^ 53
  · simp [h']
  · have : n = 2 ^ 53 := by omega
    subst this; decide

theorem roundF64_pos {n : Nat} (h : 0 < n) : 0 < roundF64 n := by
  unfold roundF64
  by_cases h' : n < 2 ^ 53
  · simp [h', h]
  · simp only [h', if_false]
    have hn : n ≠ 0 := by omega
    have hu : 0 < 2 ^ (n.log2 - 52) := Nat.pos_of_ne_zero (by simp)
    have hle : 2 ^ (n.log2 - 52) ≤ n :=
      Nat.le_trans (Nat.pow_le_pow_right (by omega) (Nat.sub_le _ _)) (Nat.log2_self_le hn)
    have hq : 0 < n / 2 ^ (n.log2 - 52) := Nat.div_pos hle hu
    apply Nat.mul_pos _ hu
    split
    · exact hq
    · split
      · omega
      · split <;> omega

theorem roundInt_eq_zero {z : Int} : roundInt z = 0 ↔ z = 0 := by
  cases z with
  | ofNat n =>
    simp only [roundInt]
    rcases Nat.eq_zero_or_pos n with rfl | h
    · simp [roundF64]
    · have := roundF64_pos h
      constructor
      · intro e; simp at e; omega
      · intro e; simp at e; omega
  | negSucc n =>
    have := roundF64_pos (Nat.succ_pos n)
    simp only [roundInt]
    constructor
    · intro e; have e' : Int.ofNat (roundF64 (n + 1)) = 0 := by omega
      simp at e'; simp [e'] at this
    · intro e; simp at e

theorem parseU64_repr (n : Nat) (h : n < 2 ^ 64) : parseU64 (toString n) = some n := by
  unfold parseU64
  have hl : (toString n).toList = Nat.toDigits 10 n := by
    show (Nat.repr n).toList = _
    exact Nat.toList_repr
  have hd : ∀ c ∈ Nat.toDigits 10 n, c.isDigit := fun c hc =>
    Nat.isDigit_of_mem_toDigits (by omega) (by omega) hc
  rw [hl]
  have hne : Nat.toDigits 10 n ≠ [] := Nat.toDigits_ne_nil
  have hplus : (match Nat.toDigits 10 n with | '+' :: t => t | l => l) = Nat.toDigits 10 n := by
    split
    · rename_i t e
      have := hd '+' (by rw [e]; simp)
      simp [Char.isDigit] at this
    · rfl
  simp only [hplus, hne, if_false]
  have : (Nat.toDigits 10 n).all Char.isDigit = true := List.all_eq_true.2 hd
  simp [this, Nat.ofDigitChars_ten_toDigits, h]

theorem parseU64_lt {s : String} {n : Nat} (h : parseU64 s = some n) : n < 2 ^ 64 := by
  unfold parseU64 at h
  simp only at h
  repeat' split at h
  all_goals simp at h
  all_goals omega

end Verif
