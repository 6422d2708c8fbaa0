import Verif.View.Schema
/-!
# `serde_json::Value::pointer` (third party, trusted reading), used in `src/view_model.rs` 463
-/
namespace Verif
open Json

/-- `str::replace("~d", "o")` on characters. -/
def replaceTilde (d o : Char) : List Char → List Char
  | [] => []
  | '~' :: c :: cs => if c = d then o :: replaceTilde d o cs else '~' :: replaceTilde d o (c :: cs)
  | c :: cs => c :: replaceTilde d o cs

/-- `token.replace("~1", "/").replace("~0", "~")`. -/
def unescape (t : String) : String := String.ofList (replaceTilde '0' '~' (replaceTilde '1' '/' t.toList))

/-- `serde_json::value::parse_index`; `usize` is 64 bits wide. -/
def parseIndex (t : String) : Option Nat :=
  if t.toList.head? = some '+' ∨ (t.toList.head? = some '0' ∧ t.toList.length ≠ 1) then none else parseU64 t

/-- One token of a pointer. -/
def Json.step : Json → String → Option Json
  | .obj o, t => get o t
  | .arr l, t => (parseIndex t).bind fun i => l[i]?
  | _, _ => none

/-- The tokens of a pointer. -/
def Json.steps : Json → List String → Option Json
  | v, [] => some v
  | v, t :: ts => (v.step t).bind fun x => x.steps ts

/-- `Value::pointer`. -/
def Json.pointer (v : Json) (p : String) : Option Json :=
  if p = "" then some v
  else if p.toList.head? = some '/' then v.steps ((tokens p).map unescape)
  else none

end Verif
