import Verif.Html.Types
/-!
# The schema built while rendering (`src/view_model.rs` 708-760)
-/
namespace Verif
open Json

/-- `str::split('/')` (trusted), on characters. -/
def splitSlash : List Char → List (List Char)
  | [] => [[]]
  | c :: cs =>
    if c = '/' then [] :: splitSlash cs
    else match splitSlash cs with
      | [] => [[c]]
      | w :: ws => (c :: w) :: ws

/-- `pointer.split('/').skip(1)`. -/
def tokens (pointer : String) : List String :=
  ((splitSlash pointer.toList).drop 1).map String.ofList

/-- `view_model.rs` 739-743: anything that is not an array is replaced by an empty one. -/
def asArray : Json → List Json
  | .arr l => l
  | _ => []

/-- `view_model.rs` 749-751: anything that is not an object is replaced by an empty one. -/
def asObject : Json → List (String × Json)
  | .obj o => o
  | _ => []

/-- `view_model.rs` 735-758: the walk of `define_value` along the tokens, creating what is missing.
`usize` is 64 bits wide. -/
def defineTokens : List String → Json → Json
  | [], v => v
  | t :: ts, v =>
    match parseU64 t with
    | some i =>
      let l := asArray v
      let l := l ++ List.replicate (i + 1 - l.length) .null
      .arr (l.modify i (defineTokens ts))
    | none =>
      let o := asObject v
      let o := if (get o t).isSome then o else Json.insert o t .null
      .obj (replace o t (defineTokens ts ((get o t).getD .null)))

/-- `view_model.rs` 732-760 `define_value`. -/
def define (v : Json) (pointer : String) : Json :=
  if pointer = "/this" then v else defineTokens (tokens pointer) v

end Verif
