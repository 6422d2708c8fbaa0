import Verif.Json
/-!
# Specification vocabulary for binding (C04-C09)

The *shape* of a template says what its expressions use of the bound value: a scalar, an array of
items of one shape, or an object with certain fields.  None of these definitions refers to the
algorithm of `bind_value`.
-/
namespace Verif
open Json

/-- What a template uses of a value. -/
inductive Shape where
  | leaf
  | arr (item : Shape)
  | obj (fields : List (String × Shape))

/-- A step of a path in a value: a field or an item. -/
inductive Tok where
  | key (k : String)
  | idx (i : Nat)
deriving DecidableEq

/-- Text of a step in a JSON pointer. -/
def Tok.str : Tok → String
  | .key k => k
  | .idx i => toString i

/-- JSON pointer text of a path: `/a/0/b`. -/
def ptr : List Tok → String
  | [] => ""
  | t :: ts => "/" ++ t.str ++ ptr ts

/-- null, booleans, numbers and strings. -/
def Scalar : Json → Prop
  | .null | .bool _ | .num _ | .str _ => True
  | _ => False

/-- A field of a value; a missing field is null. -/
def member : Json → String → Json
  | .obj l, k => (get l k).getD .null
  | _, _ => .null

/-- The items of a value; null stands for no items. -/
def items : Json → List Json
  | .arr l => l
  | _ => []

mutual
/-- A value fits a shape: what the template treats as a scalar is a scalar, what it repeats is an array
or null, what it reads fields of is an object or null. -/
def Fits : Shape → Json → Prop
  | .leaf, v => Scalar v
  | .arr s, v => v = .null ∨ ∃ l, v = .arr l ∧ ∀ x ∈ l, Fits s x
  | .obj fs, v => (v = .null ∨ ∃ l, v = .obj l) ∧ FitsFields fs v
def FitsFields : List (String × Shape) → Json → Prop
  | [], _ => True
  | (k, s) :: fs, v => Fits s (member v k) ∧ FitsFields fs v
end

mutual
/-- The part of a value a template of this shape can see: missing keys become null, extra keys are
dropped, null arrays become empty, null objects become objects of nulls. -/
def project : Shape → Json → Json
  | .leaf, v => v
  | .arr s, v => .arr ((items v).map (project s))
  | .obj fs, v => .obj (projectFields fs v)
def projectFields : List (String × Shape) → Json → List (String × Json)
  | [], _ => []
  | (k, s) :: fs, v => (k, project s (member v k)) :: projectFields fs v
end

mutual
/-- A bound model of this shape. -/
def HasShape : Shape → Json → Prop
  | .leaf, v => Scalar v
  | .arr s, v => ∃ l, v = .arr l ∧ ∀ x ∈ l, HasShape s x
  | .obj fs, v => ∃ l, v = .obj l ∧ HasFields fs l
def HasFields : List (String × Shape) → List (String × Json) → Prop
  | [], [] => True
  | (k, s) :: fs, (k', v) :: l => k = k' ∧ HasShape s v ∧ HasFields fs l
  | _, _ => False
end

/-- No slash in a key (the HTML grammar only has letters, digits, `-` and `_` in keys). -/
def SlashFree (s : String) : Prop := '/' ∉ s.toList

mutual
/-- Field names are distinct and contain no slash. -/
def Shape.Ok : Shape → Prop
  | .leaf => True
  | .arr s => s.Ok
  | .obj fs => (fs.map Prod.fst).Nodup ∧ Shape.OkFields fs
def Shape.OkFields : List (String × Shape) → Prop
  | [] => True
  | (k, s) :: fs => SlashFree k ∧ s.Ok ∧ Shape.OkFields fs
end

mutual
/-- No array whose items are themselves arrays. -/
def Shape.NoArrArr : Shape → Prop
  | .leaf => True
  | .arr (.arr _) => False
  | .arr s => s.NoArrArr
  | .obj fs => Shape.NoArrArrFields fs
def Shape.NoArrArrFields : List (String × Shape) → Prop
  | [] => True
  | (_, s) :: fs => s.NoArrArr ∧ Shape.NoArrArrFields fs
end

/-- Find the shape of a field. -/
def Shape.field (fs : List (String × Shape)) (k : String) : Option Shape :=
  (fs.find? (fun p => p.1 == k)).map Prod.snd

/-- The part of a value at a path, with its shape, as seen through the shape of the whole. -/
def Shape.read : Shape → Json → List Tok → Option (Shape × Json)
  | s, v, [] => some (s, v)
  | .arr s, v, .idx i :: ts => (items v)[i]?.bind fun x => s.read x ts
  | .obj fs, v, .key k :: ts => (Shape.field fs k).bind fun s => s.read (member v k) ts
  | _, _, _ => none

/-- "What a path denotes changed": for an array the number of items, otherwise the visible value. -/
def Differs (s : Shape) (before after : Json) : Prop :=
  match s with
  | .arr _ => (items before).length ≠ (items after).length
  | s => before ≠ project s after

end Verif

namespace Verif
open Json

/-- What a path denotes in the bound model before an update.  An item beyond the end of an array denotes
the blank item of that array (`blank`, keyed by the path without indexes): this is what a newly
appearing item is compared with. -/
def prior (blank : String → Option Json) : String → Json → List Tok → Option Json
  | _, v, [] => some v
  | ap, .arr l, .idx i :: ts =>
    match l[i]? with
    | some x => prior blank ap x ts
    | none => (blank ap).bind fun d => prior blank ap d ts
  | ap, .obj o, .key k :: ts => (get o k).bind fun x => prior blank (ap ++ "/" ++ k) x ts
  | _, _, _ => none

/-- What a notified binding receives: the scalar, the array, or for an object just whether it is there. -/
def payload : Shape → Json → Json
  | .leaf, v => v
  | .arr _, v => .arr (items v)
  | .obj _, v => if v = .null then .null else .obj []

mutual
/-- Two values agree on everything a template of this shape mentions. -/
def Agree : Shape → Json → Json → Prop
  | .leaf, v, w => v = w
  | .arr s, v, w => (items v).length = (items w).length ∧
      ∀ (i : Nat) a b, (items v)[i]? = some a → (items w)[i]? = some b → Agree s a b
  | .obj fs, v, w => (v = .null ↔ w = .null) ∧ AgreeFields fs v w
def AgreeFields : List (String × Shape) → Json → Json → Prop
  | [], _, _ => True
  | (k, s) :: fs, v, w => Agree s (member v k) (member w k) ∧ AgreeFields fs v w
end

end Verif
