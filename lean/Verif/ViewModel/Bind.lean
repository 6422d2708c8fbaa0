import Verif.Value
/-!
# Binding of a value to the view model (`src/view_model.rs` 35-206)

`bind_value` mutates `dst` in place, returns whether something changed and pushes reactions on a list.
Here it returns the new `dst`, the flag, and the list of calls `Self::react(path, value, ..)` it makes
(`notes`) in order; `Verif/ViewModel/React.lean` turns every such call into the reactions it pushes.
A Rust panic (`next[index]` out of bounds, `array[0]` of an empty array) is `none`.
-/
namespace Verif
open Json

/-- `HashMap<String, Value>` of array defaults (`view_model.rs` 22); never iterated. -/
abbrev Defaults := String → Option Json

/-- `format!("{path}/{key}")`. -/
def sub (path key : String) : String := path ++ "/" ++ key

/-- `Vec::resize` (trusted). -/
def resize {α} (l : List α) (n : Nat) (d : α) : List α :=
  l.take n ++ List.replicate (n - l.length) d

mutual
/-- `view_model.rs` 52-69 `memorize_array_default`: the map after the call; `none` = panic at
`array[0]`. -/
def memorize (tp : String) : Json → Defaults → Option Defaults
  | .arr [], _ => none
  | .arr (d :: _), defs => memorize tp d (fun k => if k = tp then some d else defs k)
  | .obj l, defs => memorizeFields tp l defs
  | .null, defs => some defs
  | .bool _, defs => some defs
  | .num _, defs => some defs
  | .str _, defs => some defs
/-- `view_model.rs` 62-66: the loop over the fields of an object. -/
def memorizeFields (tp : String) : List (String × Json) → Defaults → Option Defaults
  | [], defs => some defs
  | (k, v) :: t, defs => (memorize (sub tp k) v defs).bind (memorizeFields tp t)
end

/-- Outcome of `bind_value`: the new destination, the returned flag and the calls of `react`. -/
structure Bound (α : Type) where
  dst : α
  changed : Bool
  notes : List (String × Json)

/-- `view_model.rs` 149-157 and 181: the source of a field, `null` when it is missing. -/
def look (src : Json) (k : String) : Json :=
  match src with
  | .obj s => (get s k).getD .null
  | _ => .null

theorem look_size (src : Json) (k : String) : sizeOf (look src k) ≤ sizeOf src := by
  cases src with
  | obj s =>
    simp only [look]
    cases h : get s k with
    | none => simp
    | some v => have := get_sizeOf h; simp; omega
  | _ => simp [look] <;> omega

/-- `view_model.rs` 99-107: resizing before the items are bound: flag, resized array, notes. -/
def resizeStep (defs : Defaults) (cur next : List Json) (path apath : String) :
    Bool × List Json × List (String × Json) :=
  if cur.length ≠ next.length then
    match defs apath with
    | some d => (true, resize cur next.length d, [(path, .arr next)])
    | none => (false, cur, [])
  else (false, cur, [])

mutual
/-- `view_model.rs` 86-206 `bind_value`. -/
def bindValue (defs : Defaults) (dst src : Json) (path apath : String) : Option (Bound Json) :=
  match dst, src with
  | .arr cur, .arr next =>                                   -- 97-124
    let r := resizeStep defs cur next path apath
    match bindElems defs r.2.1 next 0 path apath with
    | none => none
    | some b => some ⟨.arr b.dst, r.1 || b.changed, r.2.2 ++ b.notes⟩
  | .arr cur, .null =>                                       -- 125-139
    if cur.length ≠ 0 then some ⟨.arr [], true, [(path, .arr [])]⟩
    else some ⟨.arr cur, false, []⟩
  | .arr cur, _ => some ⟨.arr cur, false, []⟩                -- 140-143
  | .obj o, .obj s =>                                        -- 144-173
    match bindFields defs o (.obj s) path apath with
    | none => none
    | some b => some ⟨.obj b.dst, b.changed, b.notes ++ if b.changed then [(path, .obj [])] else []⟩
  | .obj o, .null =>                                         -- 174-195
    match bindFields defs o .null path apath with
    | none => none
    | some b => some ⟨.obj b.dst, b.changed, b.notes ++ if b.changed then [(path, .null)] else []⟩
  | dst, src =>                                              -- 196-204
    if dst ≠ src then some ⟨src, true, [(path, src)]⟩ else some ⟨dst, false, []⟩
termination_by (sizeOf src, sizeOf dst)
decreasing_by
  all_goals simp_wf
  · apply Prod.Lex.left; omega
  · apply Prod.Lex.right; omega
  · apply Prod.Lex.right; omega
/-- `view_model.rs` 108-122: the loop over the items; `next[index]` out of bounds is `none`. -/
def bindElems (defs : Defaults) (ds ss : List Json) (i : Nat) (path apath : String) :
    Option (Bound (List Json)) :=
  match ds, ss with
  | [], _ => some ⟨[], false, []⟩
  | _ :: _, [] => none
  | d :: ds, s :: ss =>
    match bindValue defs d s (sub path (toString i)) apath with
    | none => none
    | some b =>
      match bindElems defs ds ss (i + 1) path apath with
      | none => none
      | some r => some ⟨b.dst :: r.dst, b.changed || r.changed, b.notes ++ r.notes⟩
termination_by (sizeOf ss, sizeOf ds)
decreasing_by
  all_goals simp_wf
  · apply Prod.Lex.left; omega
  · apply Prod.Lex.left; omega
/-- `view_model.rs` 146-168 and 176-190: the loops over the fields of an object. -/
def bindFields (defs : Defaults) (o : List (String × Json)) (src : Json) (path apath : String) :
    Option (Bound (List (String × Json))) :=
  match o with
  | [] => some ⟨[], false, []⟩
  | (k, d) :: t =>
    match bindValue defs d (look src k) (sub path k) (sub apath k) with
    | none => none
    | some b =>
      match bindFields defs t src path apath with
      | none => none
      | some r => some ⟨(k, b.dst) :: r.dst, b.changed || r.changed, b.notes ++ r.notes⟩
termination_by (sizeOf src, sizeOf o)
decreasing_by
  all_goals simp_wf
  · rcases Nat.lt_or_eq_of_le (look_size src k) with h | h
    · exact Prod.Lex.left _ _ h
    · rw [h]; apply Prod.Lex.right; omega
  · apply Prod.Lex.right; omega
end

end Verif
