import Verif.ViewModel.React
/-!
# Evaluating `bindValue` on literals

`bindValue` is defined by well-founded recursion, which the kernel does not compute with.  `evalValue` is
the same function by recursion on a depth; `evalValue_sound` says that its answers are those of
`bindValue`.  It is used for concrete witnesses only.
-/
namespace Verif
open Json

mutual
/-- `bindValue` to a depth; outer `none` = depth exceeded. -/
def evalValue (defs : Defaults) : Nat → Json → Json → String → String → Option (Option (Bound Json))
  | 0, _, _, _, _ => none
  | n + 1, .arr cur, .arr next, path, apath =>
    let r := resizeStep defs cur next path apath
    (evalElems defs n r.2.1 next 0 path apath).map fun x =>
      match x with
      | none => none
      | some b => some ⟨.arr b.dst, r.1 || b.changed, r.2.2 ++ b.notes⟩
  | _ + 1, .arr cur, .null, path, _ =>
    some (if cur.length ≠ 0 then some ⟨.arr [], true, [(path, .arr [])]⟩
      else some ⟨.arr cur, false, []⟩)
  | _ + 1, .arr cur, _, _, _ => some (some ⟨.arr cur, false, []⟩)
  | n + 1, .obj o, .obj s, path, apath =>
    (evalFields defs n o (.obj s) path apath).map fun x =>
      match x with
      | none => none
      | some b => some ⟨.obj b.dst, b.changed, b.notes ++ if b.changed then [(path, .obj [])] else []⟩
  | n + 1, .obj o, .null, path, apath =>
    (evalFields defs n o .null path apath).map fun x =>
      match x with
      | none => none
      | some b => some ⟨.obj b.dst, b.changed, b.notes ++ if b.changed then [(path, .null)] else []⟩
  | _ + 1, dst, src, path, _ =>
    some (if dst ≠ src then some ⟨src, true, [(path, src)]⟩ else some ⟨dst, false, []⟩)
def evalElems (defs : Defaults) : Nat → List Json → List Json → Nat → String → String →
    Option (Option (Bound (List Json)))
  | 0, _, _, _, _, _ => none
  | _ + 1, [], _, _, _, _ => some (some ⟨[], false, []⟩)
  | _ + 1, _ :: _, [], _, _, _ => some none
  | n + 1, d :: ds, s :: ss, i, path, apath =>
    (evalValue defs n d s (sub path (toString i)) apath).bind fun x =>
      match x with
      | none => some none
      | some b =>
        (evalElems defs n ds ss (i + 1) path apath).map fun y =>
          match y with
          | none => none
          | some r => some ⟨b.dst :: r.dst, b.changed || r.changed, b.notes ++ r.notes⟩
def evalFields (defs : Defaults) : Nat → List (String × Json) → Json → String → String →
    Option (Option (Bound (List (String × Json))))
  | 0, _, _, _, _ => none
  | _ + 1, [], _, _, _ => some (some ⟨[], false, []⟩)
  | n + 1, (k, d) :: t, src, path, apath =>
    (evalValue defs n d (look src k) (sub path k) (sub apath k)).bind fun x =>
      match x with
      | none => some none
      | some b =>
        (evalFields defs n t src path apath).map fun y =>
          match y with
          | none => none
          | some r => some ⟨(k, b.dst) :: r.dst, b.changed || r.changed, b.notes ++ r.notes⟩
end

theorem eval_sound (defs : Defaults) (n : Nat) :
    (∀ dst src path apath r, evalValue defs n dst src path apath = some r →
      bindValue defs dst src path apath = r) ∧
    (∀ ds ss i path apath r, evalElems defs n ds ss i path apath = some r →
      bindElems defs ds ss i path apath = r) ∧
    (∀ o src path apath r, evalFields defs n o src path apath = some r →
      bindFields defs o src path apath = r) := by
  induction n with
  | zero => simp [evalValue, evalElems, evalFields]
  | succ n ih =>
    obtain ⟨h1, h2, h3⟩ := ih
    refine ⟨?_, ?_, ?_⟩
    · intro dst src path apath r h
      cases dst with
      | arr cur =>
        cases src with
        | arr next =>
          simp only [evalValue, Option.map_eq_some_iff] at h
          obtain ⟨x, hx, rfl⟩ := h
          rw [bindValue]; rw [h2 _ _ _ _ _ _ hx]; cases x <;> rfl
        | null =>
          simp only [evalValue, Option.some.injEq] at h
          rw [bindValue]; exact h
        | _ => simp only [evalValue, Option.some.injEq] at h; subst h; simp [bindValue]
      | obj o =>
        cases src with
        | obj s =>
          simp only [evalValue, Option.map_eq_some_iff] at h
          obtain ⟨x, hx, rfl⟩ := h
          rw [bindValue]; rw [h3 _ _ _ _ _ hx]; cases x <;> rfl
        | null =>
          simp only [evalValue, Option.map_eq_some_iff] at h
          obtain ⟨x, hx, rfl⟩ := h
          rw [bindValue]; rw [h3 _ _ _ _ _ hx]; cases x <;> rfl
        | _ =>
          simp only [evalValue, Option.some.injEq] at h
          rw [bindValue]
          · exact h
          all_goals simp
      | _ =>
        simp only [evalValue, Option.some.injEq] at h
        rw [bindValue]
        · exact h
        all_goals simp
    · intro ds ss i path apath r h
      cases ds with
      | nil => simp only [evalElems, Option.some.injEq] at h; subst h; rw [bindElems]
      | cons d ds =>
        cases ss with
        | nil => simp only [evalElems, Option.some.injEq] at h; subst h; rw [bindElems]
        | cons s ss =>
          simp only [evalElems, Option.bind_eq_some_iff] at h
          obtain ⟨x, hx, h⟩ := h
          rw [bindElems, h1 _ _ _ _ _ hx]
          cases x with
          | none => simpa using h
          | some b =>
            simp only [Option.map_eq_some_iff] at h
            obtain ⟨y, hy, rfl⟩ := h
            simp only [h2 _ _ _ _ _ _ hy]; cases y <;> rfl
    · intro o src path apath r h
      cases o with
      | nil => simp only [evalFields, Option.some.injEq] at h; subst h; rw [bindFields]
      | cons kd t =>
        obtain ⟨k, d⟩ := kd
        simp only [evalFields, Option.bind_eq_some_iff] at h
        obtain ⟨x, hx, h⟩ := h
        rw [bindFields, h1 _ _ _ _ _ hx]
        cases x with
        | none => simpa using h
        | some b =>
          simp only [Option.map_eq_some_iff] at h
          obtain ⟨y, hy, rfl⟩ := h
          simp only [h3 _ _ _ _ _ hy]; cases y <;> rfl

theorem evalValue_sound {defs : Defaults} {n : Nat} {dst src : Json} {path apath : String}
    {r : Option (Bound Json)} (h : evalValue defs n dst src path apath = some r) :
    bindValue defs dst src path apath = r := (eval_sound defs n).1 _ _ _ _ _ h

end Verif
