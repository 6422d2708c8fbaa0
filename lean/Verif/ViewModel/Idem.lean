import Verif.ViewModel.Memorize
/-!
# Helper lemmas: binding the same value twice
-/
namespace Verif
open Json

theorem bindElems_length (defs : Defaults) (ds ss : List Json) (i : Nat) (path ap : String)
    (b : Bound (List Json)) (h : bindElems defs ds ss i path ap = some b) :
    b.dst.length = ds.length := by
  induction ds generalizing ss i b with
  | nil => unfold bindElems at h; simp at h; subst h; rfl
  | cons d ds ih =>
    cases ss with
    | nil => unfold bindElems at h; simp at h
    | cons s ss =>
      unfold bindElems at h
      cases h1 : bindValue defs d s (sub path (toString i)) ap with
      | none => simp only [h1] at h; simp at h
      | some r =>
        cases h2 : bindElems defs ds ss (i + 1) path ap with
        | none => simp only [h1, h2] at h; simp at h
        | some t =>
          simp only [h1, h2, Option.some.injEq] at h
          subst h
          simp [ih _ _ _ h2]

mutual
theorem bind_idem (defs : Defaults) (dst src : Json) (path ap : String) (b : Bound Json)
    (hw : WfJson src) (h : bindValue defs dst src path ap = some b) :
    bindValue defs b.dst src path ap = some ⟨b.dst, false, []⟩ := by
  cases dst with
  | arr cur =>
    cases src with
    | arr next =>
      unfold bindValue at h
      simp only [] at h
      simp only [WfJson] at hw
      cases he : bindElems defs (resizeStep defs cur next path ap).2.1 next 0 path ap with
      | none => simp [he] at h
      | some r =>
        simp only [he, Option.some.injEq] at h
        subst h
        have ih := bindElems_idem defs _ next 0 path ap r hw he
        have hlen := bindElems_length defs _ next 0 path ap r he
        unfold bindValue
        have : resizeStep defs r.dst next path ap = (false, r.dst, []) := by
          unfold resizeStep
          unfold resizeStep at hlen
          by_cases hn : cur.length = next.length
          · simp only [hn, ne_eq, not_true_eq_false, if_false] at hlen
            simp [hlen]
          · simp only [hn, ne_eq, not_false_eq_true, if_true] at hlen
            cases hd : defs ap with
            | none => simp
            | some d =>
              simp only [hd, resize_length] at hlen
              simp [hlen]
        simp [this, ih]
    | null =>
      unfold bindValue at h
      split at h
      · simp only [Option.some.injEq] at h; subst h; unfold bindValue; simp
      · rename_i hc
        simp only [Option.some.injEq] at h; subst h; unfold bindValue; simp_all
    | bool _ => unfold bindValue at h; simp at h; subst h; unfold bindValue; simp
    | num _ => unfold bindValue at h; simp at h; subst h; unfold bindValue; simp
    | str _ => unfold bindValue at h; simp at h; subst h; unfold bindValue; simp
    | obj _ => unfold bindValue at h; simp at h; subst h; unfold bindValue; simp
  | obj o =>
    cases src with
    | obj s =>
      unfold bindValue at h
      cases he : bindFields defs o (.obj s) path ap with
      | none => simp [he] at h
      | some r =>
        simp only [he, Option.some.injEq] at h
        subst h
        have ih := bindFields_idem defs o (.obj s) path ap r hw he
        unfold bindValue
        simp [ih]
    | null =>
      unfold bindValue at h
      cases he : bindFields defs o .null path ap with
      | none => simp [he] at h
      | some r =>
        simp only [he, Option.some.injEq] at h
        subst h
        have ih := bindFields_idem defs o .null path ap r hw he
        unfold bindValue
        simp [ih]
    | bool _ => unfold bindValue at h; simp at h; subst h; unfold bindValue; simp
    | num _ => unfold bindValue at h; simp at h; subst h; unfold bindValue; simp
    | str _ => unfold bindValue at h; simp at h; subst h; unfold bindValue; simp
    | arr l => unfold bindValue at h; simp at h; subst h; exact bind_self _ _ _ _ hw
  | null =>
    rw [bindValue_leaf _ _ _ _ _ (by simp [Scalar])] at h
    simp only [Option.some.injEq] at h; subst h; exact bind_self _ _ _ _ hw
  | bool _ =>
    rw [bindValue_leaf _ _ _ _ _ (by simp [Scalar])] at h
    simp only [Option.some.injEq] at h; subst h; exact bind_self _ _ _ _ hw
  | num _ =>
    rw [bindValue_leaf _ _ _ _ _ (by simp [Scalar])] at h
    simp only [Option.some.injEq] at h; subst h; exact bind_self _ _ _ _ hw
  | str _ =>
    rw [bindValue_leaf _ _ _ _ _ (by simp [Scalar])] at h
    simp only [Option.some.injEq] at h; subst h; exact bind_self _ _ _ _ hw
termination_by (sizeOf src, sizeOf dst)
decreasing_by
  all_goals subst_vars; simp_wf
  · apply Prod.Lex.left; omega
  · apply Prod.Lex.right; omega
  · apply Prod.Lex.right; omega
theorem bindElems_idem (defs : Defaults) (ds ss : List Json) (i : Nat) (path ap : String)
    (b : Bound (List Json)) (hw : WfList ss) (h : bindElems defs ds ss i path ap = some b) :
    bindElems defs b.dst ss i path ap = some ⟨b.dst, false, []⟩ := by
  cases ds with
  | nil => unfold bindElems at h; simp at h; subst h; unfold bindElems; simp
  | cons d ds =>
    cases ss with
    | nil => unfold bindElems at h; simp at h
    | cons s ss =>
      simp only [WfList] at hw
      unfold bindElems at h
      cases h1 : bindValue defs d s (sub path (toString i)) ap with
      | none => simp only [h1] at h; simp at h
      | some r =>
        cases h2 : bindElems defs ds ss (i + 1) path ap with
        | none => simp only [h1, h2] at h; simp at h
        | some t =>
          simp only [h1, h2, Option.some.injEq] at h
          subst h
          have i1 := bind_idem defs d s _ ap r hw.1 h1
          have i2 := bindElems_idem defs ds ss (i + 1) path ap t hw.2 h2
          unfold bindElems
          simp only [i1, i2]; simp
termination_by (sizeOf ss, sizeOf ds)
decreasing_by
  all_goals subst_vars; simp_wf
  · apply Prod.Lex.left; omega
  · apply Prod.Lex.left; omega
theorem bindFields_idem (defs : Defaults) (o : List (String × Json)) (src : Json) (path ap : String)
    (b : Bound (List (String × Json))) (hw : WfJson src)
    (h : bindFields defs o src path ap = some b) :
    bindFields defs b.dst src path ap = some ⟨b.dst, false, []⟩ := by
  match o, h with
  | [], h => unfold bindFields at h; simp at h; subst h; unfold bindFields; simp
  | (k, d) :: o, h =>
    unfold bindFields at h
    cases h1 : bindValue defs d (look src k) (sub path k) (sub ap k) with
    | none => simp only [h1] at h; simp at h
    | some r =>
      cases h2 : bindFields defs o src path ap with
      | none => simp only [h1, h2] at h; simp at h
      | some t =>
        simp only [h1, h2, Option.some.injEq] at h
        subst h
        have i1 := bind_idem defs d (look src k) _ _ r (wf_look hw k) h1
        have i2 := bindFields_idem defs o src path ap t hw h2
        unfold bindFields
        simp [i1, i2]
termination_by (sizeOf src, sizeOf o)
decreasing_by
  all_goals subst_vars; simp_wf
  · rcases Nat.lt_or_eq_of_le (look_size _ k) with h | h
    · exact Prod.Lex.left _ _ h
    · rw [h]; apply Prod.Lex.right; omega
  · apply Prod.Lex.right; omega
end

end Verif
