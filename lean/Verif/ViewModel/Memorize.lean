import Verif.ViewModel.BindPaths
import Verif.ViewModel.React
/-!
# Helper lemmas: the array defaults memorised at creation
-/
namespace Verif
open Json

mutual
theorem memorize_frame (base : List Tok) (v : Json) (defs defs' : Defaults)
    (h : memorize (ptr base) v defs = some defs') (key : String)
    (hk : ∀ p, key ≠ ptr (base ++ p)) : defs' key = defs key := by
  cases v with
  | arr l =>
    cases l with
    | nil => simp [memorize] at h
    | cons d l =>
      simp only [memorize] at h
      rw [memorize_frame base d _ defs' h key hk]
      have := hk []
      simp only [List.append_nil] at this
      simp [this]
  | obj l =>
    simp only [memorize] at h
    exact memorizeFields_frame base l defs defs' h key (fun k _ p => hk _)
  | _ => simp only [memorize, Option.some.injEq] at h; rw [h]
theorem memorizeFields_frame (base : List Tok) (l : List (String × Json)) (defs defs' : Defaults)
    (h : memorizeFields (ptr base) l defs = some defs') (key : String)
    (hk : ∀ k ∈ l.map Prod.fst, ∀ p, key ≠ ptr (base ++ .key k :: p)) : defs' key = defs key := by
  cases l with
  | nil => simp only [memorizeFields, Option.some.injEq] at h; rw [h]
  | cons q l =>
    obtain ⟨k, v⟩ := q
    simp only [memorizeFields, Option.bind_eq_some_iff] at h
    obtain ⟨d1, h1, h2⟩ := h
    have e : sub (ptr base) k = ptr (base ++ [.key k]) := sub_ptr base (.key k)
    rw [e] at h1
    rw [memorizeFields_frame base l d1 defs' h2 key (fun k' hk' p => hk k' (by simp at hk' ⊢; right; exact hk') p),
      memorize_frame (base ++ [.key k]) v defs d1 h1 key
        (fun p => by simpa using hk k (by simp) p)]
end

mutual
theorem DefOk_congr (d1 d2 : Defaults) (s : Shape) (base : List Tok)
    (h : ∀ p, d1 (ptr (base ++ p)) = d2 (ptr (base ++ p))) (hd : DefOk d1 s (ptr base)) :
    DefOk d2 s (ptr base) := by
  cases s with
  | leaf => simp [DefOk]
  | arr s =>
    simp only [DefOk] at hd ⊢
    have := h []
    simp only [List.append_nil] at this
    rw [← this]
    exact ⟨hd.1, DefOk_congr d1 d2 s base h hd.2⟩
  | obj fs =>
    simp only [DefOk] at hd ⊢
    exact DefOkFields_congr d1 d2 fs base (fun k _ p => h _) hd
theorem DefOkFields_congr (d1 d2 : Defaults) (fs : List (String × Shape)) (base : List Tok)
    (h : ∀ k ∈ fs.map Prod.fst, ∀ p, d1 (ptr (base ++ .key k :: p)) = d2 (ptr (base ++ .key k :: p)))
    (hd : DefOkFields d1 fs (ptr base)) : DefOkFields d2 fs (ptr base) := by
  cases fs with
  | nil => simp [DefOkFields]
  | cons q fs =>
    obtain ⟨k, s⟩ := q
    simp only [DefOkFields] at hd ⊢
    have e : sub (ptr base) k = ptr (base ++ [.key k]) := sub_ptr base (.key k)
    rw [e] at hd ⊢
    exact ⟨DefOk_congr d1 d2 s _ (fun p => by simpa using h k (by simp) p) hd.1,
      DefOkFields_congr d1 d2 fs base
        (fun k' hk' p => h k' (by simp at hk' ⊢; right; exact hk') p) hd.2⟩
end

mutual
theorem memorize_defOk (s : Shape) (v : Json) (base : List Tok) (defs defs' : Defaults)
    (hok : s.Ok) (hno : s.NoArrArr) (hs : HasShape s v)
    (h : memorize (ptr base) v defs = some defs') : DefOk defs' s (ptr base) := by
  cases s with
  | leaf => simp [DefOk]
  | arr s =>
    obtain ⟨l, rfl, hl⟩ := by simpa only [HasShape] using hs
    cases l with
    | nil => simp [memorize] at h
    | cons d l =>
      simp only [memorize] at h
      have hd := hl d (by simp)
      have hok' : s.Ok := by simpa [Shape.Ok] using hok
      have hno' : s.NoArrArr := by
        cases s <;> simp_all [Shape.NoArrArr]
      refine ⟨⟨d, ?_, hd⟩, memorize_defOk s d base _ defs' hok' hno' hd h⟩
      -- the item is a scalar or an object: its own defaults are below this path
      cases s with
      | leaf =>
        simp only [HasShape] at hd
        cases d <;> simp only [Scalar] at hd <;>
          (simp only [memorize, Option.some.injEq] at h; rw [← h]; simp)
      | arr s => simp [Shape.NoArrArr] at hno
      | obj fs =>
        obtain ⟨o, rfl, ho⟩ := by simpa only [HasShape] using hd
        simp only [memorize] at h
        rw [memorizeFields_frame base o _ defs' h (ptr base) (fun k _ p => ptr_ne_below base _ _)]
        simp
  | obj fs =>
    obtain ⟨l, rfl, hl⟩ := by simpa only [HasShape] using hs
    simp only [memorize] at h
    simp only [Shape.Ok] at hok
    simp only [Shape.NoArrArr] at hno
    simp only [DefOk]
    exact memorizeFields_defOk fs l base defs defs' hok.1 hok.2 hno hl h
theorem memorizeFields_defOk (fs : List (String × Shape)) (l : List (String × Json)) (base : List Tok)
    (defs defs' : Defaults) (hn : (fs.map Prod.fst).Nodup)
    (hok : Shape.OkFields fs) (hno : Shape.NoArrArrFields fs) (hs : HasFields fs l)
    (h : memorizeFields (ptr base) l defs = some defs') : DefOkFields defs' fs (ptr base) := by
  cases fs with
  | nil => simp [DefOkFields]
  | cons q fs =>
    obtain ⟨k, s⟩ := q
    cases l with
    | nil => simp [HasFields] at hs
    | cons r l =>
      obtain ⟨k', v⟩ := r
      simp only [HasFields] at hs
      obtain ⟨rfl, hsv, hsl⟩ := hs
      simp only [Shape.OkFields] at hok
      simp only [Shape.NoArrArrFields] at hno
      simp only [List.map_cons, List.nodup_cons] at hn
      simp only [memorizeFields, Option.bind_eq_some_iff] at h
      obtain ⟨d1, h1, h2⟩ := h
      have e : sub (ptr base) k = ptr (base ++ [.key k]) := sub_ptr base (.key k)
      rw [e] at h1
      simp only [DefOkFields]
      rw [e]
      refine ⟨?_, memorizeFields_defOk fs l base d1 defs' hn.2 hok.2.2 hno.2 hsl h2⟩
      have hd := memorize_defOk s v (base ++ [.key k]) defs d1 hok.2.1 hno.1 hsv h1
      refine DefOk_congr d1 defs' s _ (fun p => ?_) hd
      refine (memorizeFields_frame base l d1 defs' h2 _ ?_).symm
      intro k' hk' p' heq
      rw [hasFields_get hsl] at hk'
      have : SlashFree k' := by
        obtain ⟨⟨_, s'⟩, hm, rfl⟩ := List.mem_map.1 hk'
        exact okFields_mem hok.2.2 hm
      have := ptr_step_inj (base := base) (t := .key k) (t' := .key k') (p := p) (p' := p')
        hok.1 this (by simpa using heq)
      simp only [Tok.str] at this
      rw [this.1] at hn
      exact hn.1 hk'
end

/-! ### idempotence, for arbitrary values -/

mutual
/-- Objects have distinct keys: true of every `serde_json::Value`. -/
def WfJson : Json → Prop
  | .arr l => WfList l
  | .obj l => (l.map Prod.fst).Nodup ∧ WfFields l
  | .null => True
  | .bool _ => True
  | .num _ => True
  | .str _ => True
def WfList : List Json → Prop
  | [] => True
  | v :: t => WfJson v ∧ WfList t
def WfFields : List (String × Json) → Prop
  | [] => True
  | (_, v) :: t => WfJson v ∧ WfFields t
end

theorem wfFields_mem {l : List (String × Json)} (h : WfFields l) {k v} (hm : (k, v) ∈ l) : WfJson v := by
  induction l with
  | nil => simp at hm
  | cons p t ih =>
    obtain ⟨k', v'⟩ := p
    simp only [WfFields] at h
    rcases List.mem_cons.1 hm with e | hm
    · injection e with _ e; subst e; exact h.1
    · exact ih h.2 hm

theorem wf_look {v : Json} (h : WfJson v) (k : String) : WfJson (look v k) := by
  cases v with
  | obj l =>
    simp only [look]
    cases hg : get l k with
    | none => simp [WfJson]
    | some x => simp only [WfJson] at h; simpa using wfFields_mem h.2 (get_mem hg)
  | _ => simp [look, WfJson]

mutual
theorem bind_self (defs : Defaults) (v : Json) (path ap : String) (h : WfJson v) :
    bindValue defs v v path ap = some ⟨v, false, []⟩ := by
  cases v with
  | arr l =>
    unfold bindValue
    simp only [WfJson] at h
    simp [resizeStep, bindElems_self defs l 0 path ap h]
  | obj l =>
    unfold bindValue
    simp only [WfJson] at h
    have := bindFields_self defs l (.obj l) path ap h.2
      (by intro k v hk; simp [look, get_of_mem h.1 hk])
    simp [this]
  | _ => unfold bindValue; simp
theorem bindElems_self (defs : Defaults) (l : List Json) (i : Nat) (path ap : String) (h : WfList l) :
    bindElems defs l l i path ap = some ⟨l, false, []⟩ := by
  cases l with
  | nil => unfold bindElems; rfl
  | cons v l =>
    simp only [WfList] at h
    unfold bindElems
    simp [bind_self defs v _ ap h.1, bindElems_self defs l (i + 1) path ap h.2]
theorem bindFields_self (defs : Defaults) (l : List (String × Json)) (whole : Json) (path ap : String)
    (h : WfFields l) (hw : ∀ k v, (k, v) ∈ l → look whole k = v) :
    bindFields defs l whole path ap = some ⟨l, false, []⟩ := by
  cases l with
  | nil => unfold bindFields; rfl
  | cons p l =>
    obtain ⟨k, v⟩ := p
    simp only [WfFields] at h
    unfold bindFields
    rw [hw k v (by simp), bind_self defs v _ _ h.1]
    simp [bindFields_self defs l whole path ap h.2 (fun k v hk => hw k v (by simp [hk]))]
end

end Verif
