import Verif.ViewModel.Bind
import Verif.Spec.Shape
/-!
# Helper lemmas about `bindValue`
-/
namespace Verif
open Json

theorem look_eq_member (v : Json) (k : String) : look v k = member v k := by
  cases v <;> rfl

mutual
/-- Every array default exists and has the shape of the items. -/
def DefOk (defs : Defaults) : Shape → String → Prop
  | .leaf, _ => True
  | .arr s, ap => (∃ d, defs ap = some d ∧ HasShape s d) ∧ DefOk defs s ap
  | .obj fs, ap => DefOkFields defs fs ap
def DefOkFields (defs : Defaults) : List (String × Shape) → String → Prop
  | [], _ => True
  | (k, s) :: fs, ap => DefOk defs s (sub ap k) ∧ DefOkFields defs fs ap
end

/-- The model before the update at an existing or new item: a new item is the array default. -/
def padTo (defs : Defaults) (ap : String) (l : List Json) (n : Nat) : List Json :=
  if l.length ≠ n then resize l n ((defs ap).getD .null) else l

mutual
/-- The notifications of an update, by recursion on the shape. -/
def notesOf (defs : Defaults) : Shape → Json → Json → String → String → List (String × Json)
  | .leaf, dst, src, path, _ => if dst ≠ src then [(path, src)] else []
  | .arr s, dst, src, path, ap =>
    (if (items dst).length ≠ (items src).length then [(path, .arr (items src))] else []) ++
    (((padTo defs ap (items dst) (items src).length).zip (items src)).zipIdx).flatMap
      (fun p => notesOf defs s p.1.1 p.1.2 (sub path (toString p.2)) ap)
  | .obj fs, dst, src, path, ap =>
    notesFields defs fs dst src path ap ++
    (if dst ≠ project (.obj fs) src then [(path, if src = .null then .null else .obj [])] else [])
def notesFields (defs : Defaults) : List (String × Shape) → Json → Json → String → String →
    List (String × Json)
  | [], _, _, _, _ => []
  | (k, s) :: fs, dst, src, path, ap =>
    notesOf defs s (member dst k) (member src k) (sub path k) (sub ap k) ++
    notesFields defs fs dst src path ap
end

/-! ### unfolding lemmas -/

theorem bindValue_leaf (defs) (dst src : Json) (path ap) (hd : Scalar dst) :
    bindValue defs dst src path ap =
      some ⟨src, decide (dst ≠ src), if dst ≠ src then [(path, src)] else []⟩ := by
  cases dst <;> simp only [Scalar] at hd <;> unfold bindValue <;>
    (split <;> simp_all)

theorem hasFields_get {fs : List (String × Shape)} {l : List (String × Json)}
    (h : HasFields fs l) : l.map Prod.fst = fs.map Prod.fst := by
  induction fs generalizing l with
  | nil => cases l with
    | nil => rfl
    | cons _ _ => simp [HasFields] at h
  | cons p fs ih =>
    obtain ⟨k, s⟩ := p
    cases l with
    | nil => simp [HasFields] at h
    | cons q l =>
      obtain ⟨k', v⟩ := q
      simp only [HasFields] at h
      simp [h.1, ih h.2.2]

mutual
theorem project_hasShape (s : Shape) (v : Json) (h : Fits s v) : HasShape s (project s v) := by
  cases s with
  | leaf => simpa [HasShape, project, Fits] using h
  | arr s =>
    simp only [HasShape, project]
    refine ⟨_, rfl, ?_⟩
    intro x hx
    obtain ⟨y, hy, rfl⟩ := List.mem_map.1 hx
    apply project_hasShape
    simp only [Fits] at h
    rcases h with rfl | ⟨l, rfl, h⟩
    · simp [items] at hy
    · exact h y hy
  | obj fs =>
    simp only [HasShape, project]
    simp only [Fits] at h
    exact ⟨_, rfl, project_hasFields fs v h.2⟩
theorem project_hasFields (fs : List (String × Shape)) (v : Json) (h : FitsFields fs v) :
    HasFields fs (projectFields fs v) := by
  cases fs with
  | nil => simp [HasFields, projectFields]
  | cons p fs =>
    obtain ⟨k, s⟩ := p
    simp only [FitsFields] at h
    simp only [HasFields, projectFields]
    exact ⟨trivial, project_hasShape s _ h.1, project_hasFields fs v h.2⟩
end

theorem resize_length {α} (l : List α) (n : Nat) (d : α) : (resize l n d).length = n := by
  simp [resize]; omega

theorem resize_mem {α} {l : List α} {n : Nat} {d x : α} (h : x ∈ resize l n d) : x ∈ l ∨ x = d := by
  simp only [resize, List.mem_append, List.mem_replicate] at h
  rcases h with h | h
  · exact Or.inl (List.mem_of_mem_take h)
  · exact Or.inr h.2

theorem resize_getElem? {α} (l : List α) (n : Nat) (d : α) (i : Nat) (hi : i < n) :
    (resize l n d)[i]? = some (l[i]?.getD d) := by
  simp only [resize]
  by_cases h : i < l.length
  · rw [List.getElem?_append_left (by simp; omega)]
    simp [hi, h]
  · rw [List.getElem?_append_right (by simp; omega)]
    simp only [List.length_take]
    rw [List.getElem?_replicate_of_lt (by omega)]
    simp [h]

theorem padTo_length (defs ap) (l : List Json) (n : Nat) : (padTo defs ap l n).length = n := by
  unfold padTo; split
  · exact resize_length ..
  · rename_i h; simpa using h

theorem padTo_getElem? (defs ap) (l : List Json) (n i : Nat) (h : i < n) :
    (padTo defs ap l n)[i]? = some (l[i]?.getD ((defs ap).getD .null)) := by
  unfold padTo; split
  · exact resize_getElem? _ _ _ _ h
  · rename_i h'; simp at h'; subst h'; simp [h]

/-! ### the main refinement -/

theorem bindElems_spec (defs : Defaults) (s : Shape) (ds ss : List Json) (i : Nat) (path ap : String)
    (hs : ∀ x ∈ ds, HasShape s x) (hf : ∀ x ∈ ss, Fits s x) (hlen : ds.length = ss.length)
    (H : ∀ dst src path, HasShape s dst → Fits s src →
      bindValue defs dst src path ap =
      some ⟨project s src, decide (dst ≠ project s src), notesOf defs s dst src path ap⟩) :
    bindElems defs ds ss i path ap =
      some ⟨ss.map (project s), decide (ds ≠ ss.map (project s)),
        ((ds.zip ss).zipIdx i).flatMap
          (fun p => notesOf defs s p.1.1 p.1.2 (sub path (toString p.2)) ap)⟩ := by
  induction ss generalizing ds i with
  | nil =>
    cases ds with
    | nil => unfold bindElems; simp
    | cons _ _ => simp at hlen
  | cons x ss ih =>
    cases ds with
    | nil => simp at hlen
    | cons y ds =>
      unfold bindElems
      rw [H y x _ (hs y (by simp)) (hf x (by simp))]
      simp only []
      rw [ih ds (i + 1) (fun z hz => hs z (by simp [hz])) (fun z hz => hf z (by simp [hz]))
        (by simpa using hlen)]
      simp only [Option.some.injEq, Bound.mk.injEq, List.map_cons, true_and,
        List.zip_cons_cons, List.zipIdx_cons, List.flatMap_cons, and_true]
      by_cases h1 : y = project s x <;> by_cases h2 : ds = ss.map (project s) <;> simp [h1, h2]

mutual
theorem bindValue_spec (defs : Defaults) (s : Shape) (dst src : Json) (path ap : String)
    (hok : s.Ok) (hs : HasShape s dst) (hf : Fits s src) (hd : DefOk defs s ap) :
    bindValue defs dst src path ap =
      some ⟨project s src, decide (dst ≠ project s src), notesOf defs s dst src path ap⟩ := by
  cases s with
  | leaf =>
    simp only [HasShape] at hs
    rw [bindValue_leaf _ _ _ _ _ hs]; simp only [project, notesOf]; congr
  | arr s =>
    obtain ⟨l, rfl, hl⟩ := by simpa only [HasShape] using hs
    simp only [Fits] at hf
    simp only [DefOk] at hd
    obtain ⟨⟨d, hdd, hds⟩, hd'⟩ := hd
    rcases hf with rfl | ⟨next, rfl, hn⟩
    · unfold bindValue
      simp only [project, items, List.map_nil, notesOf, List.zip_nil_right, List.zipIdx_nil,
        List.flatMap_nil, List.append_nil, List.length_nil]
      cases l with
      | nil => simp
      | cons a t => simp
    · unfold bindValue
      simp only [project, items]
      have hpad : (resizeStep defs l next path ap).2.1 = padTo defs ap l next.length := by
        unfold resizeStep padTo; split <;> simp [hdd]
      have hb := bindElems_spec defs s (padTo defs ap l next.length) next 0 path ap
        (by
          intro x hx
          unfold padTo at hx; split at hx
          · rcases resize_mem hx with h | rfl
            · exact hl _ h
            · rw [hdd]; exact hds
          · exact hl _ hx) hn (padTo_length ..)
        (fun dst src path h1 h2 =>
          bindValue_spec defs s dst src path ap (by simpa [Shape.Ok] using hok) h1 h2 hd')
      rw [hpad, hb]
      simp only [Option.some.injEq, notesOf, items, Bound.mk.injEq, true_and]
      constructor
      · unfold resizeStep padTo
        by_cases hne : l.length = next.length
        · simp [hne]
        · simp only [ne_eq, hne, not_false_eq_true, if_true, hdd]
          have : Json.arr l ≠ Json.arr (next.map (project s)) := by
            intro e; injection e with e; rw [e] at hne; simp at hne
          simp [this]
      · congr 1
        unfold resizeStep; split <;> simp_all
  | obj fs =>
    obtain ⟨l, rfl, hl⟩ := by simpa only [HasShape] using hs
    simp only [Fits] at hf
    simp only [DefOk] at hd
    simp only [Shape.Ok] at hok
    have hb := bindFields_spec defs fs l src path ap (.obj l) hok.2 hl hf.2 hd hok.1
      (by
        intro k v hk
        simp only [member]
        rw [get_of_mem (by rw [hasFields_get hl]; exact hok.1) hk]; rfl)
    rcases hf.1 with rfl | ⟨sl, rfl⟩
    · unfold bindValue
      simp [hb, project, notesOf]
    · unfold bindValue
      simp [hb, project, notesOf]
theorem bindFields_spec (defs : Defaults) (fs : List (String × Shape)) (l : List (String × Json))
    (src : Json) (path ap : String) (whole : Json)
    (hok : Shape.OkFields fs) (hs : HasFields fs l) (hf : FitsFields fs src)
    (hd : DefOkFields defs fs ap) (hn : (fs.map Prod.fst).Nodup)
    (hw : ∀ k v, (k, v) ∈ l → member whole k = v) :
    bindFields defs l src path ap =
      some ⟨projectFields fs src, decide (l ≠ projectFields fs src),
        notesFields defs fs whole src path ap⟩ := by
  cases fs with
  | nil =>
    cases l with
    | nil => unfold bindFields; simp [projectFields, notesFields]
    | cons _ _ => simp [HasFields] at hs
  | cons p fs =>
    obtain ⟨k, s⟩ := p
    cases l with
    | nil => simp [HasFields] at hs
    | cons q l =>
      obtain ⟨k', v⟩ := q
      simp only [HasFields] at hs
      simp only [FitsFields] at hf
      simp only [DefOkFields] at hd
      simp only [Shape.OkFields] at hok
      obtain ⟨rfl, hsv, hsl⟩ := hs
      unfold bindFields
      rw [look_eq_member,
        bindValue_spec defs s v (member src k) _ _ hok.2.1 hsv hf.1 hd.1]
      simp only []
      rw [bindFields_spec defs fs l src path ap whole hok.2.2 hsl hf.2 hd.2
        (by simp at hn; exact hn.2) (fun k v h => hw k v (by simp [h]))]
      simp only [Option.some.injEq, Bound.mk.injEq, projectFields, notesFields, true_and]
      rw [hw k v (by simp)]
      refine ⟨?_, rfl⟩
      by_cases h1 : v = project s (member src k) <;> by_cases h2 : l = projectFields fs src <;>
        simp [h1, h2]
end

end Verif
