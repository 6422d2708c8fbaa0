/-!
# JSON values

Models `serde_json::Value` (third party, trusted reading).  `serde_json` is used without the
`preserve_order` and `arbitrary_precision` features, so an object is a `BTreeMap`: here a list of
pairs, which the rest of the model iterates in list order.  A number is an integer (`u64`/`i64`) or a
finite `f64`; `f64` values are idealised as rationals.
-/
namespace Verif

/-- `serde_json::Number` (trusted).  `int 1` and `float 1` are different numbers, as in serde_json,
whose equality compares the internal variants. -/
inductive Num where
  | int (z : Int)
  | float (q : Rat)
deriving DecidableEq, Repr

/-- `serde_json::Value` (trusted). -/
inductive Json where
  | null
  | bool (b : Bool)
  | num (n : Num)
  | str (s : String)
  | arr (l : List Json)
  | obj (l : List (String × Json))
deriving Repr

namespace Json

mutual
/-- Equality of `serde_json::Value` (derived `PartialEq`, structural). -/
def decEq : (a b : Json) → Decidable (a = b)
  | null, null => isTrue rfl
  | bool a, bool b => if h : a = b then isTrue (by rw [h]) else isFalse (by simpa using h)
  | num a, num b => if h : a = b then isTrue (by rw [h]) else isFalse (by simpa using h)
  | str a, str b => if h : a = b then isTrue (by rw [h]) else isFalse (by simpa using h)
  | arr a, arr b =>
    match decEqL a b with
    | isTrue h => isTrue (by rw [h])
    | isFalse h => isFalse (by simpa using h)
  | obj a, obj b =>
    match decEqO a b with
    | isTrue h => isTrue (by rw [h])
    | isFalse h => isFalse (by simpa using h)
  | null, bool _ => isFalse (by simp) | null, num _ => isFalse (by simp)
  | null, str _ => isFalse (by simp) | null, arr _ => isFalse (by simp)
  | null, obj _ => isFalse (by simp)
  | bool _, null => isFalse (by simp) | bool _, num _ => isFalse (by simp)
  | bool _, str _ => isFalse (by simp) | bool _, arr _ => isFalse (by simp)
  | bool _, obj _ => isFalse (by simp)
  | num _, null => isFalse (by simp) | num _, bool _ => isFalse (by simp)
  | num _, str _ => isFalse (by simp) | num _, arr _ => isFalse (by simp)
  | num _, obj _ => isFalse (by simp)
  | str _, null => isFalse (by simp) | str _, bool _ => isFalse (by simp)
  | str _, num _ => isFalse (by simp) | str _, arr _ => isFalse (by simp)
  | str _, obj _ => isFalse (by simp)
  | arr _, null => isFalse (by simp) | arr _, bool _ => isFalse (by simp)
  | arr _, num _ => isFalse (by simp) | arr _, str _ => isFalse (by simp)
  | arr _, obj _ => isFalse (by simp)
  | obj _, null => isFalse (by simp) | obj _, bool _ => isFalse (by simp)
  | obj _, num _ => isFalse (by simp) | obj _, str _ => isFalse (by simp)
  | obj _, arr _ => isFalse (by simp)
def decEqL : (a b : List Json) → Decidable (a = b)
  | [], [] => isTrue rfl
  | a :: as, b :: bs =>
    match decEq a b, decEqL as bs with
    | isTrue h, isTrue h' => isTrue (by rw [h, h'])
    | isFalse h, _ => isFalse (by intro e; injection e; contradiction)
    | _, isFalse h => isFalse (by intro e; injection e; contradiction)
  | [], _ :: _ => isFalse (by simp)
  | _ :: _, [] => isFalse (by simp)
def decEqO : (a b : List (String × Json)) → Decidable (a = b)
  | [], [] => isTrue rfl
  | (k, a) :: as, (k', b) :: bs =>
    if hk : k = k' then
      match decEq a b, decEqO as bs with
      | isTrue h, isTrue h' => isTrue (by rw [hk, h, h'])
      | isFalse h, _ => isFalse (by intro e; simp at e; exact h e.1.2)
      | _, isFalse h => isFalse (by intro e; simp at e; exact h e.2)
    else isFalse (by intro e; simp at e; exact hk e.1.1)
  | [], _ :: _ => isFalse (by simp)
  | _ :: _, [] => isFalse (by simp)
end

instance : DecidableEq Json := decEq
instance : Inhabited Json := ⟨null⟩

/-- `serde_json::Map::get` (trusted). -/
def get (l : List (String × Json)) (k : String) : Option Json :=
  (l.find? (fun p => p.1 == k)).map Prod.snd

/-- Insert a new key at its place in the sorted order (`BTreeMap`, trusted). -/
def place (l : List (String × Json)) (k : String) (v : Json) : List (String × Json) :=
  match l with
  | [] => [(k, v)]
  | (k', v') :: t => if k < k' then (k, v) :: (k', v') :: t else (k', v') :: place t k v

/-- Replace the value of a key. -/
def replace (l : List (String × Json)) (k : String) (v : Json) : List (String × Json) :=
  match l with
  | [] => []
  | (k', v') :: t => if k' = k then (k', v) :: t else (k', v') :: replace t k v

/-- `serde_json::Map::insert` (trusted): replaces the value of a present key, otherwise inserts the key
at its place in the sorted order. -/
def insert (l : List (String × Json)) (k : String) (v : Json) : List (String × Json) :=
  if (get l k).isSome then replace l k v else place l k v

theorem get_nil (k : String) : get [] k = none := rfl
theorem get_cons (k k' : String) (v : Json) (l) :
    get ((k', v) :: l) k = if k' = k then some v else get l k := by
  unfold get; simp only [List.find?_cons]
  by_cases h : k' = k
  · simp [h]
  · have : (k' == k) = false := by simpa using h
    simp [h, this]

theorem get_sizeOf {l : List (String × Json)} {k v} (h : get l k = some v) :
    sizeOf v < sizeOf l := by
  induction l with
  | nil => simp [get_nil] at h
  | cons p t ih =>
    obtain ⟨k', v'⟩ := p
    rw [get_cons] at h
    split at h
    · simp at h; subst h; simp; omega
    · have := ih h; simp; omega

theorem get_mem {l : List (String × Json)} {k v} (h : get l k = some v) : (k, v) ∈ l := by
  induction l with
  | nil => simp [get_nil] at h
  | cons p t ih =>
    obtain ⟨k', v'⟩ := p
    rw [get_cons] at h
    split at h
    · simp at h; subst h; subst_vars; simp
    · simp [ih h]

theorem get_eq_none {l : List (String × Json)} {k} : get l k = none ↔ k ∉ l.map Prod.fst := by
  induction l with
  | nil => simp [get_nil]
  | cons p t ih =>
    obtain ⟨k', v'⟩ := p
    rw [get_cons]
    by_cases h : k' = k
    · simp [h]
    · have h' : ¬ k = k' := fun e => h e.symm
      simp only [h, if_false, ih]; simp [h']

theorem get_of_mem {l : List (String × Json)} {k v} (hn : (l.map Prod.fst).Nodup) (h : (k, v) ∈ l) :
    get l k = some v := by
  induction l with
  | nil => simp at h
  | cons p t ih =>
    obtain ⟨k', v'⟩ := p
    rw [get_cons]
    simp only [List.map_cons, List.nodup_cons] at hn
    rcases List.mem_cons.1 h with h | h
    · simp at h; simp [h]
    · have : k' ≠ k := by
        rintro rfl; exact hn.1 (List.mem_map.2 ⟨_, h, rfl⟩)
      simp [this, ih hn.2 h]

theorem get_place (l : List (String × Json)) (k v) (k' : String) (hk : get l k = none) :
    get (place l k v) k' = if k = k' then some v else get l k' := by
  induction l with
  | nil => simp [place, get_cons, get_nil]
  | cons p t ih =>
    obtain ⟨k₀, v₀⟩ := p
    rw [get_cons] at hk
    split at hk
    · simp at hk
    · rename_i ne
      unfold place
      split
      · simp only [get_cons]
      · simp only [get_cons, ih hk]
        by_cases h : k₀ = k'
        · subst h; simp [Ne.symm ne]
        · simp [h]

theorem get_replace (l : List (String × Json)) (k v) (k' : String) (hk : (get l k).isSome) :
    get (replace l k v) k' = if k = k' then some v else get l k' := by
  induction l with
  | nil => simp [get_nil] at hk
  | cons p t ih =>
    obtain ⟨k₀, v₀⟩ := p
    unfold replace
    split
    · rename_i e; subst e; simp only [get_cons]; split <;> rfl
    · rename_i ne
      rw [get_cons, if_neg ne] at hk
      simp only [get_cons, ih hk]
      by_cases h : k₀ = k'
      · subst h; simp [Ne.symm ne]
      · simp [h]

theorem get_insert (l : List (String × Json)) (k v) (k' : String) :
    get (insert l k v) k' = if k = k' then some v else get l k' := by
  unfold insert
  split
  · rename_i h; exact get_replace l k v k' h
  · rename_i h; exact get_place l k v k' (by simpa using h)

theorem replace_keys (l : List (String × Json)) (k v) :
    (replace l k v).map Prod.fst = l.map Prod.fst := by
  induction l with
  | nil => rfl
  | cons p t ih => unfold replace; split <;> simp_all

theorem mem_keys_place (l : List (String × Json)) (k v) (x : String) :
    x ∈ (place l k v).map Prod.fst ↔ x = k ∨ x ∈ l.map Prod.fst := by
  induction l with
  | nil => simp [place]
  | cons p t ih =>
    unfold place; split
    · simp
    · simp only [List.map_cons, List.mem_cons, ih]
      constructor
      · rintro (h | h | h) <;> simp [h]
      · rintro (h | h | h) <;> simp [h]

theorem place_nodup (l : List (String × Json)) (k v) (hn : (l.map Prod.fst).Nodup)
    (hk : k ∉ l.map Prod.fst) : ((place l k v).map Prod.fst).Nodup := by
  induction l with
  | nil => simp [place]
  | cons p t ih =>
    obtain ⟨k₀, v₀⟩ := p
    simp only [List.map_cons, List.nodup_cons, List.mem_cons, not_or] at hn hk
    unfold place; split
    · simp only [List.map_cons, List.nodup_cons, List.mem_cons, not_or]
      exact ⟨hk, hn⟩
    · simp only [List.map_cons, List.nodup_cons]
      refine ⟨?_, ih hn.2 hk.2⟩
      rw [mem_keys_place]
      rintro (h | h)
      · exact hk.1 h.symm
      · exact hn.1 h

theorem insert_nodup (l : List (String × Json)) (k v) (hn : (l.map Prod.fst).Nodup) :
    ((insert l k v).map Prod.fst).Nodup := by
  unfold insert
  split
  · rw [replace_keys]; exact hn
  · rename_i h
    exact place_nodup l k v hn (get_eq_none.1 (by simpa using h))

theorem mem_keys_insert (l : List (String × Json)) (k v) (x : String) :
    x ∈ (insert l k v).map Prod.fst ↔ x = k ∨ x ∈ l.map Prod.fst := by
  unfold insert
  split
  · rename_i h
    rw [replace_keys]
    constructor
    · exact Or.inr
    · rintro (rfl | h')
      · apply Classical.byContradiction
        intro hc; rw [get_eq_none.2 hc] at h; simp at h
      · exact h'
  · exact mem_keys_place l k v x

end Json
end Verif
