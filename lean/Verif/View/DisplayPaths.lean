import Verif.View.CellKinds
import Verif.View.Resolve
import Verif.Spec.Display
/-!
# Expressions of a template denote what their paths read (lemmas for C65)
-/
namespace Verif
open Json

theorem read_append {s : Shape} {w : Json} {a b : List Tok} {sh : Shape} {v : Json}
    (h : s.read w a = some (sh, v)) : s.read w (a ++ b) = sh.read v b := by
  induction a generalizing s w with
  | nil =>
    have hr' : s = sh ∧ w = v := by cases s <;> simpa [Shape.read] using h
    obtain ⟨rfl, rfl⟩ := hr'
    rfl
  | cons t a ih =>
    cases s with
    | leaf => cases t <;> simp [Shape.read] at h
    | arr s =>
      cases t with
      | key k => simp [Shape.read] at h
      | idx i =>
        simp only [Shape.read, List.cons_append] at h ⊢
        obtain ⟨x, h1, h2⟩ := Option.bind_eq_some_iff.1 h
        rw [h1, Option.bind_some]
        exact ih h2
    | obj fs =>
      cases t with
      | idx i => simp [Shape.read] at h
      | key k =>
        simp only [Shape.read, List.cons_append] at h ⊢
        obtain ⟨x, h1, h2⟩ := Option.bind_eq_some_iff.1 h
        rw [h1, Option.bind_some]
        exact ih h2

theorem read_shape {s : Shape} {v w : Json} {p : List Tok} {a b : Shape} {x y : Json}
    (h1 : s.read v p = some (a, x)) (h2 : s.read w p = some (b, y)) : a = b := by
  induction p generalizing s v w with
  | nil =>
    have e1 : s = a ∧ v = x := by cases s <;> simpa [Shape.read] using h1
    have e2 : s = b ∧ w = y := by cases s <;> simpa [Shape.read] using h2
    exact e1.1.symm.trans e2.1
  | cons t p ih =>
    cases s with
    | leaf => cases t <;> simp [Shape.read] at h1
    | arr s =>
      cases t with
      | key k => simp [Shape.read] at h1
      | idx i =>
        simp only [Shape.read] at h1 h2
        obtain ⟨_, -, h1⟩ := Option.bind_eq_some_iff.1 h1
        obtain ⟨_, -, h2⟩ := Option.bind_eq_some_iff.1 h2
        exact ih h1 h2
    | obj fs =>
      cases t with
      | idx i => simp [Shape.read] at h1
      | key k =>
        simp only [Shape.read] at h1 h2
        obtain ⟨s1, e1, h1⟩ := Option.bind_eq_some_iff.1 h1
        obtain ⟨s2, e2, h2⟩ := Option.bind_eq_some_iff.1 h2
        rw [e1] at e2; injection e2 with e2; subst e2
        exact ih h1 h2

theorem hasFields_field {fs : List (String × Shape)} {o : List (String × Json)} (h : HasFields fs o) {k : String} {y : Json}
    (hg : get o k = some y) : ∃ s, Shape.field fs k = some s ∧ HasShape s y := by
  induction fs generalizing o with
  | nil => cases o <;> simp [HasFields, Json.get] at h hg
  | cons a fs ih =>
    obtain ⟨k', s⟩ := a
    cases o with
    | nil => simp [HasFields] at h
    | cons c o =>
      obtain ⟨k2, v⟩ := c
      simp only [HasFields] at h
      obtain ⟨rfl, h1, h2⟩ := h
      by_cases hk : k' = k
      · subst hk
        simp only [Json.get, List.find?_cons, BEq.rfl, Option.map_some, Option.some.injEq] at hg
        subst hg
        exact ⟨s, by simp [Shape.field], h1⟩
      · simp only [Json.get, List.find?_cons, show (k' == k) = false by simpa using hk] at hg
        obtain ⟨s', e1, e2⟩ := ih h2 hg
        refine ⟨s', ?_, e2⟩
        simp only [Shape.field, List.find?_cons]
        rw [show (k' == k) = false by simpa using hk]
        exact e1

theorem strict_append (a b : List String) (v : Json) : strict (a ++ b) v = (strict a v).bind (strict b) := by
  induction a generalizing v with
  | nil => rfl
  | cons t a ih =>
    simp only [List.cons_append, strict]
    split
    · rw [Option.bind_assoc]; congr 1; funext x; exact ih x
    · rw [Option.bind_assoc]; congr 1; funext x; exact ih x

theorem toString_inj {i j : Nat} (h : toString i = toString j) : i = j := Nat.repr_injective h

/-- The shape at a path fits what the schema has there. -/
theorem shape_of_strict {s : Shape} {schema w y : Json} {p : List Tok} {sh : Shape} {v : Json} (hs : HasShape s schema)
    (hp : ∀ t ∈ p.map Tok.str, PlainKey t) (hy : strict (p.map Tok.str) schema = some y) (hr : s.read w p = some (sh, v)) : HasShape sh y := by
  induction p generalizing s schema w with
  | nil =>
    have e : s = sh ∧ w = v := by cases s <;> simpa [Shape.read] using hr
    simp only [List.map_nil, strict, Option.some.injEq] at hy
    rw [← e.1, ← hy]; exact hs
  | cons t p ih =>
    have hp' : ∀ t ∈ p.map Tok.str, PlainKey t := fun t ht => hp t (by simp only [List.map_cons, List.mem_cons]; exact .inr ht)
    have ht := hp t.str (by simp)
    simp only [List.map_cons, strict] at hy
    cases s with
    | leaf => cases t <;> simp [Shape.read] at hr
    | arr s =>
      cases t with
      | key k => simp [Shape.read] at hr
      | idx i =>
        simp only [Shape.read] at hr
        obtain ⟨x, -, hr⟩ := Option.bind_eq_some_iff.1 hr
        simp only [HasShape] at hs
        obtain ⟨l, rfl, hl⟩ := hs
        simp only [Tok.str] at hy ht
        cases hu : parseU64 (toString i) with
        | none => rw [hu] at hy; simp at hy
        | some j =>
          rw [hu] at hy
          simp only at hy
          obtain ⟨z, hz, hy⟩ := Option.bind_eq_some_iff.1 hy
          exact ih (hl z (List.mem_of_getElem? hz)) hp' hy hr
    | obj fs =>
      cases t with
      | idx i => simp [Shape.read] at hr
      | key k =>
        simp only [Shape.read] at hr
        obtain ⟨s', hf, hr⟩ := Option.bind_eq_some_iff.1 hr
        simp only [HasShape] at hs
        obtain ⟨o, rfl, ho⟩ := hs
        simp only [Tok.str] at hy ht
        cases hu : parseU64 k with
        | some j => rw [hu] at hy; simp at hy
        | none =>
          rw [hu] at hy
          simp only at hy
          obtain ⟨z, hz, hy⟩ := Option.bind_eq_some_iff.1 hy
          obtain ⟨s2, e1, e2⟩ := hasFields_field ho hz
          rw [hf] at e1; injection e1 with e1; subst e1
          exact ih e2 hp' hy hr

/-- Following names. -/
def walk (v : Option Json) (names : List String) : Option Json := names.foldl (fun v k => v.bind (part · k)) v

theorem walk_none (names : List String) : walk none names = none := by
  induction names with
  | nil => rfl
  | cons k names ih => exact ih

/-- What names lead to in a value is what a path reads there, if the names lead somewhere in the schema. -/
theorem read_of_walk {s : Shape} {schema w x : Json} {names : List String} (hs : HasShape s schema)
    (hp : ∀ t ∈ names, PlainKey t) (hy : (strict names schema).isSome) (hw : walk (some w) names = some x) :
    ∃ p sh, p.map Tok.str = names ∧ (∀ t ∈ p, t.SlashFree) ∧ s.read w p = some (sh, x) := by
  induction names generalizing s schema w with
  | nil =>
    simp only [walk, List.foldl_nil, Option.some.injEq] at hw
    exact ⟨[], s, rfl, by simp, by rw [hw]; cases s <;> rfl⟩
  | cons t names ih =>
    obtain ⟨h1, h2⟩ := hp t (by simp)
    have hp' : ∀ t ∈ names, PlainKey t := fun t ht => hp t (by simp [ht])
    have hw' : walk (part w t) names = some x := hw
    unfold part at hw'
    by_cases hsl : '/' ∈ t.toList
    · rw [if_pos hsl, walk_none] at hw'; simp at hw'
    rw [if_neg hsl] at hw'
    simp only [strict] at hy
    cases hu : parseU64 t with
    | some i =>
      rw [hu] at hw' hy
      simp only at hw' hy
      cases schema with
      | arr l =>
        simp only at hy
        obtain ⟨z, hz, hy⟩ := Option.bind_eq_some_iff.1 (Option.isSome_iff_exists.1 hy).choose_spec
        cases s with
        | leaf => simp [HasShape, Scalar] at hs
        | obj fs => simp [HasShape] at hs
        | arr s =>
          simp only [HasShape] at hs
          obtain ⟨l', e, hl⟩ := hs
          injection e with e; subst e
          cases hi : (items w)[i]? with
          | none => rw [hi, walk_none] at hw'; simp at hw'
          | some y =>
            rw [hi] at hw'
            obtain ⟨p, sh, p1, p2, p3⟩ := ih (hl z (List.mem_of_getElem? hz)) hp' (by rw [hy]; rfl) hw'
            refine ⟨.idx i :: p, sh, ?_, ?_, ?_⟩
            · simp only [List.map_cons, Tok.str, p1, ← h2 i hu]
            · intro t' ht'
              rcases List.mem_cons.1 ht' with rfl | ht'
              · unfold Tok.SlashFree Verif.SlashFree; simp only [Tok.str, ← h2 i hu]; exact hsl
              · exact p2 t' ht'
            · simp only [Shape.read, hi, Option.bind_some, p3]
      | _ => simp at hy
    | none =>
      rw [hu] at hw' hy
      simp only at hw' hy
      cases schema with
      | obj o =>
        simp only at hy
        obtain ⟨z, hz, hy⟩ := Option.bind_eq_some_iff.1 (Option.isSome_iff_exists.1 hy).choose_spec
        cases s with
        | leaf => simp [HasShape, Scalar] at hs
        | arr s => simp [HasShape] at hs
        | obj fs =>
          simp only [HasShape] at hs
          obtain ⟨o', e, ho⟩ := hs
          injection e with e; subst e
          obtain ⟨s', e1, e2⟩ := hasFields_field ho hz
          obtain ⟨p, sh, p1, p2, p3⟩ := ih e2 hp' (by rw [hy]; rfl) hw'
          refine ⟨.key t :: p, sh, ?_, ?_, ?_⟩
          · simp only [List.map_cons, Tok.str, p1]
          · intro t' ht'
            rcases List.mem_cons.1 ht' with rfl | ht'
            · exact hsl
            · exact p2 t' ht'
          · simp only [Shape.read, e1, Option.bind_some, p3]
      | _ => simp at hy

/-- A path text leads to a value of `w`. -/
def Leads (s : Shape) (w : Json) (path : String) (sh : Shape) (v : Json) : Prop :=
  ∃ p, path = ptr p ∧ (∀ t ∈ p, t.SlashFree) ∧ s.read w p = some (sh, v)

/-- The scope of paths and the scope of values have the same names, and the paths lead to the values. -/
def ScopeRel (s : Shape) (w : Json) (ρ : SMap String) (η : SMap Json) : Prop :=
  ∀ x, match ρ x with
    | none => η x = none
    | some path => ∃ sh v, η x = some v ∧ Leads s w path sh v

/-- Paths that lead somewhere in the schema. -/
structure Mentioned (schema : Json) (path : String) : Prop where
  plain : ∀ t ∈ tokens path, PlainKey t
  there : (strict (tokens path) schema).isSome

theorem foldl_ptr (names : List String) (a : String) :
    names.foldl (fun p k => p ++ "/" ++ k) a = a ++ String.join (names.map ("/" ++ ·)) := by
  induction names generalizing a with
  | nil => simp
  | cons k names ih => rw [List.foldl_cons, ih]; simp [String.append_assoc]

theorem ptr_names (p : List Tok) : ptr p = String.join ((p.map Tok.str).map ("/" ++ ·)) := by
  induction p with
  | nil => rfl
  | cons t p ih => simp [ptr, ih, String.append_assoc]

/-- More names after a path. -/
theorem leads_more {s : Shape} {schema w : Json} {path : String} {sh : Shape} {v x : Json} {names : List String}
    (hs : HasShape s schema) (hl : Leads s w path sh v) (hm : Mentioned schema (names.foldl (fun p k => p ++ "/" ++ k) path))
    (hfree : ∀ k ∈ names, '/' ∉ k.toList) (hw : walk (some v) names = some x) :
    ∃ sh', Leads s w (names.foldl (fun p k => p ++ "/" ++ k) path) sh' x := by
  obtain ⟨p, rfl, hp, hr⟩ := hl
  have hpath : names.foldl (fun p k => p ++ "/" ++ k) (ptr p) = ptr (p ++ names.map Tok.key) := by
    rw [foldl_ptr, ptr_append, ptr_names (names.map Tok.key)]
    congr 2
    simp [Tok.str, Function.comp_def]
  have htok : tokens (ptr (p ++ names.map Tok.key)) = p.map Tok.str ++ names := by
    rw [tokens_ptr]
    · simp [Tok.str, Function.comp_def]
    · intro t ht
      rcases List.mem_append.1 ht with ht | ht
      · exact hp t ht
      · obtain ⟨k, hk, rfl⟩ := List.mem_map.1 ht
        exact hfree k hk
  rw [hpath] at hm ⊢
  obtain ⟨h1, h2⟩ := hm
  rw [htok] at h1 h2
  rw [strict_append] at h2
  obtain ⟨z, hz⟩ := Option.isSome_iff_exists.1 h2
  obtain ⟨y, hy, hz⟩ := Option.bind_eq_some_iff.1 hz
  have hsh := shape_of_strict hs (fun t ht => h1 t (by simp [ht])) hy hr
  obtain ⟨q, sh', q1, q2, q3⟩ := read_of_walk hsh (fun t ht => h1 t (by simp [ht])) (by rw [hz]; rfl) hw
  refine ⟨sh', p ++ q, ?_, ?_, ?_⟩
  · rw [ptr_append, ptr_append, ptr_names (names.map Tok.key), ptr_names q, q1]
    simp [Tok.str, Function.comp_def]
  · intro t ht
    rcases List.mem_append.1 ht with ht | ht
    · exact hp t ht
    · exact q2 t ht
  · rw [read_append hr, q3]

theorem walk_free {names : List String} {v : Option Json} {x : Json} (h : walk v names = some x) : ∀ k ∈ names, '/' ∉ k.toList := by
  induction names generalizing v with
  | nil => simp
  | cons k names ih =>
    intro k' hk'
    have h' : walk (v.bind (part · k)) names = some x := h
    rcases List.mem_cons.1 hk' with rfl | hk'
    · intro hsl
      cases v with
      | none => rw [Option.bind_none, walk_none] at h'; simp at h'
      | some v => rw [Option.bind_some, part, if_pos hsl, walk_none] at h'; simp at h'
    · exact ih h' k' hk'

/-- An expression has the value its path leads to. -/
theorem leads_value {s : Shape} {schema w : Json} {ρ : SMap String} {η : SMap Json} {b : Binder} {x : Json}
    (hs : HasShape s schema) (hρ : ScopeRel s w ρ η) (hm : Mentioned schema (b.denotes ρ)) (hv : b.value w η = some x) :
    ∃ sh, Leads s w (b.denotes ρ) sh x := by
  have hh := hρ b.head
  unfold Binder.denotes at hm ⊢
  unfold Binder.value at hv
  cases hb : ρ b.head with
  | some path =>
    simp only [hb] at hh hm ⊢
    obtain ⟨sh, v, h1, h2⟩ := hh
    simp only [h1] at hv
    exact leads_more hs h2 hm (walk_free hv) hv
  | none =>
    simp only [hb] at hh hm ⊢
    simp only [hh] at hv
    have hv' : walk (some w) (b.head :: b.tail) = some x := hv
    have hp : (b.head :: b.tail).foldl (fun p k => p ++ "/" ++ k) "" = b.tail.foldl (fun p k => p ++ "/" ++ k) ("/" ++ b.head) := by
      rw [List.foldl_cons]; simp
    rw [← hp] at hm ⊢
    refine leads_more (sh := s) (v := w) hs ⟨[], rfl, by simp, by cases s <;> rfl⟩ hm (walk_free hv') hv'

/-- What is mentioned by number is an array. -/
theorem leads_array {s : Shape} {schema w : Json} {path : String} {sh : Shape} {v : Json} {count : Nat} (hc : 0 < count)
    (hs : HasShape s schema) (hl : Leads s w path sh v) (hm : ∀ k < count, Mentioned schema (path ++ "/" ++ toString k)) :
    ∃ item L, sh = .arr item ∧ strict (tokens path) schema = some (.arr L) ∧ count ≤ L.length ∧
      ∀ k x, k < count → (items v)[k]? = some x → Leads s w (path ++ "/" ++ toString k) item x := by
  obtain ⟨p, rfl, hp, hr⟩ := hl
  have hpath : ∀ k, ptr p ++ "/" ++ toString k = ptr (p ++ [.idx k]) := by
    intro k; rw [ptr_append]; simp [ptr, Tok.str, String.append_assoc]
  have hfree : ∀ k, ∀ t ∈ p ++ [Tok.idx k], t.SlashFree := by
    intro k t ht
    rcases List.mem_append.1 ht with ht | ht
    · exact hp t ht
    · rw [List.mem_singleton] at ht; subst ht; exact idx_slashFree k
  have hstrict : ∀ k < count, ∃ y, strict (p.map Tok.str) schema = some y ∧ (strict [toString k] y).isSome ∧ HasShape sh y ∧ PlainKey (toString k) := by
    intro k hk
    obtain ⟨h1, h2⟩ := hm k hk
    rw [hpath, tokens_ptr _ (hfree k)] at h1 h2
    simp only [List.map_append, List.map_cons, List.map_nil, Tok.str] at h1 h2
    rw [strict_append] at h2
    obtain ⟨z, hz⟩ := Option.isSome_iff_exists.1 h2
    obtain ⟨y, hy, hz⟩ := Option.bind_eq_some_iff.1 hz
    exact ⟨y, hy, by rw [hz]; rfl, shape_of_strict hs (fun t ht => h1 t (by simp only [List.mem_append]; exact .inl ht)) hy hr, h1 _ (by simp)⟩
  obtain ⟨y, hy, hz, hsh, -⟩ := hstrict 0 hc
  have harr : ∃ L, y = .arr L := by
    simp only [strict] at hz
    rw [show parseU64 (toString 0) = some 0 from parseU64_repr 0 (by decide)] at hz
    cases y <;> simp at hz ⊢
  obtain ⟨L, rfl⟩ := harr
  have hitem : ∃ item, sh = .arr item := by
    cases sh with
    | leaf => simp [HasShape, Scalar] at hsh
    | arr item => exact ⟨item, rfl⟩
    | obj fs => simp [HasShape] at hsh
  obtain ⟨item, rfl⟩ := hitem
  refine ⟨item, L, rfl, by rw [tokens_ptr p hp]; exact hy, ?_, ?_⟩
  · obtain ⟨y', hy', hz', -, hpl⟩ := hstrict (count - 1) (by omega)
    rw [hy] at hy'; injection hy' with hy'; subst hy'
    simp only [strict] at hz'
    cases hu : parseU64 (toString (count - 1)) with
    | none => rw [hu] at hz'; simp at hz'
    | some j =>
      have hj := toString_inj (hpl.2 j hu)
      rw [hu] at hz'
      simp only at hz'
      cases hL : L[j]? with
      | none => rw [hL] at hz'; simp at hz'
      | some z =>
        have := (List.getElem?_eq_some_iff.1 hL).1
        omega
  · intro k x hk hx
    refine ⟨p ++ [.idx k], hpath k, hfree k, ?_⟩
    rw [read_append hr]
    simp only [Shape.read, hx, Option.bind_some]

/-- Where the schema has something, nothing blank is needed to read it. -/
theorem prior_of_strict (defs : Defaults) {s : Shape} {schema w y : Json} {p : List Tok} {sh : Shape} {v : Json} (ap : String)
    (hs : HasShape s schema) (hp : ∀ t ∈ p.map Tok.str, PlainKey t) (hy : strict (p.map Tok.str) schema = some y)
    (hr : s.read w p = some (sh, v)) : prior defs ap schema p = some y := by
  induction p generalizing s schema w ap with
  | nil =>
    simp only [List.map_nil, strict, Option.some.injEq] at hy
    rw [← hy]; simp [prior]
  | cons t p ih =>
    have hp' : ∀ t ∈ p.map Tok.str, PlainKey t := fun t ht => hp t (by simp only [List.map_cons, List.mem_cons]; exact .inr ht)
    have ht := hp t.str (by simp)
    simp only [List.map_cons, strict] at hy
    cases s with
    | leaf => cases t <;> simp [Shape.read] at hr
    | arr s =>
      cases t with
      | key k => simp [Shape.read] at hr
      | idx i =>
        simp only [Shape.read] at hr
        obtain ⟨x, -, hr⟩ := Option.bind_eq_some_iff.1 hr
        simp only [HasShape] at hs
        obtain ⟨l, rfl, hl⟩ := hs
        simp only [Tok.str] at hy ht
        cases hu : parseU64 (toString i) with
        | none => rw [hu] at hy; simp at hy
        | some j =>
          have hj := toString_inj (ht.2 j hu)
          subst hj
          rw [hu] at hy
          simp only at hy
          obtain ⟨z, hz, hy⟩ := Option.bind_eq_some_iff.1 hy
          simp only [prior, hz]
          exact ih ap (hl z (List.mem_of_getElem? hz)) hp' hy hr
    | obj fs =>
      cases t with
      | idx i => simp [Shape.read] at hr
      | key k =>
        simp only [Shape.read] at hr
        obtain ⟨s', hf, hr⟩ := Option.bind_eq_some_iff.1 hr
        simp only [HasShape] at hs
        obtain ⟨o, rfl, ho⟩ := hs
        simp only [Tok.str] at hy ht
        cases hu : parseU64 k with
        | some j => rw [hu] at hy; simp at hy
        | none =>
          rw [hu] at hy
          simp only at hy
          obtain ⟨z, hz, hy⟩ := Option.bind_eq_some_iff.1 hy
          obtain ⟨s2, e1, e2⟩ := hasFields_field ho hz
          rw [hf] at e1; injection e1 with e1; subst e1
          simp only [prior, hz, Option.bind_some]
          exact ih _ e2 hp' hy hr

theorem ScopeRel.set {s : Shape} {w : Json} {ρ : SMap String} {η : SMap Json} (h : ScopeRel s w ρ η) (name : String)
    {path : String} {sh : Shape} {v : Json} (hl : Leads s w path sh v) : ScopeRel s w (ρ.set name path) (η.set name v) := by
  intro x
  by_cases e : x = name
  · subst e
    simp only [SMap.set_same]
    exact ⟨sh, v, rfl, hl⟩
  · rw [SMap.set_other _ _ e, SMap.set_other _ _ e]
    exact h x

/-- The aliases of an element. -/
theorem scopeRel_alias {s : Shape} {schema w : Json} (hs : HasShape s schema) (bs : List ElementBinding) {ρ : SMap String}
    {η η' : SMap Json} (h : ScopeRel s w ρ η) (hm : ∀ p ∈ mentionedPaths (aliasScope ρ bs).2, Mentioned schema p)
    (hv : aliasValues w η bs = some η') : ScopeRel s w (aliasScope ρ bs).1 η' := by
  induction bs generalizing ρ η with
  | nil => simp only [aliasValues, Option.some.injEq] at hv; subst hv; exact h
  | cons b bs ih =>
    cases b with
    | «alias» name b =>
      simp only [aliasValues] at hv
      obtain ⟨x, hx, hv⟩ := Option.bind_eq_some_iff.1 hv
      simp only [aliasScope, mentionedPaths, List.filterMap_cons, List.mem_cons, forall_eq_or_imp] at hm
      obtain ⟨sh, hl⟩ := leads_value hs h hm.1 hx
      exact ih (h.set name hl) hm.2 hv
    | _ => exact ih h hm hv

/-- The scalar an expression shows is a place of the value that was filled. -/
theorem scalar_settled {S : Scene} {s : Shape} {schema : Json} {vs : List Json} (hs : HasShape s schema) (hf : Fits s S.value)
    {ρ : SMap String} {η : SMap Json} (h : ScopeRel s S.value ρ η) {b : Binder} (hm : Mentioned schema (b.denotes ρ))
    (hnull : S.nulls = true → ∀ p sh, s.read S.value p = some (sh, .null) → Settled s p False (S.value :: vs))
    {x : Json} (hx : S.scalar η b = some x) :
    ∃ p, b.denotes ρ = ptr p ∧ Settled s p False (S.value :: vs) ∧ current s p (S.value :: vs) = some x := by
  unfold Scene.scalar at hx
  cases hv : b.value S.value η with
  | none => rw [hv] at hx; simp at hx
  | some y =>
    obtain ⟨sh, p, hp, -, hr⟩ := leads_value hs h hm hv
    rw [hv] at hx
    have hfit := fits_read hf hr
    have key : ∀ z, y = z → z ≠ .null → (∀ l, z ≠ .arr l) → (∀ l, z ≠ .obj l) → sh = .leaf := by
      rintro z rfl n1 n2 n3
      cases sh with
      | leaf => rfl
      | arr item =>
        simp only [Fits] at hfit
        rcases hfit with h1 | ⟨l, h1, -⟩
        · exact absurd h1 n1
        · exact absurd h1 (n2 l)
      | obj fs =>
        simp only [Fits] at hfit
        rcases hfit.1 with h1 | ⟨l, h1⟩
        · exact absurd h1 n1
        · exact absurd h1 (n3 l)
    refine ⟨p, hp, ?_⟩
    have hgood : y ≠ .null → sh = .leaf → y = x → Settled s p False (S.value :: vs) ∧ current s p (S.value :: vs) = some x := by
      rintro hn rfl rfl
      exact ⟨⟨y, hr, .inl hn⟩, by simp [current, hr]⟩
    cases y with
    | null =>
      simp only at hx
      split at hx
      · rename_i hn
        injection hx with hx; subst hx
        have hset := hnull hn p sh hr
        obtain ⟨z, hz, -⟩ := id hset
        rw [hr] at hz
        simp only [Option.some.injEq, Prod.mk.injEq] at hz
        obtain ⟨rfl, -⟩ := hz
        exact ⟨hset, by simp [current, hr]⟩
      · simp at hx
    | arr l => simp at hx
    | obj l => simp at hx
    | bool a => exact hgood (by simp) (key _ rfl (by simp) (by simp) (by simp)) (by simpa using hx)
    | num a => exact hgood (by simp) (key _ rfl (by simp) (by simp) (by simp)) (by simpa using hx)
    | str a => exact hgood (by simp) (key _ rfl (by simp) (by simp) (by simp)) (by simpa using hx)

end Verif
