import Verif.ViewModel.BindLemmas
import Std.Data.String.ToNat
/-!
# Helper lemmas: notifications by path
-/
namespace Verif
open Json

theorem ptr_append (a b : List Tok) : ptr (a ++ b) = ptr a ++ ptr b := by
  induction a with
  | nil => simp [ptr]
  | cons t a ih => simp [ptr, ih, String.append_assoc]

theorem sub_ptr (base : List Tok) (t : Tok) : sub (ptr base) t.str = ptr (base ++ [t]) := by
  simp [sub, ptr_append, ptr, String.append_assoc]

theorem field_eq {fs : List (String × Shape)} {k s} (h : Shape.field fs k = some s) : (k, s) ∈ fs := by
  unfold Shape.field at h
  rcases hf : fs.find? (fun p => p.1 == k) with _ | ⟨k', s'⟩
  · simp [hf] at h
  · simp only [hf, Option.map_some, Option.some.injEq] at h
    subst h
    have h1 := List.find?_some hf
    have h2 := List.mem_of_find?_eq_some hf
    simp at h1; subst h1; exact h2

theorem field_cons (k k' : String) (s : Shape) (fs) :
    Shape.field ((k', s) :: fs) k = if k' = k then some s else Shape.field fs k := by
  unfold Shape.field
  by_cases h : k' = k
  · simp [h]
  · have : (k' == k) = false := by simpa using h
    simp [h, this]

theorem items_arr (l : List Json) : items (.arr l) = l := rfl

theorem hasFields_member {fs : List (String × Shape)} {l : List (String × Json)}
    (h : HasFields fs l) (hn : (fs.map Prod.fst).Nodup) (k : String) (s : Shape) (hk : (k, s) ∈ fs) :
    HasShape s (member (.obj l) k) := by
  induction fs generalizing l with
  | nil => simp at hk
  | cons p fs ih =>
    obtain ⟨k₀, s₀⟩ := p
    cases l with
    | nil => simp [HasFields] at h
    | cons q l =>
      obtain ⟨k', v⟩ := q
      simp only [HasFields] at h
      obtain ⟨rfl, h1, h2⟩ := h
      simp only [List.map_cons, List.nodup_cons] at hn
      simp only [member, get_cons]
      rcases List.mem_cons.1 hk with e | hk'
      · injection e with e1 e2
        subst e1; subst e2
        simpa using h1
      · have : k₀ ≠ k := by
          rintro rfl; exact hn.1 (List.mem_map.2 ⟨_, hk', rfl⟩)
        simp only [this, if_false]
        exact ih h2 hn.2 hk'

/-- The statement of a notification at the path `p` below a model part. -/
def Notified (defs : Defaults) (s : Shape) (dst src : Json) (ap : String) (p : List Tok) (v : Json) :
    Prop :=
  ∃ s' raw before, s.read src p = some (s', raw) ∧ prior defs ap dst p = some before ∧
    Differs s' before raw ∧ v = payload s' raw

mutual
theorem notesOf_mem (defs : Defaults) (s : Shape) (dst src : Json) (base : List Tok) (ap : String)
    (str : String) (v : Json)
    (hok : s.Ok) (hs : HasShape s dst) (hf : Fits s src) (hd : DefOk defs s ap) :
    (str, v) ∈ notesOf defs s dst src (ptr base) ap ↔
      ∃ p, str = ptr (base ++ p) ∧ Notified defs s dst src ap p v := by
  cases s with
  | leaf =>
    simp only [notesOf]
    constructor
    · intro h
      split at h
      · simp only [List.mem_singleton, Prod.mk.injEq] at h
        rename_i hne
        exact ⟨[], by simpa using h.1, .leaf, src, dst, rfl, rfl, hne, h.2⟩
      · simp at h
    · rintro ⟨p, rfl, s', raw, before, h1, h2, h3, rfl⟩
      cases p with
      | nil =>
        simp only [Shape.read, Option.some.injEq, Prod.mk.injEq] at h1
        obtain ⟨rfl, rfl⟩ := h1
        simp only [prior, Option.some.injEq] at h2
        subst h2
        simp only [Differs, project] at h3
        simp [h3, payload]
      | cons t p => simp [Shape.read] at h1
  | arr s =>
    obtain ⟨l, rfl, hl⟩ := by simpa only [HasShape] using hs
    simp only [DefOk] at hd
    obtain ⟨⟨d, hdd, hds⟩, hd'⟩ := hd
    have hpd : ∀ i, (h : i < (items src).length) →
        (padTo defs ap l (items src).length)[i]? = some (l[i]?.getD d) := by
      intro i h; rw [padTo_getElem? _ _ _ _ _ h, hdd]; rfl
    have hsh : ∀ i : Nat, HasShape s (l[i]?.getD d) := by
      intro i
      cases h : l[i]? with
      | none => simpa using hds
      | some x => simpa using hl x (List.mem_of_getElem? h)
    have hfi : ∀ x ∈ items src, Fits s x := by
      simp only [Fits] at hf
      rcases hf with rfl | ⟨nx, rfl, h⟩
      · simp [items]
      · simpa [items] using h
    have hok' : s.Ok := by simpa [Shape.Ok] using hok
    simp only [notesOf, List.mem_append, items_arr]
    have hflat : (str, v) ∈ ((((padTo defs ap l (items src).length).zip (items src)).zipIdx).flatMap
        (fun p => notesOf defs s p.1.1 p.1.2 (sub (ptr base) (toString p.2)) ap)) ↔
        ∃ i x, (items src)[i]? = some x ∧
          (str, v) ∈ notesOf defs s (l[i]?.getD d) x (ptr (base ++ [.idx i])) ap := by
      simp only [List.mem_flatMap]
      constructor
      · rintro ⟨⟨⟨a, b⟩, i⟩, hm, hv⟩
        rw [List.mem_zipIdx_iff_getElem?] at hm
        rw [List.getElem?_zip_eq_some] at hm
        obtain ⟨h1, h2⟩ := hm
        simp only [] at h1 h2
        have hi : i < (items src).length := (List.getElem?_eq_some_iff.1 h2).1
        rw [hpd i hi] at h1
        injection h1 with h1
        subst h1
        refine ⟨i, b, h2, ?_⟩
        rw [← sub_ptr]; exact hv
      · rintro ⟨i, x, hx, hv⟩
        have hi : i < (items src).length := (List.getElem?_eq_some_iff.1 hx).1
        refine ⟨((l[i]?.getD d, x), i), ?_, ?_⟩
        · rw [List.mem_zipIdx_iff_getElem?, List.getElem?_zip_eq_some]
          exact ⟨hpd i hi, hx⟩
        · rw [← sub_ptr] at hv; exact hv
    rw [hflat]
    have ih : ∀ i x, (items src)[i]? = some x →
        ((str, v) ∈ notesOf defs s (l[i]?.getD d) x (ptr (base ++ [.idx i])) ap ↔
          ∃ p, str = ptr ((base ++ [.idx i]) ++ p) ∧ Notified defs s (l[i]?.getD d) x ap p v) :=
      fun i x hx => notesOf_mem defs s _ x _ ap str v hok' (hsh i)
        (hfi x (List.mem_of_getElem? hx)) hd'
    have hprior : ∀ i ts, prior defs ap (.arr l) (.idx i :: ts) = prior defs ap (l[i]?.getD d) ts := by
      intro i ts
      simp only [prior]
      cases l[i]? with
      | none => simp [hdd]
      | some x => simp
    constructor
    · rintro (h | ⟨i, x, hx, h⟩)
      · by_cases hne : l.length = (items src).length
        · simp [hne] at h
        · simp only [ne_eq, hne, not_false_eq_true, if_true, List.mem_singleton, Prod.mk.injEq] at h
          exact ⟨[], by simpa using h.1, .arr s, src, .arr l, rfl, rfl, hne, h.2⟩
      · obtain ⟨p, hp, s', raw, before, h1, h2, h3, h4⟩ := (ih i x hx).1 h
        refine ⟨.idx i :: p, by simpa using hp, s', raw, before, ?_, ?_, h3, h4⟩
        · simp only [Shape.read, hx, Option.bind_some, h1]
        · rw [hprior, h2]
    · rintro ⟨p, hp, s', raw, before, h1, h2, h3, rfl⟩
      cases p with
      | nil =>
        simp only [Shape.read, Option.some.injEq, Prod.mk.injEq] at h1
        obtain ⟨rfl, rfl⟩ := h1
        simp only [prior, Option.some.injEq] at h2
        subst h2
        simp only [Differs, items_arr] at h3
        left
        simp only [List.append_nil] at hp
        simp only [h3, ne_eq, not_false_eq_true, if_true, payload, List.mem_singleton, hp]
      | cons t p =>
        cases t with
        | key k => simp [Shape.read] at h1
        | idx i =>
          right
          simp only [Shape.read] at h1
          cases hx : (items src)[i]? with
          | none => simp [hx] at h1
          | some x =>
            simp only [hx, Option.bind_some] at h1
            refine ⟨i, x, hx, (ih i x hx).2 ⟨p, by simpa using hp, s', raw, before, h1, ?_, h3, rfl⟩⟩
            rw [← hprior]; exact h2
  | obj fs =>
    obtain ⟨l, rfl, hl⟩ := by simpa only [HasShape] using hs
    simp only [Fits] at hf
    simp only [DefOk] at hd
    simp only [Shape.Ok] at hok
    simp only [notesOf, List.mem_append]
    rw [notesFields_mem defs fs (.obj l) src base ap str v hok.1 hok.2
      (hasFields_member hl hok.1) hf.2 hd]
    constructor
    · rintro (⟨k, p, hp, s', hk, h⟩ | h)
      · refine ⟨.key k :: p, hp, ?_⟩
        obtain ⟨s'', raw, before, h1, h2, h3, h4⟩ := h
        refine ⟨s'', raw, before, ?_, ?_, h3, h4⟩
        · simp only [Shape.read, hk, Option.bind_some, h1]
        · simp only [prior]
          have : get l k ≠ none := by
            rw [ne_eq, get_eq_none, hasFields_get hl]
            exact fun h => h (List.mem_map.2 ⟨_, field_eq hk, rfl⟩)
          cases hg : get l k with
          | none => exact absurd hg this
          | some x =>
            simp only [member, hg, Option.getD_some, sub] at h2
            simpa using h2
      · split at h
        · simp only [List.mem_singleton, Prod.mk.injEq] at h
          rename_i hne
          exact ⟨[], by simpa using h.1, .obj fs, src, .obj l, rfl, rfl, hne, h.2⟩
        · simp at h
    · rintro ⟨p, hp, s', raw, before, h1, h2, h3, rfl⟩
      cases p with
      | nil =>
        simp only [Shape.read, Option.some.injEq, Prod.mk.injEq] at h1
        obtain ⟨rfl, rfl⟩ := h1
        simp only [prior, Option.some.injEq] at h2
        subst h2
        simp only [Differs] at h3
        right
        simp only [List.append_nil] at hp
        simp only [h3, ne_eq, not_false_eq_true, if_true, payload, List.mem_singleton, hp]
      | cons t p =>
        cases t with
        | idx i => simp [Shape.read] at h1
        | key k =>
          left
          simp only [Shape.read] at h1
          cases hk : Shape.field fs k with
          | none => simp [hk] at h1
          | some s₁ =>
            simp only [hk, Option.bind_some] at h1
            refine ⟨k, p, hp, s₁, hk, s', raw, before, h1, ?_, h3, rfl⟩
            simp only [prior] at h2
            cases hg : get l k with
            | none => simp [hg] at h2
            | some x => simpa [member, hg, sub] using h2
theorem notesFields_mem (defs : Defaults) (fs : List (String × Shape)) (dst src : Json)
    (base : List Tok) (ap : String) (str : String) (v : Json)
    (hn : (fs.map Prod.fst).Nodup) (hok : Shape.OkFields fs)
    (hs : ∀ k s, (k, s) ∈ fs → HasShape s (member dst k))
    (hf : FitsFields fs src) (hd : DefOkFields defs fs ap) :
    (str, v) ∈ notesFields defs fs dst src (ptr base) ap ↔
      ∃ k p, str = ptr (base ++ .key k :: p) ∧ ∃ s, Shape.field fs k = some s ∧
        Notified defs s (member dst k) (member src k) (sub ap k) p v := by
  cases fs with
  | nil => simp [notesFields, Shape.field]
  | cons q fs =>
    obtain ⟨k, s⟩ := q
    simp only [FitsFields] at hf
    simp only [DefOkFields] at hd
    simp only [Shape.OkFields] at hok
    simp only [List.map_cons, List.nodup_cons] at hn
    simp only [notesFields, List.mem_append]
    have e : sub (ptr base) k = ptr (base ++ [.key k]) := sub_ptr base (.key k)
    rw [e, notesOf_mem defs s _ _ _ _ str v hok.2.1 (hs k s (by simp)) hf.1 hd.1,
      notesFields_mem defs fs dst src base ap str v hn.2 hok.2.2
        (fun k s h => hs k s (by simp [h])) hf.2 hd.2]
    constructor
    · rintro (⟨p, hp, h⟩ | ⟨k', p, hp, s', hk, h⟩)
      · exact ⟨k, p, by simpa using hp, s, by simp [field_cons], h⟩
      · refine ⟨k', p, hp, s', ?_, h⟩
        have : k ≠ k' := by
          rintro rfl; exact hn.1 (List.mem_map.2 ⟨_, field_eq hk, rfl⟩)
        simp [field_cons, this, hk]
    · rintro ⟨k', p, hp, s', hk, h⟩
      rw [field_cons] at hk
      split at hk
      · rename_i e; subst e
        injection hk with hk; subst hk
        exact Or.inl ⟨p, by simpa using hp, h⟩
      · exact Or.inr ⟨k', p, hp, s', hk, h⟩
end

/-! ### pointers are injective on slash-free paths -/

def Tok.SlashFree (t : Tok) : Prop := Verif.SlashFree t.str

theorem idx_slashFree (i : Nat) : (Tok.idx i).SlashFree := by
  unfold Tok.SlashFree Verif.SlashFree Tok.str
  show '/' ∉ (Nat.repr i).toList
  rw [Nat.toList_repr]
  intro h
  have := Nat.isDigit_of_mem_toDigits (by omega) (by omega) h
  simp [Char.isDigit] at this

theorem ptr_toList (ts : List Tok) : (ptr ts).toList = ts.flatMap (fun t => '/' :: t.str.toList) := by
  induction ts with
  | nil => simp [ptr]
  | cons t ts ih => simp [ptr, ih, String.toList_append]

theorem split_slash {a b x y : List Char} (ha : '/' ∉ a) (hb : '/' ∉ b)
    (hx : x = [] ∨ ∃ x', x = '/' :: x') (hy : y = [] ∨ ∃ y', y = '/' :: y')
    (h : a ++ x = b ++ y) : a = b ∧ x = y := by
  induction a generalizing b with
  | nil =>
    cases b with
    | nil => simpa using h
    | cons c b =>
      rcases hx with rfl | ⟨x', rfl⟩
      · simp at h
      · simp at h; exact absurd (by rw [h.1]; simp) hb
  | cons c a ih =>
    cases b with
    | nil =>
      rcases hy with rfl | ⟨y', rfl⟩
      · simp at h
      · simp at h; exact absurd (by rw [h.1]; simp) ha
    | cons c' b =>
      simp only [List.cons_append, List.cons.injEq] at h
      simp only [List.mem_cons, not_or] at ha hb
      have := ih ha.2 hb.2 h.2
      exact ⟨by rw [h.1, this.1], this.2⟩

theorem ptr_tail_slash (p : List Tok) :
    (ptr p).toList = [] ∨ ∃ x', (ptr p).toList = '/' :: x' := by
  cases p with
  | nil => left; simp [ptr]
  | cons t p => right; rw [ptr_toList]; exact ⟨_, by simp [List.flatMap_cons]; rfl⟩

/-- Two pointers below the same path agree on their next step. -/
theorem ptr_step_inj {base : List Tok} {t t' : Tok} {p p' : List Tok} (ht : t.SlashFree)
    (ht' : t'.SlashFree) (h : ptr (base ++ t :: p) = ptr (base ++ t' :: p')) :
    t.str = t'.str ∧ ptr p = ptr p' := by
  rw [ptr_append, ptr_append, ← String.toList_inj] at h
  simp only [String.toList_append, List.append_cancel_left_eq, ptr] at h
  simp only [List.append_assoc, List.append_cancel_left_eq] at h
  have := split_slash ht ht' (ptr_tail_slash p) (ptr_tail_slash p') h
  exact ⟨String.toList_inj.1 this.1, String.toList_inj.1 this.2⟩

theorem ptr_ne_below (base : List Tok) (t : Tok) (p : List Tok) : ptr base ≠ ptr (base ++ t :: p) := by
  intro h
  rw [ptr_append, ← String.toList_inj] at h
  simp [ptr] at h

theorem okFields_mem {fs : List (String × Shape)} (h : Shape.OkFields fs) {k s} (hk : (k, s) ∈ fs) :
    Verif.SlashFree k := by
  induction fs with
  | nil => simp at hk
  | cons p fs ih =>
    obtain ⟨k', s'⟩ := p
    simp only [Shape.OkFields] at h
    rcases List.mem_cons.1 hk with e | hk
    · injection e with e1 e2; subst e1; exact h.1
    · exact ih h.2.2 hk

theorem idx_str_inj {i j : Nat} (h : (Tok.idx i).str = (Tok.idx j).str) : i = j :=
  Nat.repr_injective h

mutual
theorem notesOf_nodup (defs : Defaults) (s : Shape) (dst src : Json) (base : List Tok) (ap : String)
    (hok : s.Ok) (hs : HasShape s dst) (hf : Fits s src) (hd : DefOk defs s ap) :
    ((notesOf defs s dst src (ptr base) ap).map Prod.fst).Nodup := by
  cases s with
  | leaf => simp only [notesOf]; split <;> simp
  | arr s =>
    have hd0 := hd
    obtain ⟨l, rfl, hl⟩ := by simpa only [HasShape] using hs
    simp only [DefOk] at hd
    obtain ⟨⟨d, hdd, hds⟩, hd'⟩ := hd
    have hfi : ∀ x ∈ items src, Fits s x := by
      simp only [Fits] at hf
      rcases hf with rfl | ⟨nx, rfl, h⟩
      · simp [items]
      · simpa [items] using h
    have hok' : s.Ok := by simpa [Shape.Ok] using hok
    have hsh : ∀ x ∈ padTo defs ap l (items src).length, HasShape s x := by
      intro x hx
      unfold padTo at hx; split at hx
      · rcases resize_mem hx with h | rfl
        · exact hl _ h
        · rw [hdd]; exact hds
      · exact hl _ hx
    have hmem : ∀ q ∈ ((padTo defs ap l (items src).length).zip (items src)).zipIdx,
        HasShape s q.1.1 ∧ Fits s q.1.2 := by
      rintro ⟨⟨a, b⟩, i⟩ hq
      have := (List.mem_zipIdx_iff_getElem?.1 hq)
      rw [List.getElem?_zip_eq_some] at this
      exact ⟨hsh _ (List.mem_of_getElem? this.1), hfi _ (List.mem_of_getElem? this.2)⟩
    simp only [notesOf, items_arr, List.map_append]
    rw [List.nodup_append]
    refine ⟨by by_cases h : l.length = (items src).length <;> simp [h], ?_, ?_⟩
    · rw [List.map_flatMap]
      unfold List.Nodup
      rw [List.pairwise_flatMap]
      constructor
      · intro q hq
        obtain ⟨h1, h2⟩ := hmem q hq
        have e : sub (ptr base) (toString q.2) = ptr (base ++ [.idx q.2]) := sub_ptr base (.idx q.2)
        rw [e]
        exact notesOf_nodup defs s _ _ _ ap hok' h1 h2 hd'
      · have hp : ((((padTo defs ap l (items src).length).zip (items src)).zipIdx).map
            Prod.snd).Nodup := by
          rw [List.zipIdx_map_snd]; exact List.nodup_range'
        unfold List.Nodup at hp
        rw [List.pairwise_map] at hp
        refine List.Pairwise.imp_of_mem ?_ hp
        intro a b ha hb hne x hx y hy
        obtain ⟨⟨xs, xv⟩, hx', rfl⟩ := List.mem_map.1 hx
        obtain ⟨⟨ys, yv⟩, hy', rfl⟩ := List.mem_map.1 hy
        clear hx hy
        have hx := hx'
        have hy := hy'
        have e : ∀ i, sub (ptr base) (toString i) = ptr (base ++ [.idx i]) :=
          fun i => sub_ptr base (.idx i)
        rw [e, notesOf_mem defs s _ _ _ ap _ _ hok' (hmem a ha).1 (hmem a ha).2 hd'] at hx
        rw [e, notesOf_mem defs s _ _ _ ap _ _ hok' (hmem b hb).1 (hmem b hb).2 hd'] at hy
        obtain ⟨p, hp, -⟩ := hx
        obtain ⟨p', hp', -⟩ := hy
        simp only [] at hp hp' ⊢
        rintro rfl
        rw [hp] at hp'
        have := ptr_step_inj (base := base) (p := p) (p' := p') (idx_slashFree a.2)
          (idx_slashFree b.2) (by simpa using hp')
        exact hne (idx_str_inj this.1)
    · intro x hx y hy
      have hx' : x = ptr base := by
        by_cases hne : l.length = (items src).length
        · simp [hne] at hx
        · simp [hne] at hx; exact hx
      obtain ⟨⟨ys, yv⟩, hy1, hye⟩ := List.mem_map.1 hy
      subst hye
      clear hy
      have hy := hy1
      obtain ⟨q, hq, hy⟩ := List.mem_flatMap.1 hy
      have e : sub (ptr base) (toString q.2) = ptr (base ++ [.idx q.2]) := sub_ptr base (.idx q.2)
      rw [e, notesOf_mem defs s _ _ _ ap _ _ hok' (hmem q hq).1 (hmem q hq).2 hd'] at hy
      obtain ⟨p, hp, -⟩ := hy
      subst hx'
      simp only [] at hp ⊢
      rw [hp, List.append_assoc]
      exact ptr_ne_below base _ _
  | obj fs =>
    obtain ⟨l, rfl, hl⟩ := by simpa only [HasShape] using hs
    simp only [Fits] at hf
    simp only [DefOk] at hd
    simp only [Shape.Ok] at hok
    simp only [notesOf, List.map_append]
    rw [List.nodup_append]
    have hm := hasFields_member hl hok.1
    refine ⟨notesFields_nodup defs fs _ src base ap hok.1 hok.2 hm hf.2 hd, ?_, ?_⟩
    · split <;> simp
    · intro x hx y hy
      have hy' : y = ptr base := by
        split at hy <;> simp at hy
        exact hy
      obtain ⟨⟨xs, xv⟩, hx1, hxe⟩ := List.mem_map.1 hx
      subst hxe
      clear hx
      have hx := hx1
      rw [notesFields_mem defs fs (.obj l) src base ap _ _ hok.1 hok.2 hm hf.2 hd] at hx
      obtain ⟨k, p, hp, -⟩ := hx
      subst hy'
      simp only [] at hp ⊢
      rw [hp]
      exact (ptr_ne_below base _ _).symm
theorem notesFields_nodup (defs : Defaults) (fs : List (String × Shape)) (dst src : Json)
    (base : List Tok) (ap : String)
    (hn : (fs.map Prod.fst).Nodup) (hok : Shape.OkFields fs)
    (hs : ∀ k s, (k, s) ∈ fs → HasShape s (member dst k))
    (hf : FitsFields fs src) (hd : DefOkFields defs fs ap) :
    ((notesFields defs fs dst src (ptr base) ap).map Prod.fst).Nodup := by
  cases fs with
  | nil => simp [notesFields]
  | cons q fs =>
    obtain ⟨k, s⟩ := q
    simp only [FitsFields] at hf
    simp only [DefOkFields] at hd
    simp only [Shape.OkFields] at hok
    simp only [List.map_cons, List.nodup_cons] at hn
    have e : sub (ptr base) k = ptr (base ++ [.key k]) := sub_ptr base (.key k)
    have hs' : ∀ k s, (k, s) ∈ fs → HasShape s (member dst k) := fun k s h => hs k s (by simp [h])
    simp only [notesFields, List.map_append]
    rw [List.nodup_append]
    refine ⟨?_, notesFields_nodup defs fs dst src base ap hn.2 hok.2.2 hs' hf.2 hd.2, ?_⟩
    · rw [e]; exact notesOf_nodup defs s _ _ _ _ hok.2.1 (hs k s (by simp)) hf.1 hd.1
    · intro x hx y hy
      obtain ⟨⟨xs, xv⟩, hx1, hxe⟩ := List.mem_map.1 hx
      subst hxe
      clear hx
      have hx := hx1
      obtain ⟨⟨ys, yv⟩, hy1, hye⟩ := List.mem_map.1 hy
      subst hye
      clear hy
      have hy := hy1
      rw [e, notesOf_mem defs s _ _ _ _ _ _ hok.2.1 (hs k s (by simp)) hf.1 hd.1] at hx
      rw [notesFields_mem defs fs dst src base ap _ _ hn.2 hok.2.2 hs' hf.2 hd.2] at hy
      obtain ⟨p, hp, -⟩ := hx
      obtain ⟨k', p', hp', s', hk', -⟩ := hy
      simp only [] at hp hp' ⊢
      rw [hp, hp']
      intro h
      have := ptr_step_inj (base := base) (t := .key k) (t' := .key k') (p := p) (p' := p')
        hok.1 (okFields_mem hok.2.2 (field_eq hk')) (by simpa using h)
      simp only [Tok.str] at this
      rw [this.1] at hn
      exact hn.1 (List.mem_map.2 ⟨_, field_eq hk', rfl⟩)
end

end Verif
