import Verif.Peg.Lemmas
import Verif.Html.Grammar
/-!
# Taking derivations apart
-/
namespace Verif
variable {R : Type} {g : Grammar R}

theorem derives_chr {a p t ps} : Derives g a (.chr p) t ps ↔ ps = [] ∧ ∃ c, p c = true ∧ t = [c] :=
  ⟨fun h => by cases h; exact ⟨rfl, _, by assumption, rfl⟩, by rintro ⟨rfl, c, h, rfl⟩; exact .chr h⟩
theorem derives_lit {a s t ps} : Derives g a (.lit s) t ps ↔ ps = [] ∧ t = s :=
  ⟨fun h => by cases h; exact ⟨rfl, rfl⟩, by rintro ⟨rfl, rfl⟩; exact .lit⟩
theorem derives_ilit {a s t ps} : Derives g a (.ilit s) t ps ↔ ps = [] ∧ stripInsensitive s t = some [] :=
  ⟨fun h => by cases h; exact ⟨rfl, by assumption⟩, by rintro ⟨rfl, h⟩; exact .ilit h⟩
theorem derives_eps {a t ps} : Derives g a .eps t ps ↔ ps = [] ∧ t = [] :=
  ⟨fun h => by cases h; exact ⟨rfl, rfl⟩, by rintro ⟨rfl, rfl⟩; exact .eps⟩
theorem derives_eoi {a t ps} : Derives g a .eoi t ps ↔ ps = [] ∧ t = [] :=
  ⟨fun h => by cases h; exact ⟨rfl, rfl⟩, by rintro ⟨rfl, rfl⟩; exact .eoi⟩
theorem derives_neg {a x t ps} : Derives g a (.neg x) t ps ↔ ps = [] ∧ t = [] :=
  ⟨fun h => by cases h; exact ⟨rfl, rfl⟩, by rintro ⟨rfl, rfl⟩; exact .neg⟩
theorem derives_call {a r t ps} : Derives g a (.call r) t ps ↔
    ∃ qs, Derives g ((g.kind r).inside a) (g.body r) t qs ∧ ps = if (g.kind r).seen a then [.mk r t qs] else qs :=
  ⟨fun h => by cases h; exact ⟨_, by assumption, rfl⟩, by rintro ⟨qs, h, rfl⟩; exact .call h⟩
theorem derives_cat {a x y t ps} : Derives g a (.cat x y) t ps ↔ ∃ t1 ps1 t2 ps2, Derives g a x t1 ps1 ∧ Derives g a y t2 ps2 ∧ t = t1 ++ t2 ∧ ps = ps1 ++ ps2 :=
  ⟨fun h => by cases h; exact ⟨_, _, _, _, by assumption, by assumption, rfl, rfl⟩, by rintro ⟨t1, ps1, t2, ps2, h1, h2, rfl, rfl⟩; exact .cat h1 h2⟩
theorem derives_alt {a x y t ps} : Derives g a (.alt x y) t ps ↔ Derives g a x t ps ∨ Derives g a y t ps :=
  ⟨fun h => by cases h <;> simp [*], by rintro (h | h); exacts [.altLeft h, .altRight h]⟩

/-- No rule is called. -/
def Peg.plain : Peg R → Bool
  | .call _ => false
  | .cat x y => x.plain && y.plain
  | .alt x y => x.plain && y.plain
  | .rep x => x.plain
  | .neg x => x.plain
  | _ => true

theorem derives_plain {a : Atomicity} (ha : a ≠ .nonAtomic) {e t ps} (h : Derives g a e t ps) (he : e.plain = true) : ps = [] := by
  induction h with
  | call => simp [Peg.plain] at he
  | cat _ _ ih1 ih2 => simp only [Peg.plain, Bool.and_eq_true] at he; rw [ih1 ha he.1, ih2 ha he.2]; rfl
  | altLeft _ ih => simp only [Peg.plain, Bool.and_eq_true] at he; exact ih ha he.1
  | altRight _ ih => simp only [Peg.plain, Bool.and_eq_true] at he; exact ih ha he.2
  | repStep _ _ ih1 ih2 => rw [ih1 ha he, ih2 ha he]; rfl
  | gap => exact absurd rfl ha
  | _ => rfl

/-- Skipping gives no pairs. -/
theorem derives_gap (hg : g.skip.plain = true) {a t ps} (h : Derives g a .gap t ps) : ps = [] := by
  cases h with
  | gap h => exact derives_plain (by decide) h hg
  | gapOff => rfl

theorem derives_seq (hg : g.skip.plain = true) {a x y t ps} (h : Derives g a (.seq x y) t ps) :
    ∃ t1 ps1 w t2 ps2, Derives g a x t1 ps1 ∧ Derives g a y t2 ps2 ∧ t = t1 ++ (w ++ t2) ∧ ps = ps1 ++ ps2 := by
  obtain ⟨t1, ps1, t2, ps2, h1, h2, rfl, rfl⟩ := derives_cat.1 h
  obtain ⟨w, qs, t3, ps3, h3, h4, rfl, rfl⟩ := derives_cat.1 h2
  obtain rfl := derives_gap hg h3
  exact ⟨t1, ps1, w, t3, ps3, h1, h4, rfl, rfl⟩

theorem derives_rep {a x t ps} {P : Pair R → Prop} (h : Derives g a (.rep x) t ps) (hP : ∀ t ps, Derives g a x t ps → ∀ p ∈ ps, P p) : ∀ p ∈ ps, P p := by
  generalize he : Peg.rep x = e at h
  induction h with
  | repStop => simp
  | repStep h1 _ _ ih =>
    injection he with he
    subst he
    intro p hp
    rcases List.mem_append.1 hp with hp | hp
    · exact hP _ _ h1 p hp
    · exact ih hP rfl p hp
  | _ => cases he

theorem derives_rep_len {a x t ps} {P : Pair R → Prop} (h : Derives g a (.rep x) t ps) (hP : ∀ t' ps, t'.length ≤ t.length → Derives g a x t' ps → ∀ p ∈ ps, P p) : ∀ p ∈ ps, P p := by
  generalize he : Peg.rep x = e at h
  induction h with
  | repStop => simp
  | @repStep _ _ t1 _ t2 _ h1 _ _ ih =>
    injection he with he
    subst he
    intro p hp
    rcases List.mem_append.1 hp with hp | hp
    · exact hP _ _ (by simp) h1 p hp
    · exact ih (fun t' ps hl => hP t' ps (by simp; omega)) rfl p hp
  | _ => cases he

/-- The same, where the parts are known not to be longer than the whole. -/
theorem derives_star_len (hg : g.skip.plain = true) {a x t ps} {P : Pair R → Prop} (h : Derives g a (.star x) t ps) (hP : ∀ t' ps, t'.length ≤ t.length → Derives g a x t' ps → ∀ p ∈ ps, P p) :
    ∀ p ∈ ps, P p := by
  rcases derives_alt.1 h with h | h
  · obtain ⟨t1, ps1, t2, ps2, h1, h2, rfl, rfl⟩ := derives_cat.1 h
    intro p hp
    rcases List.mem_append.1 hp with hp | hp
    · exact hP _ _ (by simp) h1 p hp
    · refine derives_rep_len h2 ?_ p hp
      intro u qs hl hu
      obtain ⟨u1, qs1, u2, qs2, k1, k2, rfl, rfl⟩ := derives_cat.1 hu
      obtain rfl := derives_gap hg k1
      intro p hp
      exact hP _ _ (by simp at hl ⊢; omega) k2 p (by simpa using hp)
  · obtain ⟨rfl, -⟩ := derives_eps.1 h
    simp

theorem derives_star (hg : g.skip.plain = true) {a x t ps} {P : Pair R → Prop} (h : Derives g a (.star x) t ps) (hP : ∀ t ps, Derives g a x t ps → ∀ p ∈ ps, P p) :
    ∀ p ∈ ps, P p := by
  rcases derives_alt.1 h with h | h
  · obtain ⟨t1, ps1, t2, ps2, h1, h2, rfl, rfl⟩ := derives_cat.1 h
    intro p hp
    rcases List.mem_append.1 hp with hp | hp
    · exact hP _ _ h1 p hp
    · refine derives_rep h2 ?_ p hp
      intro u qs hu
      obtain ⟨u1, qs1, u2, qs2, k1, k2, rfl, rfl⟩ := derives_cat.1 hu
      obtain rfl := derives_gap hg k1
      intro p hp
      exact hP _ _ k2 p (by simpa using hp)
  · obtain ⟨rfl, -⟩ := derives_eps.1 h
    simp

theorem derives_plus (hg : g.skip.plain = true) {a x t ps} {P : Pair R → Prop} (h : Derives g a (.plus x) t ps) (hP : ∀ t ps, Derives g a x t ps → ∀ p ∈ ps, P p) :
    ∀ p ∈ ps, P p := by
  obtain ⟨t1, ps1, w, t2, ps2, h1, h2, rfl, rfl⟩ := derives_seq hg h
  intro p hp
  rcases List.mem_append.1 hp with hp | hp
  · exact hP _ _ h1 p hp
  · exact derives_star hg h2 hP p hp

theorem single_pair {a : Atomicity} {r : R} {t ps} (h : Derives g a (.call r) t ps) (hs : (g.kind r).seen a = true) :
    ∃ inner, ps = [.mk r t inner] ∧ Derives g ((g.kind r).inside a) (g.body r) t inner := by
  replace h := derives_call.1 h
  obtain ⟨qs, h1, h2⟩ := h
  rw [if_pos hs] at h2
  exact ⟨qs, h2, h1⟩

theorem word_pairs {a : Atomicity} {s : String} {t ps} (h : Derives g a (Peg.word s) t ps) : ps = [] := (derives_lit.1 h).1

end Verif
