import Verif.Spec.Narrower
import Verif.View.Parts
/-!
# Lemmas about selectors that another one covers (C110)
-/
namespace Verif

variable {p : Platform}

theorem matchLoop_mono {checks pc} {t : Tree} {l l' : List Simple} (h : ∀ n e, matchLoop checks pc t l' n e = .ok true → matchLoop checks pc t l n e = .ok true)
    (pre : List Simple) : ∀ n e, matchLoop checks pc t (pre ++ l') n e = .ok true → matchLoop checks pc t (pre ++ l) n e = .ok true := by
  induction pre with
  | nil => exact h
  | cons x pre ih =>
    intro n e
    by_cases hx : x.isPart = true
    · rw [List.cons_append, List.cons_append, matchLoop_part hx, matchLoop_part hx]
      split
      · exact ih n e
      · exact id
    · cases x with
      | combinator d =>
        simp only [List.cons_append, matchLoop]
        split
        · exact id
        · exact id
        · split
          · exact id
          · exact ih _ _
      | _ => simp [Simple.isPart] at hx

theorem withMore_loop {checks pc} {t : Tree} {c c' : Complex} (h : WithMore (fun x => ∀ d, x ≠ .combinator d) c c') :
    ∀ {l l' : List Simple}, (∀ n e, matchLoop checks pc t l' n e = .ok true → matchLoop checks pc t l n e = .ok true) →
      ∀ n e, matchLoop checks pc t (c'.reverse ++ l') n e = .ok true → matchLoop checks pc t (c.reverse ++ l) n e = .ok true := by
  induction h with
  | nil => exact fun h => h
  | @same x c c' _ ih =>
    intro l l' h n e
    simp only [List.reverse_cons, List.append_assoc, List.cons_append, List.nil_append]
    exact ih (matchLoop_mono h [x]) n e
  | @more x c c' hx _ ih =>
    intro l l' h n e
    simp only [List.reverse_cons, List.append_assoc, List.cons_append, List.nil_append]
    refine ih (fun n e => ?_) n e
    rw [matchLoop_part (isPart_of hx)]
    split
    · exact h n e
    · simp

theorem Complex.Narrower.matches {checks pc} {t : Tree} {c c' : Complex} (h : c.Narrower c') {n : NodeId} (hm : matchComplex checks pc t c' n = .ok true) :
    matchComplex checks pc t c n = .ok true := by
  obtain ⟨up, c1, rfl, -, hw⟩ := h
  unfold matchComplex at hm ⊢
  split at hm
  · cases hm
  · rename_i e he
    have := withMore_loop (checks := checks) (pc := pc) (t := t) hw (l := []) (l' := up.reverse) (fun _ _ _ => rfl) n e
    simp only [List.append_nil, List.reverse_append] at this hm
    exact this hm

theorem Style.Covers.matches {checks pc} {t : Tree} {root body : NodeId} (hw : t.Wf root body) {n : NodeId} (hn : (t.ctx n).isSome) {s s' : Style} (h : s.Covers s')
    (hp : s.NoPlus) (hp' : s'.NoPlus) : matchesNow checks pc t n s' = matchesNow checks pc t n s := by
  rw [Bool.eq_iff_iff, matchesNow_iff hw hn hp, matchesNow_iff hw hn hp']
  constructor
  · rintro ⟨c', h1, h2⟩
    obtain ⟨c, h3, h4⟩ := h.narrower c' h1
    exact ⟨c, h3, h4.matches h2⟩
  · rintro ⟨c, h1, h2⟩
    exact ⟨c, h.more c h1, h2⟩

theorem covers_effect {t : Tree} {root body : NodeId} (hw : t.Wf root body) {n : NodeId} (hn : (t.ctx n).isSome) {checks pc} {l l' : List Style}
    (h : List.Forall₂ Style.Covers l l') (hp : ∀ s ∈ l, s.NoPlus) (hp' : ∀ s ∈ l', s.NoPlus) :
    (l'.filter (matchesNow checks pc t n)).map (·.declaration) = (l.filter (matchesNow checks pc t n)).map (·.declaration) := by
  induction h with
  | nil => rfl
  | @cons s s' l l' hs _ ih =>
    have ih := ih (fun s hs => hp s (List.mem_cons_of_mem _ hs)) (fun s hs => hp' s (List.mem_cons_of_mem _ hs))
    simp only [List.filter_cons, hs.matches hw hn (hp s List.mem_cons_self) (hp' s' List.mem_cons_self)]
    split
    · simp only [List.map_cons, ih, hs.declaration]
    · exact ih

theorem Css.Steady.fewer {css css' : Css} {v : View} (hm : ∀ s ∈ css.styles, ∃ s' ∈ css'.styles, ∀ c ∈ s.selectors, c ∈ s'.selectors) (h : css'.Steady v) : css.Steady v := by
  refine ⟨fun x hx c hc => ?_, h.tags, fun x hx hch m e k he hme hb ht => ?_⟩
  · obtain ⟨s, h1, h2⟩ := hm x hx
    exact h.noPlus s h1 c (h2 c hc)
  · obtain ⟨s, h1, h2⟩ := hm x hx
    obtain ⟨c, hc, hcc⟩ := hch
    obtain ⟨c', hc', y, hy, hty⟩ := ht
    exact h.parents s h1 ⟨c, h2 c hc, hcc⟩ m e k he hme hb ⟨c', h2 c' hc', y, hy, hty⟩

end Verif
