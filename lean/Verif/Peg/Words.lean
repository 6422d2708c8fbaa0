import Verif.Peg.Lemmas
import Verif.Html.Grammar
/-!
# Running common expressions
-/
namespace Verif
variable {R : Type} {g : Grammar R} {a : Atomicity}

theorem Runs.alts_none : ∀ {l : List (Peg R)} {i : List Char}, (∀ x ∈ l, Runs g a x i none) → Runs g a (Peg.alts l) i none
  | [], _, _ => .neg_not .eps
  | [_], _, h => h _ List.mem_cons_self
  | _ :: _ :: _, _, h => .alt_right (h _ List.mem_cons_self) (alts_none fun x hx => h x (List.mem_cons_of_mem _ hx))

theorem Runs.alts_some {x : Peg R} {post : List (Peg R)} {i : List Char} {r : List (Pair R) × List Char} (hx : Runs g a x i (some r)) :
    ∀ {pre : List (Peg R)}, (∀ y ∈ pre, Runs g a y i none) → Runs g a (Peg.alts (pre ++ x :: post)) i (some r)
  | [], _ => by
    cases post with
    | nil => exact hx
    | cons y post => exact .alt_left hx
  | [y], h => .alt_right (h y List.mem_cons_self) (alts_some hx (pre := []) (by simp))
  | y :: z :: pre, h => .alt_right (h y List.mem_cons_self) (alts_some hx (pre := z :: pre) fun w hw => h w (List.mem_cons_of_mem _ hw))

theorem Runs.lit_ne {d : Char} {s : List Char} {i : List Char} (h : ∀ c u, i = c :: u → c ≠ d) : Runs g a (.lit (d :: s)) i none := by
  refine .lit_not ?_
  rintro ⟨u, rfl⟩
  exact h d (s ++ u) rfl rfl

theorem Runs.seq {x y : Peg R} {i i1 i2 i3 : List Char} {ps qs : List (Pair R)} (hx : Runs g a x i (some (ps, i1))) (hg : Runs g a .gap i1 (some ([], i2)))
    (hy : Runs g a y i2 (some (qs, i3))) : Runs g a (.seq x y) i (some (ps ++ qs, i3)) := by
  have := hx.cat (hg.cat hy)
  rw [List.nil_append] at this
  exact this

theorem Runs.seq_left {x y : Peg R} {i : List Char} (hx : Runs g a x i none) : Runs g a (.seq x y) i none := hx.cat_left
theorem Runs.seq_right {x y : Peg R} {i i1 i2 : List Char} {ps : List (Pair R)} (hx : Runs g a x i (some (ps, i1))) (hg : Runs g a .gap i1 (some ([], i2)))
    (hy : Runs g a y i2 none) : Runs g a (.seq x y) i none := hx.cat_right (hg.cat_right hy)

theorem Runs.opt_some {x : Peg R} {i : List Char} {r : List (Pair R) × List Char} (hx : Runs g a x i (some r)) : Runs g a (.opt x) i (some r) := hx.alt_left
theorem Runs.opt_none {x : Peg R} {i : List Char} (hx : Runs g a x i none) : Runs g a (.opt x) i (some ([], i)) := hx.alt_right .eps

theorem Runs.star_nil {x : Peg R} {i : List Char} (hx : Runs g a x i none) : Runs g a (.star x) i (some ([], i)) := .opt_none hx.cat_left
theorem Runs.star_cons {x : Peg R} {i i1 i2 : List Char} {ps qs : List (Pair R)} (hx : Runs g a x i (some (ps, i1)))
    (hr : Runs g a (.rep (.cat .gap x)) i1 (some (qs, i2))) : Runs g a (.star x) i (some (ps ++ qs, i2)) := .opt_some (hx.cat hr)

/-- Without skipping, repetition takes a word of characters. -/
theorem Runs.rep_word (ha : a ≠ .nonAtomic) {x : Peg R} {p : Char → Bool} (hx : ∀ c i, p c = true → Runs g a x (c :: i) (some ([], i)))
    (hn : ∀ i, (∀ c u, i = c :: u → p c = false) → Runs g a x i none) {rest : List Char} (hr : ∀ c u, rest = c :: u → p c = false) :
    ∀ {t : List Char}, (∀ c ∈ t, p c = true) → Runs g a (.rep (.cat .gap x)) (t ++ rest) (some ([], rest))
  | [], _ => .rep_stop ((Runs.gap_off ha).cat_right (hn _ hr))
  | c :: t, h => by
    have h1 := (Runs.gap_off (g := g) ha (i := c :: (t ++ rest))).cat (hx c (t ++ rest) (h c List.mem_cons_self))
    exact h1.rep_step (rep_word ha hx hn hr fun d hd => h d (List.mem_cons_of_mem _ hd))

theorem Runs.star_word (ha : a ≠ .nonAtomic) {x : Peg R} {p : Char → Bool} (hx : ∀ c i, p c = true → Runs g a x (c :: i) (some ([], i)))
    (hn : ∀ i, (∀ c u, i = c :: u → p c = false) → Runs g a x i none) {rest : List Char} (hr : ∀ c u, rest = c :: u → p c = false) :
    ∀ {t : List Char}, (∀ c ∈ t, p c = true) → Runs g a (.star x) (t ++ rest) (some ([], rest))
  | [], _ => .star_nil (hn _ hr)
  | c :: t, h => .star_cons (hx c (t ++ rest) (h c List.mem_cons_self)) (.rep_word ha hx hn hr fun d hd => h d (List.mem_cons_of_mem _ hd))

theorem Runs.plus_word (ha : a ≠ .nonAtomic) {x : Peg R} {p : Char → Bool} (hx : ∀ c i, p c = true → Runs g a x (c :: i) (some ([], i)))
    (hn : ∀ i, (∀ c u, i = c :: u → p c = false) → Runs g a x i none) {rest : List Char} (hr : ∀ c u, rest = c :: u → p c = false)
    {t : List Char} (ht : t ≠ []) (h : ∀ c ∈ t, p c = true) : Runs g a (.plus x) (t ++ rest) (some ([], rest)) := by
  cases t with
  | nil => exact absurd rfl ht
  | cons c t =>
    exact Runs.seq (hx c (t ++ rest) (h c List.mem_cons_self)) (.gap_off ha) (.star_word ha hx hn hr fun d hd => h d (List.mem_cons_of_mem _ hd))

/-- A rule seen from outside an atomic rule gives a pair with its text. -/
theorem Runs.call_seen {r : R} {t rest : List Char} {ps : List (Pair R)} (hs : (g.kind r).seen a = true)
    (h : Runs g ((g.kind r).inside a) (g.body r) (t ++ rest) (some (ps, rest))) : Runs g a (.call r) (t ++ rest) (some ([.mk r t ps], rest)) := by
  have := h.call
  simpa [wrap, hs] using this

theorem Runs.call_hidden {r : R} {i rest : List Char} {ps : List (Pair R)} (hs : (g.kind r).seen a = false)
    (h : Runs g ((g.kind r).inside a) (g.body r) i (some (ps, rest))) : Runs g a (.call r) i (some (ps, rest)) := by
  have := h.call
  simpa [wrap, hs] using this

theorem Runs.call_none {r : R} {i : List Char} (h : Runs g ((g.kind r).inside a) (g.body r) i none) : Runs g a (.call r) i none := h.call

/-- Skipping, then repeating: what `rep (gap x)` takes, up to the skipping at the end. -/
theorem Runs.gap_star {x : Peg R} {i r r' : List Char} {ps : List (Pair R)} (h : Runs g a (.rep (.cat .gap x)) i (some (ps, r))) (hr : Runs g a .gap r (some ([], r')))
    (hr' : Runs g a .gap r' (some ([], r'))) (hx : Runs g a x r' none) (hps : ∀ i i' ps, Runs g a .gap i (some (ps, i')) → ps = []) :
    ∃ m m', Runs g a .gap i (some ([], m)) ∧ Runs g a (.star x) m (some (ps, m')) ∧ Runs g a .gap m' (some ([], r')) := by
  obtain ⟨f, h⟩ := h
  cases f with
  | zero => simp [run] at h
  | succ f =>
    rw [run] at h
    cases h1 : run g f a (.cat .gap x) i with
    | none => rw [h1] at h; simp at h
    | some p1 =>
      rw [h1] at h
      cases p1 with
      | none =>
        simp only [Option.some.injEq, Prod.mk.injEq] at h
        obtain ⟨rfl, rfl⟩ := h
        exact ⟨r', r', hr, .star_nil hx, hr'⟩
      | some p1 =>
        obtain ⟨qs, i1⟩ := p1
        simp only at h
        cases h2 : run g f a (.rep (.cat .gap x)) i1 with
        | none => rw [h2] at h; simp at h
        | some p2 =>
          rw [h2] at h
          cases p2 with
          | none => simp at h
          | some p2 =>
            obtain ⟨qs2, i2⟩ := p2
            simp only [Option.some.injEq, Prod.mk.injEq] at h
            obtain ⟨rfl, rfl⟩ := h
            cases f with
            | zero => simp [run] at h1
            | succ f =>
              rw [run] at h1
              cases h3 : run g f a .gap i with
              | none => rw [h3] at h1; simp at h1
              | some p3 =>
                rw [h3] at h1
                cases p3 with
                | none => simp at h1
                | some p3 =>
                  obtain ⟨ws, m⟩ := p3
                  simp only at h1
                  obtain rfl := hps _ _ _ ⟨f, h3⟩
                  cases h4 : run g f a x m with
                  | none => rw [h4] at h1; simp at h1
                  | some p4 =>
                    rw [h4] at h1
                    cases p4 with
                    | none => simp at h1
                    | some p4 =>
                      obtain ⟨us, m2⟩ := p4
                      simp only [List.nil_append, Option.some.injEq, Prod.mk.injEq] at h1
                      obtain ⟨rfl, rfl⟩ := h1
                      exact ⟨m, i2, ⟨f, h3⟩, .star_cons ⟨f, h4⟩ ⟨_, h2⟩, hr⟩

end Verif
