import Verif.Peg.Words
/-!
# Expressions and the blanks after them
-/
namespace Verif
variable {R : Type} {g : Grammar R} {a : Atomicity}

/-- `x` matches, and skipping the blanks after it leads to `r`. -/
def Takes (g : Grammar R) (x : Peg R) (i : List Char) (ps : List (Pair R)) (r : List Char) (a : Atomicity := .nonAtomic) : Prop :=
  ∃ m, Runs g a x i (some (ps, m)) ∧ Runs g a .gap m (some ([], r))

theorem Takes.of {x : Peg R} {i m r : List Char} {ps} (h : Runs g a x i (some (ps, m))) (hg : Runs g a .gap m (some ([], r))) : Takes g x i ps r a := ⟨m, h, hg⟩

theorem Takes.seq {x y : Peg R} {i j r : List Char} {ps qs} (hx : Takes g x i ps j a) (hy : Takes g y j qs r a) : Takes g (.seq x y) i (ps ++ qs) r a := by
  obtain ⟨m, h1, h2⟩ := hx
  obtain ⟨m', h3, h4⟩ := hy
  exact ⟨m', h1.seq h2 h3, h4⟩

theorem Takes.seq_runs {x y : Peg R} {i j r : List Char} {ps qs} (hx : Takes g x i ps j a) (hy : Runs g a y j (some (qs, r))) :
    Runs g a (.seq x y) i (some (ps ++ qs, r)) := by
  obtain ⟨m, h1, h2⟩ := hx
  exact h1.seq h2 hy

theorem Takes.seq_none {x y : Peg R} {i j : List Char} {ps} (hx : Takes g x i ps j a) (hy : Runs g a y j none) : Runs g a (.seq x y) i none := by
  obtain ⟨m, h1, h2⟩ := hx
  exact h1.seq_right h2 hy

/-- `x` matches again and again, with blanks in between, and then does not. -/
inductive ManyIn (g : Grammar R) (a : Atomicity) (x : Peg R) : List Char → List (Pair R) → List Char → Prop
  | nil {r} : Runs g a x r none → Runs g a .gap r (some ([], r)) → ManyIn g a x r [] r
  | cons {i j r ps qs} : Takes g x i ps j a → ManyIn g a x j qs r → ManyIn g a x i (ps ++ qs) r

/-- The same where blanks are skipped. -/
abbrev Many (g : Grammar R) (x : Peg R) := ManyIn g .nonAtomic x

theorem ManyIn.rep {x : Peg R} {i r : List Char} {ps} (h : ManyIn g a x i ps r) : ∀ {m}, Runs g a .gap m (some ([], i)) →
    ∃ m', Runs g a (.rep (.cat .gap x)) m (some (ps, m')) ∧ Runs g a .gap m' (some ([], r)) := by
  induction h with
  | nil h1 _ => intro m hm; exact ⟨m, .rep_stop (hm.cat_right h1), hm⟩
  | cons h1 _ ih =>
    intro m hm
    obtain ⟨k, h2, h3⟩ := h1
    obtain ⟨m', h4, h5⟩ := ih h3
    refine ⟨m', ?_, h5⟩
    have := (hm.cat h2).rep_step h4
    simpa using this

theorem ManyIn.star {x : Peg R} {i r : List Char} {ps} (h : ManyIn g a x i ps r) : Takes g (.star x) i ps r a := by
  cases h with
  | nil h1 h2 => exact ⟨i, .star_nil h1, h2⟩
  | cons h1 h2 =>
    obtain ⟨k, h3, h4⟩ := h1
    obtain ⟨m', h5, h6⟩ := h2.rep h4
    exact ⟨m', .star_cons h3 h5, h6⟩

theorem ManyIn.plus {x : Peg R} {i j r : List Char} {ps qs} (h1 : Takes g x i ps j a) (h : ManyIn g a x j qs r) : Takes g (.plus x) i (ps ++ qs) r a := h1.seq h.star

/-- A rule that is seen gives one pair. -/
theorem Takes.call {r : R} {i j : List Char} {ps} (hk : (g.kind r).inside .nonAtomic = .nonAtomic) (hs : (g.kind r).seen .nonAtomic = true) (h : Takes g (g.body r) i ps j) :
    ∃ t, Takes g (.call r) i [.mk r t ps] j := by
  obtain ⟨m, h1, h2⟩ := h
  rw [← hk] at h1
  have := h1.call
  simp only [wrap, hs, if_true] at this
  exact ⟨_, m, this, h2⟩

theorem Runs.call_pair {a : Atomicity} {r : R} {i j : List Char} {ps} (hs : (g.kind r).seen a = true) (h : Runs g ((g.kind r).inside a) (g.body r) i (some (ps, j))) :
    ∃ t, Runs g a (.call r) i (some ([.mk r t ps], j)) := by
  have := h.call
  simp only [wrap, hs, if_true] at this
  exact ⟨_, this⟩

end Verif
