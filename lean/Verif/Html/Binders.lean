import Verif.Html.Words
import Verif.Peg.Takes
/-!
# Written binders are read back
-/
namespace Verif
open Written

local notation "H" => htmlGrammar

theorem keyChar_plain {c : Char} (h : isKeyChar c = true) : isBlank c = false ∧ c ≠ '<' := by
  refine ⟨?_, ?_⟩
  · cases hb : isBlank c with
    | false => rfl
    | true =>
      exfalso
      simp only [isBlank, Bool.or_eq_true, beq_iff_eq] at hb
      rcases hb with ((rfl | rfl) | rfl) | rfl <;> revert h <;> decide
  · rintro rfl; revert h; decide

theorem key_solid {t r : List Char} (h : IsWord isKeyChar t) : Solid (t ++ r) := by
  obtain ⟨h1, h2⟩ := h
  cases t with
  | nil => exact absurd rfl h1
  | cons c t => obtain ⟨h3, h4⟩ := keyChar_plain (h2 c List.mem_cons_self); exact solid_cons h3 h4

/-- Words end where blanks start. -/
theorem blanks_ends {p : Char → Bool} (hb : ∀ c, isBlank c = true → p c = false) (hlt : p '<' = false) {b r : List Char} (h : Blanks b) (hr : Ends p r) : Ends p (b ++ r) := by
  cases h with
  | nil => exact hr
  | space h1 _ => intro c u e; injection e with e _; subst e; exact hb _ h1
  | comment h1 _ =>
    intro c u e
    have : c = '<' := by
      have e' := congrArg List.head? e
      simp at e'
      exact e'.symm
    subst this; exact hlt

theorem key_ends_blank : ∀ c, isBlank c = true → isKeyChar c = false := fun c h => by
  cases hk : isKeyChar c with
  | false => rfl
  | true => rw [(keyChar_plain hk).1] at h; cases h

theorem ends_cons {p : Char → Bool} {c : Char} {t : List Char} (h : p c = false) : Ends p (c :: t) := fun d u e => by injection e with e _; exact e ▸ h
theorem ends_nil {p : Char → Bool} : Ends p [] := fun d u e => by cases e

theorem runs_word1 {a : Atomicity} {s : String} {d : Char} (hs : s.toList = [d]) {i : List Char} : Runs H a (Peg.word s) (d :: i) (some ([], i)) := (char_word hs).1 rfl
theorem runs_word1_none {a : Atomicity} {s : String} {d : Char} (hs : s.toList = [d]) {i : List Char} (h : ∀ c u, i = c :: u → c ≠ d) : Runs H a (Peg.word s) i none := by
  cases i with
  | nil => exact (char_word (c := d) (i := []) hs).2.2
  | cons c i => exact (char_word hs).2.1 (h c i rfl)

theorem tail_many {ks : List String} {t : List Char} (h : Tail ks t) {r : List Char} (hs : Solid r) (hr : Ends isKeyChar r) (hd : ∀ c u, r = c :: u → c ≠ '.') :
    ∀ {b : List Char}, Blanks b → ∃ b' i' ps, t ++ (b ++ r) = b' ++ i' ∧ Blanks b' ∧ Solid i' ∧ Ends isKeyChar i' ∧
      Many H (.seq (Peg.word ".") (.call .key)) i' ps r ∧ ps.map Pair.str = ks := by
  induction h with
  | nil => intro b hb; exact ⟨b, r, [], rfl, hb, hs, hr, .nil (Runs.seq_left (runs_word1_none rfl hd)) (runs_gap0 hs), rfl⟩
  | @cons k ks b1 b2 t h1 h2 h3 _ ih =>
    intro b hb
    obtain ⟨b', i', ps, e, hb', hs', he', hm, hp⟩ := ih hb
    refine ⟨b1, '.' :: (b2 ++ (k.toList ++ (b' ++ i'))), [.mk .key k.toList []] ++ ps, by simp [← e], h1, solid_cons (by decide) (by decide), ends_cons (by decide), ?_, by simp [Pair.str, hp]⟩
    refine .cons (ps := [.mk .key k.toList []]) ?_ hm
    have a1 : Takes H (Peg.word ".") ('.' :: (b2 ++ (k.toList ++ (b' ++ i')))) [] (k.toList ++ (b' ++ i')) := .of (runs_word1 rfl) (runs_gap (key_solid h3) h2)
    have a2 : Takes H (.call .key) (k.toList ++ (b' ++ i')) [.mk .key k.toList []] i' := .of (runs_key h3 (blanks_ends key_ends_blank (by decide) hb' he')) (runs_gap hs' hb')
    exact a1.seq a2

theorem runs_getter {head : String} {tail : List String} {t b r : List Char} (hh : IsWord isKeyChar head.toList) (ht : Tail tail t) (hb : Blanks b) (hs : Solid r)
    (hr : Ends isKeyChar r) (hd : ∀ c u, r = c :: u → c ≠ '.') :
    ∃ x ps, Takes H (.call .getter) (head.toList ++ (t ++ (b ++ r))) [.mk .getter x ps] r ∧ ps.map Pair.str = head :: tail := by
  obtain ⟨b', i', ps, e, hb', hs', he', hm, hp⟩ := tail_many ht hs hr hd hb
  have a1 : Takes H (.call .key) (head.toList ++ (b' ++ i')) [.mk .key head.toList []] i' := .of (runs_key hh (blanks_ends key_ends_blank (by decide) hb' he')) (runs_gap hs' hb')
  have a2 : Takes H (htmlBody .getter) (head.toList ++ (b' ++ i')) ([.mk .key head.toList []] ++ ps) r := a1.seq hm.star
  obtain ⟨x, hx⟩ := Takes.call (r := HtmlRule.getter) rfl rfl a2
  exact ⟨x, _, by rw [e]; exact hx, by simp [Pair.str, hp]⟩

theorem runs_transformer {k r : List Char} (hk : IsWord isKeyChar k) (hs : Solid r) (hr : Ends isKeyChar r) (hd : ∀ c u, r = c :: u → c ≠ ':') :
    Takes H (.call .transformer) (k ++ r) [.mk .transformer k [.mk .key k []]] r := by
  refine .of (Runs.call_seen (ps := [.mk HtmlRule.key k []]) rfl ?_) (runs_gap0 hs)
  have := (runs_key hk hr).seq (runs_gap0 hs) (Runs.star_nil (x := .seq (Peg.word ":") (.call .getter)) (Runs.seq_left (runs_word1_none rfl hd)))
  exact this

theorem pipe_many {ks : List String} {u : List Char} (h : Pipe ks u) (rest : List Char) :
    ∃ ps c v, u ++ '}' :: rest = c :: v ∧ (c = '|' ∨ c = '}') ∧ Many H (.seq (Peg.word "|") (.call .transformer)) (u ++ '}' :: rest) ps ('}' :: rest) ∧
      ∀ path pipe, binderParts ps (path, pipe) = some (path, pipe ++ ks) := by
  induction h with
  | nil => exact ⟨[], '}', rest, rfl, .inr rfl, .nil (Runs.seq_left (runs_word1_none (d := '|') rfl (by simp))) (runs_gap0 (solid_cons (by decide) (by decide))), by simp [binderParts]⟩
  | @cons k ks b t h1 h2 _ ih =>
    obtain ⟨ps, c, v, e, hc, hm, hp⟩ := ih
    have hsol : Solid (t ++ '}' :: rest) := by rw [e]; rcases hc with rfl | rfl <;> exact solid_cons (by decide) (by decide)
    have hend : Ends isKeyChar (t ++ '}' :: rest) := by rw [e]; rcases hc with rfl | rfl <;> exact ends_cons (by decide)
    have hcol : ∀ c u, t ++ '}' :: rest = c :: u → c ≠ ':' := by
      intro d w e2; rw [e] at e2; injection e2 with e2 _; subst e2; rcases hc with rfl | rfl <;> decide
    refine ⟨[.mk .transformer k.toList [.mk .key k.toList []]] ++ ps, '|', b ++ k.toList ++ t ++ '}' :: rest, by simp, .inl rfl, ?_, ?_⟩
    · have a1 : Takes H (Peg.word "|") ('|' :: (b ++ (k.toList ++ (t ++ '}' :: rest)))) [] (k.toList ++ (t ++ '}' :: rest)) := .of (runs_word1 rfl) (runs_gap (key_solid h2) h1)
      have := ManyIn.cons (a1.seq (runs_transformer h2 hsol hend hcol)) hm
      simpa using this
    · intro path pipe
      have := hp path (pipe ++ [k])
      simp [binderParts, this]

/-- A binder is read back, whatever follows. -/
theorem runs_binder {b : Binder} {t : List Char} (h : BinderText b t) (rest : List Char) (a : Atomicity) :
    ∃ p, Runs H a (.call .binder) (t ++ rest) (some ([p], rest)) ∧ p.rule = .binder ∧ readBinder p = some b := by
  cases h with
  | @mk b1 b2 t u h1 h2 h3 h4 h5 =>
    obtain ⟨ps, c, v, e, hc, hm, hp⟩ := pipe_many h5 rest
    have hsol : Solid (u ++ '}' :: rest) := by rw [e]; rcases hc with rfl | rfl <;> exact solid_cons (by decide) (by decide)
    have hend : Ends isKeyChar (u ++ '}' :: rest) := by rw [e]; rcases hc with rfl | rfl <;> exact ends_cons (by decide)
    have hdot : ∀ c w, u ++ '}' :: rest = c :: w → c ≠ '.' := by
      intro d w e2; rw [e] at e2; injection e2 with e2 _; subst e2; rcases hc with rfl | rfl <;> decide
    obtain ⟨x, qs, hg, hq⟩ := runs_getter h3 h4 h2 hsol hend hdot
    have a1 : Takes H (Peg.word "{") ('{' :: (b1 ++ (b.head.toList ++ (t ++ (b2 ++ (u ++ '}' :: rest)))))) [] (b.head.toList ++ (t ++ (b2 ++ (u ++ '}' :: rest)))) :=
      .of (runs_word1 rfl) (runs_gap (key_solid h3) h1)
    have a2 : Runs H .nonAtomic (htmlBody .binder) ('{' :: (b1 ++ (b.head.toList ++ (t ++ (b2 ++ (u ++ '}' :: rest)))))) (some ([] ++ ([.mk .getter x qs] ++ (ps ++ [])), rest)) :=
      a1.seq_runs (hg.seq_runs (hm.star.seq_runs (runs_word1 rfl)))
    obtain ⟨y, hy⟩ := Runs.call_pair (g := htmlGrammar) (a := a) (r := HtmlRule.binder) (by cases a <;> rfl) (show Runs H ((htmlGrammar.kind .binder).inside a) (htmlGrammar.body .binder) _ _ by cases a <;> exact a2)
    refine ⟨_, by simpa using hy, rfl, ?_⟩
    simp [readBinder, Pair.inner, binderParts, hp, hq]

theorem runs_binder_none {a : Atomicity} {i : List Char} (h : ∀ c u, i = c :: u → c ≠ '{') : Runs H a (.call .binder) i none :=
  Runs.call_none (Runs.seq_left (runs_word1_none rfl h))

theorem binder_head {b : Binder} {t : List Char} (h : BinderText b t) : ∃ u, t = '{' :: u := by cases h; exact ⟨_, rfl⟩

end Verif
