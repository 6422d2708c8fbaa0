import Verif.ViewModel.Duration
import Verif.Props.Live
/-!
# C89: the `duration` pipe
-/
namespace Verif
open Json

variable {inline : String → Option (List Declaration)}

/-! ### the text of a number of nanoseconds -/

theorem fmtDecimal_text (whole fraction divisor : Nat) (unit : String) :
    fmtDecimal whole fraction divisor unit = toString whole ++
      (if fractionDigits 9 fraction divisor = [] then "" else
        "." ++ String.join ((fractionDigits 9 fraction divisor).map fun d => toString d)) ++ unit := by
  unfold fmtDecimal
  cases h : fractionDigits 9 fraction divisor with
  | nil => simp
  | cons d ds => simp [String.append_assoc]

theorem splitDecimal_text (n k : Nat) (unit : TimeUnit) (hk : k < 9) (hu : unit.nanos = 10 ^ (k + 1)) (hn : 10 ^ (k + 1) ≤ n)
    (hl : ∀ u : TimeUnit, u.nanos ≤ n → u.nanos ≤ unit.nanos) :
    DurationText (fmtDecimal (n / 10 ^ (k + 1)) (n % 10 ^ (k + 1)) (10 ^ k) unit.sign) n (n / 10 ^ (k + 1))
      (fractionDigits 9 (n % 10 ^ (k + 1)) (10 ^ k)) unit := by
  obtain ⟨h1, h2, h3⟩ := fractionDigits_ok k 9 (n % 10 ^ (k + 1)) hk (Nat.mod_lt _ (Nat.pos_of_ne_zero (by simp)))
  refine ⟨fmtDecimal_text _ _ _ _, h2, h3, ?_, hl, .inl (hu ▸ hn)⟩
  rw [h1, hu]
  have : (n : Rat) = 10 ^ (k + 1) * (n / 10 ^ (k + 1) : Nat) + (n % 10 ^ (k + 1) : Nat) := by
    exact_mod_cast (Nat.div_add_mod n (10 ^ (k + 1))).symm
  have hne : (10 : Rat) ^ (k + 1) ≠ 0 := by positivity
  push_cast
  push_cast at this
  field_simp
  linarith

theorem debugDuration_text (n : Nat) : ∃ whole digits unit, DurationText (debugDuration n) n whole digits unit := by
  unfold debugDuration
  split
  · rename_i h
    refine ⟨_, _, .s, splitDecimal_text n 8 .s (by omega) rfl (by omega) ?_⟩
    intro u hu; cases u <;> simp [TimeUnit.nanos]
  · split
    · refine ⟨_, _, .ms, splitDecimal_text n 5 .ms (by omega) rfl (by omega) ?_⟩
      intro u hu; cases u <;> simp [TimeUnit.nanos] at hu ⊢; omega
    · split
      · refine ⟨_, _, .us, splitDecimal_text n 2 .us (by omega) rfl (by omega) ?_⟩
        intro u hu; cases u <;> simp [TimeUnit.nanos] at hu ⊢ <;> omega
      · refine ⟨n, [], .ns, by rw [fmtDecimal_text]; simp [fractionDigits, TimeUnit.sign], by simp, by simp,
          by simp [afterPoint, TimeUnit.nanos], ?_, ?_⟩
        · intro u hu; cases u <;> simp [TimeUnit.nanos] at hu ⊢ <;> omega
        · simp [TimeUnit.nanos]; omega

/-! ### the pipe -/

/-- C89 (part: not for negative numbers and not beyond 2^64 seconds): a number of seconds becomes the text of a
duration that differs from it by no more than half a nanosecond. -/
theorem C89_number_partial (x : Num) (h0 : 0 ≤ x.asF64) (h1 : x.asF64 ≤ 2 ^ 64 - 1) :
    ∃ text n whole digits unit, durationPipe (.num x) = some (.str text) ∧ DurationText text n whole digits unit ∧
      |x.asF64 * 1000000000 - n| ≤ 1 / 2 := by
  have hq : (0 : Rat) ≤ x.asF64 * 10 ^ 9 := by positivity
  have hn := nearest_near hq
  have hlt : nearest (x.asF64 * 10 ^ 9) / 10 ^ 9 < 2 ^ 64 := by
    rw [Nat.div_lt_iff_lt_mul (by norm_num)]
    have h2 := (abs_le.1 hn).1
    have : ((nearest (x.asF64 * 10 ^ 9) : Nat) : Rat) < ((2 ^ 64 * 10 ^ 9 : Nat) : Rat) := by
      push_cast
      have : x.asF64 * 10 ^ 9 ≤ (2 ^ 64 - 1) * 10 ^ 9 := by
        apply mul_le_mul_of_nonneg_right h1; norm_num
      have h4 : (18446744073709551616000000000 : Rat) = (2 ^ 64 - 1) * 10 ^ 9 + 10 ^ 9 := by norm_num
      have h5 : (1 / 2 : Rat) < 10 ^ 9 := by norm_num
      rw [h4]
      generalize (nearest (x.asF64 * 10 ^ 9) : Rat) = m at *
      generalize x.asF64 * 10 ^ 9 = y at *
      linarith
    exact_mod_cast this
  obtain ⟨whole, digits, unit, ht⟩ := debugDuration_text (nearest (x.asF64 * 10 ^ 9))
  refine ⟨_, _, whole, digits, unit, ?_, ht, by norm_num at hn ⊢; exact hn⟩
  simp only [durationPipe, Json.asF64, fromSecs, if_neg (not_lt.2 h0), if_pos hlt, Option.map_some]

/-- C89: whatever is not a number goes through the pipe as it is. -/
theorem C89_other (v : Json) (h : ∀ x, v ≠ .num x) : durationPipe v = some v := by
  cases v with
  | num x => exact absurd rfl (h x)
  | _ => rfl

/-- C89, counterexample: the pipe panics on every negative number. -/
theorem C89_negative_counterexample (x : Num) (h : x.asF64 < 0) : durationPipe (.num x) = none := by
  simp [durationPipe, Json.asF64, fromSecs, h]

/-- C89: a view has the pipe without being given one, until it is given another of that name; pipes of other names do
not touch it. -/
theorem C89_registered (name : String) (f : Json → Json) (v w : Json) (h : durationPipe v = some w) :
    applyPipe defaultTransformers ["duration"] v = w ∧
    applyPipe (defaultTransformers.pipe name f) ["duration"] v = (if name = "duration" then f v else w) ∧
    applyPipe (defaultTransformers.pipe name f) [name] v = f v := by
  refine ⟨by simp [applyPipe, defaultTransformers, h], ?_, by simp [applyPipe, Transformers.pipe]⟩
  by_cases hn : name = "duration"
  · simp [applyPipe, Transformers.pipe, hn]
  · simp [applyPipe, Transformers.pipe, hn, Ne.symm hn, defaultTransformers, h]

/-- C89 (part): a text span written `{place|duration}` over a number of seconds shows, after any fitting updates, that
duration. -/
theorem C89_shown_partial {translate fuel document s vs w v0 v}
    (h : FittingView translate inline defaultTransformers fuel document s (vs ++ [w]) v0 v)
    {p : List Tok} {b : Binding} (hb : b ∈ v0.vm.bindings (ptr p)) {n : NodeId} {i : Nat}
    (hp : b.params = .text n i) (hpipe : b.pipe = ["duration"]) {x : Num} (hx : s.read w p = some (.leaf, .num x))
    (h0 : 0 ≤ x.asF64) (h1 : x.asF64 ≤ 2 ^ 64 - 1) :
    ∃ text nanos whole digits unit, v.spanText n i = some text ∧ DurationText text nanos whole digits unit ∧
      |x.asF64 * 1000000000 - nanos| ≤ 1 / 2 := by
  obtain ⟨text, nanos, whole, digits, unit, k1, k2, k3⟩ := C89_number_partial x h0 h1
  refine ⟨text, nanos, whole, digits, unit, ?_, k2, k3⟩
  rw [C18_text_shows_value h hb hp hx (by simp), hpipe, (C89_registered "" id _ _ k1).1]
  rfl

example : durationPipe (.num (.float (3 / 2))) = some (.str "1.5s") := by decide +kernel
example : durationPipe (.num (.float (225 / 100000000))) = some (.str "2.25µs") := by decide +kernel
example : durationPipe (.num (.int 0)) = some (.str "0ns") := by decide +kernel

/-- `<body><p>{t|duration}</p></body>`: node 3 is the text. -/
def durationDoc : Html := .mk "" [] none [.mk "body" [] none [
  .mk "p" [] none [.mk "" [] (some [.binder ⟨"t", [], ["duration"]⟩]) []]]]

/-- The hypotheses of `C89_shown_partial` are met: after `t = 1.5` the text shows `1.5s`. -/
example : ∃ v0 v, FittingView id (fun _ => none) defaultTransformers 20 durationDoc (.obj [("t", .leaf)])
      ([.obj []] ++ [.obj [("t", .num (.float (3 / 2)))]]) v0 v ∧
    ⟨.text 3 0, ["duration"]⟩ ∈ v0.vm.bindings (ptr [.key "t"]) ∧
    (Shape.obj [("t", .leaf)]).read (.obj [("t", .num (.float (3 / 2)))]) [.key "t"] = some (.leaf, .num (.float (3 / 2))) ∧
    v.spanText 3 0 = some "1.5s" := by
  have h : (match openView id (fun _ => none) defaultTransformers 20 durationDoc with
      | .error _ => false
      | .ok v0 => decide (v0.vm.model = .obj [("t", .null)] ∧ ⟨.text 3 0, ["duration"]⟩ ∈ v0.vm.bindings "/t") &&
        match v0.evalUpdates (fun _ => none) 20 [.obj [], .obj [("t", .num (.float (3 / 2)))]] with
        | some (.ok v) => decide (v.spanText 3 0 = some "1.5s")
        | _ => false) = true := by decide +kernel
  cases ho : openView id (fun _ => none) defaultTransformers 20 durationDoc with
  | error e => rw [ho] at h; simp at h
  | ok v0 =>
    rw [ho] at h
    simp only [Bool.and_eq_true, decide_eq_true_eq] at h
    obtain ⟨⟨h1, h2⟩, h3⟩ := h
    cases he : v0.evalUpdates (fun _ => none) 20 [.obj [], .obj [("t", .num (.float (3 / 2)))]] with
    | none => rw [he] at h3; simp at h3
    | some r =>
      rw [he] at h3
      cases r with
      | error f => simp at h3
      | ok v =>
        refine ⟨v0, v, ⟨ho, ?_, ?_, ?_, ?_, View.evalUpdates_sound _ _ _ _ _ he⟩, h2, rfl, by simpa using h3⟩
        · simp [Shape.Ok, Shape.OkFields, SlashFree]
        · simp [Shape.NoArrArr, Shape.NoArrArrFields]
        · rw [h1]; simp [HasShape, HasFields, Scalar]
        · simp [Fits, FitsFields, member, Json.get, Scalar]

end Verif
