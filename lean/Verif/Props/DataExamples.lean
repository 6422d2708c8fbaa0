import Verif.Props.Data
import Verif.Props.WholeExamples
/-!
# C101: examples
-/
namespace Verif
open Json Sheet

/-- The frames of `wholeFrames` with keys that the document does not mention, and with one it mentions left out where it was null. -/
def wholeFramesMore : List Frame := [⟨orderId, ⟨1 / 60, (800, 600), [.mouseMove (5, 5)]⟩, .obj [("secret", .bool true), ("name", .str "Bob"), ("xs", .null)]⟩,
  ⟨orderReverse, ⟨1 / 30, (1000, 700), [.mouseButtonDown .left]⟩, .obj [("xs", .arr [.str "a", .str "b"]), ("name", .str "Eve"), ("more", .obj [("xs", .arr [])])]⟩]

/-- The conditions of C101 are met: the program does the same with the other values. -/
theorem C101_example : ∃ a, openApp wholePlatform 100 wholeDoc (meaning wholeItems) = .ok a ∧ HasShape wholeShape a.screen.view.vm.model ∧
    NoPipedArrays wholeShape a.screen.view.vm.bindings ∧ a.screen.view.vm.bindings "/xs" ≠ [] ∧ List.Forall₂ (Frame.SameData wholeShape) wholeFrames wholeFramesMore ∧
    ∃ a' outs, a.run wholePlatform 100 wholeFrames = .ok (a', outs) ∧ a.run wholePlatform 100 wholeFramesMore = .ok (a', outs) := by
  have h : (match openApp wholePlatform 100 wholeDoc (meaning wholeItems) with
    | .ok a => decide (a.screen.view.vm.model = wholeBlank) && (a.screen.view.vm.bindings "/xs").all (fun b => b.pipe.isEmpty) &&
        !(a.screen.view.vm.bindings "/xs").isEmpty && match a.evalRun wholePlatform 100 wholeFrames with | some (.ok _) => true | _ => false
    | .error _ => false) = true := by decide +kernel
  split at h
  case h_2 => cases h
  rename_i a ha
  simp only [Bool.and_eq_true, decide_eq_true_eq, List.all_eq_true] at h
  obtain ⟨⟨⟨h1, h2⟩, h3⟩, h4⟩ := h
  have hs : HasShape wholeShape a.screen.view.vm.model := by rw [h1]; exact whole_shape.2.2
  have hp : NoPipedArrays wholeShape a.screen.view.vm.bindings := by
    intro q item v x hr b hb
    match q with
    | [] => simp [Shape.read, wholeShape] at hr
    | .idx i :: q => simp [Shape.read, wholeShape] at hr
    | .key k :: q =>
      simp only [Shape.read, wholeShape, Option.bind_eq_some_iff] at hr
      obtain ⟨sh, hk, hr⟩ := hr
      have hm := field_eq hk
      simp only [List.mem_cons, Prod.mk.injEq, List.not_mem_nil, or_false] at hm
      rcases hm with hm | hm
      · rw [hm.2] at hr; cases q <;> simp [Shape.read] at hr
      · obtain ⟨rfl, rfl⟩ := hm
        match q with
        | [] => have := h2 b hb; simpa using this
        | .key k :: q => simp [Shape.read] at hr
        | .idx i :: q =>
          simp only [Shape.read, Option.bind_eq_some_iff] at hr
          obtain ⟨y, -, hr⟩ := hr
          cases q <;> simp [Shape.read] at hr
  have hd : List.Forall₂ (Frame.SameData wholeShape) wholeFrames wholeFramesMore := by
    refine .cons ⟨rfl, rfl, ?_, ?_, ?_⟩ (.cons ⟨rfl, rfl, ?_, ?_, ?_⟩ .nil)
    case refine_3 | refine_6 =>
      simp only [wholeShape, wholeValue, Agree, AgreeFields, member, Json.get, items]
      simp
      try (intro i a b h1 h2; rw [h1] at h2; exact Option.some.inj h2)
    all_goals simp [wholeShape, wholeValue, Fits, FitsFields, member, Json.get, Scalar]
  split at h4
  case h_2 => cases h4
  rename_i r hr
  obtain ⟨a', outs⟩ := r
  have hrun := App.evalRun_sound _ hr
  exact ⟨a, ha, hs, hp, by simpa using h3, hd, a', outs, hrun, by
    rw [← C101_unmentioned_data_invisible ha whole_shape.1 whole_shape.2.1 hs hp hd]; exact hrun⟩

/-- A pipe that shows the `b` of the first item of an array. -/
def firstB : Json → Json
  | .arr (x :: _) => member x "b"
  | v => v

/-- `<p>{xs|first}</p><li *y="1 {xs}">{y.a}</li>`. -/
def pipedDoc : Html := .mk "html" [] none [.mk "body" [] none [.mk "p" [] none [.mk "" [] (some [.binder ⟨"xs", [], ["first"]⟩]) []],
  .mk "li" [.repeat "y" 1 (path1 "xs")] none [.mk "" [] (some [.binder ⟨"y", ["a"], []⟩]) []]]]
def pipedPlatform : Platform := { wholePlatform with transformers := fun n => if n = "first" then some firstB else none }
def pipedFrame (b : String) : Frame := ⟨orderId, {}, .obj [("xs", .arr [.obj [("a", .str "1"), ("b", .str b)], .obj []])]⟩

def pipedShown (b : String) : Option String :=
  match openApp pipedPlatform 100 pipedDoc ⟨[], fun _ => none⟩ with
  | .error _ => none
  | .ok a => match a.evalRun pipedPlatform 100 [pipedFrame b] with
    | some (.ok (a, _)) => (a.screen.view.draw 9).map Shown.print
    | _ => none

theorem pipedShown_run {b shown : String} (h : pipedShown b = some shown) : ∃ a a' outs, openApp pipedPlatform 100 pipedDoc ⟨[], fun _ => none⟩ = .ok a ∧
    a.run pipedPlatform 100 [pipedFrame b] = .ok (a', outs) ∧ (a'.screen.view.draw 9).map Shown.print = some shown := by
  unfold pipedShown at h
  split at h
  · cases h
  · rename_i a ha
    split at h
    · rename_i a' outs hr
      exact ⟨a, a', outs, ha, App.evalRun_sound _ hr, h⟩
    · cases h

/-- Why arrays in pipes are excepted in C101: `b` is mentioned nowhere in the document, and is shown. -/
theorem C101_piped_array_counterexample :
    (∃ a a' outs, openApp pipedPlatform 100 pipedDoc ⟨[], fun _ => none⟩ = .ok a ∧ a.run pipedPlatform 100 [pipedFrame "x"] = .ok (a', outs) ∧
      (a'.screen.view.draw 9).map Shown.print = some "<body><p>x</p><li>1</li></body>") ∧
    (∃ a a' outs, openApp pipedPlatform 100 pipedDoc ⟨[], fun _ => none⟩ = .ok a ∧ a.run pipedPlatform 100 [pipedFrame "y"] = .ok (a', outs) ∧
      (a'.screen.view.draw 9).map Shown.print = some "<body><p>y</p><li>1</li></body>") :=
  ⟨pipedShown_run (by decide +kernel), pipedShown_run (by decide +kernel)⟩

end Verif
