import Verif.Props.Reproducible
import Verif.Props.LookExamples
import Verif.Spec.Inline
/-!
# C74, C77, C84, C85: a program with a bound inline style
-/
namespace Verif

/-- `width: …px`. -/
def widthBlock (x : Rat) : List Declaration := [.property .Width [[.explicit (.dimension ⟨x, .px⟩)]]]

/-- A platform that reads two inline styles. -/
def widthPlatform : Platform :=
  { wholePlatform with inline := fun t => if t = "width:1px;" then some (widthBlock 1) else if t = "width:2px;" then some (widthBlock 2) else none }

/-- `<p @style="width:{w}px;">`. -/
def widthDoc : Html := .mk "html" [] none [.mk "body" [] none [.mk "p" [.attribute "style" [.string "width:", .binder (path1 "w"), .string "px;"]] none []]]
def widthFrames : List Frame := [⟨orderId, ⟨1, (800, 600), []⟩, .obj [("w", .str "1")]⟩, ⟨orderReverse, ⟨1, (800, 600), []⟩, .obj [("w", .str "2")]⟩]
def widthAgain : List Frame := [⟨orderReverse, ⟨1, (800, 600), []⟩, .obj [("w", .str "1")]⟩, ⟨orderId, ⟨1, (800, 600), []⟩, .obj [("w", .str "2")]⟩]

/-- Only `width` is declared, with one value. -/
def widthsOnly (l : List Declaration) : Bool := l.all fun
  | .property .Width [_] => true
  | _ => false

theorem widthsOnly_mem {l : List Declaration} (h : widthsOnly l = true) {x : Declaration} (hx : x ∈ l) : ∃ v, x = .property .Width [v] := by
  have := List.all_eq_true.1 h x hx
  split at this
  · exact ⟨_, rfl⟩
  · cases this

theorem widthsOnly_plain {l : List Declaration} (h : widthsOnly l = true) : ∀ x ∈ l, x.Still ∧ x.Singular := by
  intro x hx
  obtain ⟨v, rfl⟩ := widthsOnly_mem h hx
  refine ⟨?_, .inl (by simp)⟩
  show _ ∉ motionProperties
  simp [motionProperties]

theorem widthsOnly_smooth {l : List Declaration} (h : widthsOnly l = true) : SmoothBlock (fun _ => True) (fun _ => 0) l where
  ranked x hx := by obtain ⟨v, rfl⟩ := widthsOnly_mem h hx; trivial
  declares _ _ _ _ := trivial
  timed x hx := by obtain ⟨v, rfl⟩ := widthsOnly_mem h hx; simp [Declaration.Timed]
  animations names hx := by obtain ⟨v, e⟩ := widthsOnly_mem h hx; injection e with e; cases e
  transitions names hx := by obtain ⟨v, e⟩ := widthsOnly_mem h hx; injection e with e; cases e
  begins key hx := by
    obtain ⟨k, values, v, name, rest, h1, h2, -⟩ := hx
    obtain ⟨v, e⟩ := widthsOnly_mem h h1
    injection e with e; subst e
    rcases h2 with h2 | h2 <;> cases h2

def widthsAt (v : View) (k : Nat) : Bool :=
  match v.evalUpdates widthPlatform.inline 100 ((widthFrames.map (·.value)).take k) with
  | some (.ok v') => (List.range v'.stage.tree.next).all fun n => match v'.stage.tree.ctx n with
    | some e => widthsOnly e.style
    | none => true
  | _ => false

def widthOf (order : List Frame) : Option LengthPA :=
  match openApp widthPlatform 100 widthDoc lookCss with
  | .error _ => none
  | .ok a => match a.evalRun widthPlatform 100 order with
    | some (.ok (a', _)) => some (a'.layouts 2).width
    | _ => none

def widthCheck : Bool :=
  match openApp widthPlatform 100 widthDoc lookCss with
  | .error _ => false
  | .ok a => (List.range 3).all (widthsAt a.screen.view)

theorem widthCheck_true : widthCheck = true := by decide +kernel

theorem widthOf_first : widthOf (widthFrames.take 1) = some (.length 1) := by decide +kernel
theorem widthOf_last : widthOf widthFrames = some (.length 2) := by decide +kernel

theorem width_body : docBody widthDoc = .mk "body" [] none [.mk "p" [.attribute "style" [.string "width:", .binder (path1 "w"), .string "px;"]] none []] := rfl

/-- The conditions about inline styles of C74, C77, C84 and C85 are met by a bound style that is read as one width after the
first update and as another after the second, and not by the document itself; so what these updates show does not depend
on the order of hash maps. -/
theorem C84_bound_example : ¬ UnlistedDocument widthPlatform widthDoc ∧ ∃ a a1 a2 outs1 outs2, openApp widthPlatform 100 widthDoc lookCss = .ok a ∧
    SmoothStyles widthPlatform (fun _ => True) (fun _ => 0) widthDoc a (widthFrames.map (·.value)) ∧
    PlainStyles widthPlatform widthDoc a (widthFrames.map (·.value)) ∧ UnlistedStyles widthPlatform widthDoc a (widthFrames.map (·.value)) ∧
    a.run widthPlatform 100 (widthFrames.take 1) = .ok (a1, outs1) ∧ (a1.layouts 2).width = .length 1 ∧
    a.run widthPlatform 100 widthFrames = .ok (a2, outs2) ∧ (a2.layouts 2).width = .length 2 ∧ a.run widthPlatform 100 widthAgain = .ok (a2, outs2) := by
  constructor
  · intro h
    have := h.2.1
    rw [width_body] at this
    have := this _ (.child (by simp only [Html.children]; exact List.mem_singleton.2 rfl)) (.attribute "style" [.string "width:", .binder (path1 "w"), .string "px;"]) (by simp only [Html.bindings]; exact List.mem_singleton.2 rfl)
    exact this rfl
  have h := widthCheck_true
  have h1 := widthOf_first
  have h2 := widthOf_last
  unfold widthCheck at h
  unfold widthOf at h1 h2
  split at h
  · cases h
  rename_i a ha
  rw [ha] at h1 h2
  simp only at h1 h2
  split at h1
  case h_2 => cases h1
  rename_i a1 o1 r1
  split at h2
  case h_2 => cases h2
  rename_i a2 o2 r2
  have hl := Living.opened ha
  obtain ⟨σ, hop⟩ := openApp_opened ha
  have key : a.screen.view.InlineStyles widthPlatform.inline (fun _ b => widthsOnly b = true) (widthFrames.map (·.value)) := by
    have : ∀ k v', k ≤ 2 → a.screen.view.updates widthPlatform.inline ((widthFrames.map (·.value)).take k) = .ok v' →
        ∀ n e, v'.stage.tree.ctx n = some e → widthsOnly e.style = true := by
      intro k v' hk hv n e he
      have hc := List.all_eq_true.1 h k (List.mem_range.2 (by omega))
      unfold widthsAt at hc
      split at hc
      case h_2 => cases hc
      rename_i v2 e2
      have hv2 := View.evalUpdates_sound _ _ _ _ _ e2
      rw [hv] at hv2; injection hv2 with hv2; subst hv2
      obtain ⟨σ2, -, hkept⟩ := reached_kept (reached_updates _ (.opened hop.view) hv)
      have := List.all_eq_true.1 hc n (List.mem_range.2 (hkept.good.wf.exist n (by rw [he]; rfl)))
      rw [he] at this
      exact this
    intro k v' hv
    rcases Nat.le_total k 2 with hk | hk
    · exact this k v' hk hv
    · rw [List.take_of_length_le (by simpa [widthFrames] using hk)] at hv
      exact this 2 v' (by omega) hv
  have hun : UnlistedStyles widthPlatform widthDoc a (widthFrames.map (·.value)) :=
    .inr fun k v' hv n e he x hx => (widthsOnly_plain (key k v' hv n e he) x hx).2
  have hrun := App.evalRun_sound _ r2
  refine ⟨a, a1, a2, o1, o2, ha, .inr fun k v' hv n e he => widthsOnly_smooth (key k v' hv n e he),
    .inr fun k v' hv n e he => widthsOnly_plain (key k v' hv n e he), hun, App.evalRun_sound _ r1, Option.some.inj h1, hrun, Option.some.inj h2, ?_⟩
  refine (C84_reproducible_partial ha ⟨fun s hs => (lookCss_supported s hs).2, fun name an h => by cases h⟩ hun ?_).trans hrun
  exact .cons ⟨rfl, rfl, orderId_fair, orderReverse_fair, rfl⟩ (.cons ⟨rfl, rfl, orderReverse_fair, orderId_fair, rfl⟩ .nil)

end Verif
