import Verif.Props.Fonts
import Verif.Props.IdleExamples
import Verif.Props.CacheExamples
import Verif.Props.InlineExamples
/-!
# C82, C84, C85: a program whose fonts are fixed
-/
namespace Verif

/-- The conditions are met by the program of C77 and C85: its `body` has a font size, the class of its `p` is bound to a value, and rules for this class and
for a hovered `p` give other properties. -/
theorem C82_example_fixed (a : App) (values : List Json) : FixedFonts wholePlatform lookDoc lookCss a values := by
  refine ⟨?_, ?_, fun name an h => (by cases h), .inl ⟨?_, everyNode_of 4 ?_ ?_ ?_⟩⟩
  · intro s hs
    simp only [lookCss, List.mem_cons, List.not_mem_nil, or_false] at hs
    rcases hs with rfl | rfl | rfl | rfl | rfl
    · right
      refine ⟨?_, ?_, ?_⟩
      · intro x hx
        simp only [List.mem_cons, List.not_mem_nil, or_false] at hx
        rcases hx with rfl | rfl
        · trivial
        · refine fun _ => ⟨by simp, ?_⟩
          intro value hv
          simp only [List.mem_singleton] at hv
          subst hv
          exact ⟨[.dimension ⟨20, .px⟩], rfl, by simp [ComputedValue.Windowless]⟩
      · simp
      · rintro key ⟨c, hc, x, hx, h⟩
        simp only [List.mem_singleton] at hc
        subst hc
        simp only [List.mem_singleton] at hx
        subst hx
        exact h.elim
    all_goals left; simp [Declaration.Fontless, fontProperties]
  · intro s hs
    simp only [lookCss, List.mem_cons, List.not_mem_nil, or_false] at hs
    rcases hs with rfl | rfl | rfl | rfl | rfl <;> simp [Declaration.FontsAside]
  · rw [look_body]; simp [Html.FixedFonts, Html.bindings]
  · rw [look_body]; simp [Html.depth]
  · rw [look_body]
    intro c hc
    simp only [Html.nodes, Html.children, List.flatMap_cons, List.flatMap_nil, List.append_nil, List.cons_append,
      List.nil_append, List.mem_cons, List.not_mem_nil, or_false] at hc
    rcases hc with rfl | rfl <;> simp [Html.FixedFonts, Html.bindings]
  · have : ((beforeBody lookDoc.children).filterMap Html.definition).map Prod.snd = [] := rfl
    rw [this]
    intro t ht
    cases ht

/-- It runs with a layout engine that keeps results: with what the engine recalls in both updates, the state is the one of an engine which recalls nothing. -/
theorem C82_example_fixed_run : ∃ a a1 outs r1 r2 m1, openApp wholePlatform 100 lookDoc lookCss = .ok a ∧
    Cached wholePlatform 100 a Memory.empty ((lookFrames.map fun f => f.recalling r1) ++ [lookLast.recalling r2]) a1 m1 outs ∧
    a.run wholePlatform 100 (lookFrames ++ [lookLast]) = .ok (a1, outs) := by
  have h := idleCheck_true
  unfold idleCheck at h
  split at h
  · cases h
  rename_i a ha
  split at h
  case h_2 => cases h
  rename_i a0 outs hr
  split at h
  case h_2 => cases h
  rename_i v hv
  split at h
  case h_2 => cases h
  rename_i a1 out hu
  clear h
  have hv' : a0.screen.view.update wholePlatform.inline lookLast.value = .ok v := by
    have := View.evalUpdates_sound _ _ _ _ _ hv
    simp only [View.updates] at this
    cases hx : a0.screen.view.update wholePlatform.inline lookLast.value with
    | error f => rw [hx] at this; cases this
    | ok w => rw [hx] at this; injection this with this; rw [this]
  have hu' : a0.update wholePlatform 100 lookLast.anew.order lookLast.input lookLast.value = .ok (a1, out) := by
    rw [App.update_rest, hv']; exact hu
  have hrun := App.evalRun_sound _ hr
  obtain ⟨f, hf⟩ : ∃ f, lookFrames = [f] := ⟨_, rfl⟩
  have hfo : f.anew = f ∧ f.order.Fair := by
    simp only [lookFrames, List.cons.injEq, and_true] at hf
    subst hf
    exact ⟨rfl, orderId_fair⟩
  rw [hf] at hrun ⊢
  have hrun' := hrun
  simp only [App.run] at hrun'
  cases hx : a.update wholePlatform 100 f.order f.input f.value with
  | error e => rw [hx] at hrun'; cases hrun'
  | ok q =>
  obtain ⟨b, o⟩ := q
  obtain ⟨r1, b1, m1, o1, c1⟩ := C82_engine_goes_on (last := f) ha .nil hx
  rw [List.nil_append] at c1
  have e1 := C82_fixed_fonts_partial ha (C82_example_fixed _ _) (by intro g hg; rw [List.mem_singleton.1 hg]; exact ⟨hfo.2.1, hfo.2.2⟩) c1
  rw [show ([({ f with order := { f.order with recall := r1 } } : Frame)].map Frame.anew) = [f.anew] from rfl, hfo.1, hrun] at e1
  simp only [Except.ok.injEq, Prod.mk.injEq] at e1
  obtain ⟨rfl, -⟩ := e1
  obtain ⟨r2, b2, m2, o2, c2⟩ := C82_engine_goes_on (last := lookLast) ha c1 (show a0.update wholePlatform 100 lookLast.order lookLast.input lookLast.value = .ok (a1, out) from hu')
  have e2 := C82_fixed_fonts_partial ha (C82_example_fixed _ _) (by
    intro g hg
    simp only [List.cons_append, List.nil_append, List.mem_cons, List.not_mem_nil, or_false] at hg
    rcases hg with rfl | rfl
    · exact ⟨hfo.2.1, hfo.2.2⟩
    · exact ⟨orderReverse_fair.1, orderReverse_fair.2⟩) c2
  rw [show ([({ f with order := { f.order with recall := r1 } } : Frame)] ++ [({ lookLast with order := { lookLast.order with recall := r2 } } : Frame)]).map Frame.anew
    = [f.anew] ++ [lookLast] from rfl, hfo.1] at e2
  exact ⟨a, b2, _, r1, r2, m2, ha, c2, e2⟩

/-! ## A transition and a bound inline style -/

/-- The body has a font size, and the width of `p` has a transition. -/
def glideCss : Css := ⟨[⟨[[.type "body"]], [.property .FontSize [[.explicit (.dimension ⟨20, .px⟩)]]]⟩,
  ⟨[[.type "p"]], [.property .TransitionProperty [[.explicit (.keyword "width")]], .property .TransitionDuration [[.explicit (.time 2)]],
    .property .TransitionTimingFunction [[.explicit (.keyword "linear")]]]⟩], fun _ => none⟩

def glideFrames : List Frame := widthFrames ++ [⟨orderId, ⟨1, (800, 600), []⟩, .obj [("w", .str "2")]⟩]

def glideAt (v : View) (k : Nat) : Bool :=
  match v.evalUpdates widthPlatform.inline 100 ((glideFrames.map (·.value)).take k) with
  | some (.ok v') => (List.range v'.stage.tree.next).all fun n => match v'.stage.tree.ctx n with
    | some e => widthsOnly e.style
    | none => true
  | _ => false

def glideCheck : Bool :=
  match openApp widthPlatform 100 widthDoc glideCss with
  | .error _ => false
  | .ok a => (List.range 4).all (glideAt a.screen.view) && match a.evalRun widthPlatform 100 glideFrames with
    | some (.ok (a', _)) => decide ((a'.layouts 2).width = .length (3 / 2))
    | _ => false

theorem glideCheck_true : glideCheck = true := by decide +kernel

/-- The conditions are met by a program whose `body` has a font size, and the width of whose `p` comes from a bound inline style and
has a transition. With a layout engine that keeps results, it shows the width halfway. -/
theorem C82_example_glide : ∃ a a' fs m outs, openApp widthPlatform 100 widthDoc glideCss = .ok a ∧
    FixedFonts widthPlatform widthDoc glideCss a (glideFrames.map (·.value)) ∧
    List.Forall₂ (fun f f' => ∃ recall, f' = f.recalling recall) glideFrames fs ∧
    Cached widthPlatform 100 a Memory.empty fs a' m outs ∧ (a'.layouts 2).width = .length (3 / 2) := by
  have h := glideCheck_true
  unfold glideCheck at h
  split at h
  · cases h
  rename_i a ha
  simp only [Bool.and_eq_true] at h
  obtain ⟨h, hw⟩ := h
  split at hw
  case h_2 => cases hw
  rename_i a' outs hr
  have hw := of_decide_eq_true hw
  obtain ⟨σ, hop⟩ := openApp_opened ha
  have key : a.screen.view.InlineStyles widthPlatform.inline (fun _ b => widthsOnly b = true) (glideFrames.map (·.value)) := by
    have : ∀ k v', k ≤ 3 → a.screen.view.updates widthPlatform.inline ((glideFrames.map (·.value)).take k) = .ok v' →
        ∀ n e, v'.stage.tree.ctx n = some e → widthsOnly e.style = true := by
      intro k v' hk hv n e he
      have hc := List.all_eq_true.1 h k (List.mem_range.2 (by omega))
      unfold glideAt at hc
      split at hc
      case h_2 => cases hc
      rename_i v2 e2
      have hv2 := View.evalUpdates_sound _ _ _ _ _ e2
      rw [hv] at hv2; injection hv2 with hv2; subst hv2
      obtain ⟨σ2, -, hkept⟩ := reached_kept (reached_updates _ (.opened hop.view) hv)
      have := List.all_eq_true.1 hc n (List.mem_range.2 (hkept.good.wf.exist n (by rw [he]; rfl)))
      rw [he] at this
      exact this
    intro k v' hv
    rcases Nat.le_total k 3 with hk | hk
    · exact this k v' hk hv
    · rw [List.take_of_length_le (by simpa [glideFrames, widthFrames] using hk)] at hv
      exact this 3 v' (by omega) hv
  have hfixed : FixedFonts widthPlatform widthDoc glideCss a (glideFrames.map (·.value)) := by
    refine ⟨?_, ?_, fun name an h => (by cases h), .inr ⟨fun _ => [], fun k v' hv n e he => ⟨fun x hx => ?_, ?_⟩⟩⟩
    · intro s hs
      simp only [glideCss, List.mem_cons, List.not_mem_nil, or_false] at hs
      rcases hs with rfl | rfl
      · right
        refine ⟨?_, ?_, ?_⟩
        · intro x hx
          simp only [List.mem_cons, List.not_mem_nil, or_false] at hx
          subst hx
          refine fun _ => ⟨by simp, ?_⟩
          intro value hv
          simp only [List.mem_singleton] at hv
          subst hv
          exact ⟨[.dimension ⟨20, .px⟩], rfl, by simp [ComputedValue.Windowless]⟩
        · simp
        · rintro key ⟨c, hc, x, hx, h⟩
          simp only [List.mem_singleton] at hc
          subst hc
          simp only [List.mem_singleton] at hx
          subst hx
          exact h.elim
      · left; simp [Declaration.Fontless, fontProperties]
    · intro s hs
      simp only [glideCss, List.mem_cons, List.not_mem_nil, or_false] at hs
      rcases hs with rfl | rfl
      · simp [Declaration.FontsAside]
      · intro x hx
        simp only [List.mem_cons, List.not_mem_nil, or_false] at hx
        rcases hx with rfl | rfl | rfl
        · intro _ value hv
          simp only [List.mem_singleton] at hv
          subst hv
          refine ⟨[.keyword "width"], rfl, fun name k hn hk => ?_⟩
          simp only [List.mem_singleton, ComputedValue.keyword.injEq] at hn
          subst hn
          have : PropertyKey.parse "width" = some .Width := by decide +kernel
          rw [this] at hk
          have := Option.some.inj hk
          subst this
          simp [fontProperties, motionProperties]
        · intro h; rcases h with h | h <;> cases h
        · intro h; rcases h with h | h <;> cases h
    · obtain ⟨v, rfl⟩ := widthsOnly_mem (key k v' hv n e he) hx
      exact ⟨fun hk => (by simp [fontProperties] at hk), fun hk => (by rcases hk with hk | hk <;> cases hk)⟩
    · refine List.filter_eq_nil_iff.2 fun x hx => ?_
      obtain ⟨v, rfl⟩ := widthsOnly_mem (key k v' hv n e he) hx
      simp [Declaration.aboutFonts, fontProperties]
  have hrun := App.evalRun_sound _ hr
  have hfair : ∀ f ∈ glideFrames, f.order.Fair := by
    intro f hf
    simp only [glideFrames, widthFrames, List.cons_append, List.nil_append, List.mem_cons, List.not_mem_nil, or_false] at hf
    rcases hf with rfl | rfl | rfl
    · exact orderId_fair
    · exact orderReverse_fair
    · exact orderId_fair
  obtain ⟨fs, m, h1, h2⟩ := C82_fixed_fonts_runs ha hfixed hfair (show a.run widthPlatform 100 (glideFrames.map Frame.anew) = _ from hrun)
  exact ⟨a, a', fs, m, outs, ha, hfixed, h1, h2, hw⟩

end Verif
