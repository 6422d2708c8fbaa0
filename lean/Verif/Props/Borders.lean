import Verif.View.Borders
import Verif.Props.CacheExamples
/-!
# C87: a border that is drawn has room in the layout
-/
namespace Verif

variable {p : Platform}

/-- **C87.** After every run of every program, for every element: if it shows a border on a side (`Borders::top` and so on
return one), the layout style the engine is given for it sets aside exactly the width of that border on that side. -/
theorem C87_room {fuel fuel' : Nat} {document : Html} {css : Css} {a a' : App} {fs : List Frame} {outs : List Output}
    (ho : openApp p fuel document css = .ok a) (hr : a.run p fuel' fs = .ok (a', outs)) {n : NodeId} {e : Element} (he : a'.screen.view.stage.tree.ctx n = some e) :
    (∀ b, e.borders.topEdge = some b → 0 < b.width ∧ (a'.layouts n).border.top = .length b.width) ∧
    (∀ b, e.borders.rightEdge = some b → 0 < b.width ∧ (a'.layouts n).border.right = .length b.width) ∧
    (∀ b, e.borders.bottomEdge = some b → 0 < b.width ∧ (a'.layouts n).border.bottom = .length b.width) ∧
    (∀ b, e.borders.leftEdge = some b → 0 < b.width ∧ (a'.layouts n).border.left = .length b.width) := by
  have h := roomy_run fs (Living.opened ho) hr (roomy_opened ho) n e he
  have key : ∀ (s : Side) (b : Border), (if 0 < (e.borders.side s).width then some (e.borders.side s) else none) = some b →
      0 < b.width ∧ (a'.layouts n).border.get s = .length b.width := by
    intro s b hb
    split at hb
    · rename_i hw
      injection hb with hb; subst hb
      refine ⟨hw, (h s).resolve_left fun h0 => ?_⟩
      rw [h0] at hw; exact absurd hw (by decide)
    · cases hb
  exact ⟨key .top, key .right, key .bottom, key .left⟩

/-- `p:hover{border-top-width:3px}`. -/
def rimCss : Css := ⟨[⟨[[.type "p", .pseudoClass "hover"]], [.property .BorderTopWidth [[.explicit (.dimension ⟨3, .px⟩)]]]⟩], fun _ => none⟩

/-- The border on top of the paragraph, and the room for it. -/
def App.rim (a : App) : Option (Option Border × LengthP) := (a.screen.view.stage.tree.ctx 2).map fun e => (e.borders.topEdge, (a.layouts 2).border.top)

def rimCheck (fs : List Frame) (r : Option (Option Border × LengthP)) : Bool :=
  match openApp fontPlatform 100 fadeDoc rimCss with
  | .error _ => false
  | .ok a => match a.evalRun fontPlatform 100 fs with
    | some (.ok (a1, _)) => decide (a1.rim = r)
    | _ => false

theorem rimCheck_sound {fs : List Frame} {r : Option (Option Border × LengthP)} (h : rimCheck fs r = true) :
    ∃ a a' outs, openApp fontPlatform 100 fadeDoc rimCss = .ok a ∧ a.run fontPlatform 100 fs = .ok (a', outs) ∧ a'.rim = r := by
  unfold rimCheck at h
  split at h
  · cases h
  · rename_i a ho
    split at h
    · rename_i a1 outs hr
      exact ⟨a, a1, outs, ho, App.evalRun_sound fs hr, of_decide_eq_true h⟩
    · cases h

/-- The hypotheses of `C87_room` are met with a border there is. -/
example : ∃ a a' outs e b, openApp fontPlatform 100 fadeDoc rimCss = .ok a ∧ a.run fontPlatform 100 [hoverFrame, stillFrame] = .ok (a', outs) ∧
    a'.screen.view.stage.tree.ctx 2 = some e ∧ e.borders.topEdge = some b ∧ b.width = 3 ∧ (a'.layouts 2).border.top = .length 3 := by
  obtain ⟨a, a', outs, h1, h2, h3⟩ := rimCheck_sound (fs := [hoverFrame, stillFrame]) (r := some (some ⟨3, ⟨0, 0, 0, 0⟩⟩, .length 3)) (by decide +kernel)
  unfold App.rim at h3
  obtain ⟨e, he, h3⟩ := Option.map_eq_some_iff.1 h3
  injection h3 with h3 h4
  exact ⟨a, a', outs, e, _, h1, h2, he, h3, rfl, h4⟩

/-- Finding for C87 (the converse is false): `p:hover{border-top-width:3px}`. After the pointer has left, no border is shown
any more, but the layout goes on setting its width aside. -/
theorem C87_room_stays : ∃ a a' outs e, openApp fontPlatform 100 fadeDoc rimCss = .ok a ∧
    a.run fontPlatform 100 [hoverFrame, stillFrame, awayFrame, stillFrame] = .ok (a', outs) ∧
    a'.screen.view.stage.tree.ctx 2 = some e ∧ e.borders.topEdge = none ∧ (a'.layouts 2).border.top = .length 3 := by
  obtain ⟨a, a', outs, h1, h2, h3⟩ := rimCheck_sound (fs := [hoverFrame, stillFrame, awayFrame, stillFrame]) (r := some (none, .length 3)) (by decide +kernel)
  unfold App.rim at h3
  obtain ⟨e, he, h3⟩ := Option.map_eq_some_iff.1 h3
  injection h3 with h3 h4
  exact ⟨a, a', outs, e, h1, h2, he, h3, h4⟩

end Verif
