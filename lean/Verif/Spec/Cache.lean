import Verif.View.Cache
/-!
# Specification vocabulary for C82: layouts that are up to date
-/
namespace Verif

/-- The same but for the font of a text. -/
structure Measured.Like (c d : Measured) : Prop where
  layout : c.layout = d.layout
  kids : c.kids = d.kids
  text : c.text.map Prod.fst = d.text.map Prod.fst

/-- What the layout engine would read of a node of the program. -/
def App.content (a : App) (n : NodeId) : Measured := (⟨a.screen.view.stage.tree, a.layouts⟩ : Styled).content n

/-- The texts that are displayed have these fonts. -/
def App.Faces (face : NodeId → FontFace) (a : App) : Prop :=
  ∀ n e, Displayed a.screen.view.stage.tree a.screen.view.body n → a.screen.view.stage.tree.ctx n = some e → e.text.isSome → e.font = face n

/-- Whenever a text is displayed in the run, it has the same font. -/
def SteadyFonts (p : Platform) (fuel : Nat) (a : App) (fs : List Frame) : Prop :=
  ∃ face, ∀ before f after, fs = before ++ f :: after → ∀ b outs, a.run p fuel (before ++ [f]) = .ok (b, outs) → b.Faces face

/-- The frame with a layout engine that computes everything again. -/
def Frame.anew (f : Frame) : Frame := { f with order := { f.order with recall := fun _ => none } }

/-- The frame with an engine that recalls `r`. -/
def Frame.recalling (f : Frame) (r : NodeId → Option Measured) : Frame := { f with order := { f.order with recall := r } }

end Verif
