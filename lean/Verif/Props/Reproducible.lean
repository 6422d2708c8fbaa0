import Verif.Spec.Reproducible
import Verif.View.Unmoved
import Verif.Props.Cache
/-!
# C84: a program does the same every time
-/
namespace Verif

variable {p : Platform}

/-- Inline styles without lists. -/
def unlistedManner : Manner where
  free := True
  block b := ∀ x ∈ b, x.Singular
  animator _ := True
  transition _ := True
  none := by intro x hx; cases hx

/-- Between updates, before updates with `values`. -/
structure Unlisted (p : Platform) (fuel : Nat) (document : Html) (a : App) (values : List Json) : Prop where
  living : Living p fuel document a
  fed : Fed p fuel document (fun _ => unlistedManner.block) a values
  rules : ∀ n, ∀ r ∈ a.kept n, ∀ x ∈ r.rule.declaration, x.Singular
  keyframes : ∀ name an, a.css.animations name = some an → ∀ k ∈ an.keyframes, ∀ x ∈ k.declaration, x.Singular

theorem unlistedStyle_calm (inline : String → Option (List Declaration)) : Html.UnlistedStyle inline = CalmHtml inline unlistedManner.strict := by
  funext h
  unfold Html.UnlistedStyle CalmHtml
  refine propext (forall₂_congr fun b _ => ?_)
  cases b with
  | «attribute» key spans => exact ⟨.inr, fun h => h.resolve_left id⟩
  | _ => exact Iff.rfl

theorem UnlistedStyles.styles {fuel : Nat} {document : Html} {css : Css} {a : App} (ho : openApp p fuel document css = .ok a) {values : List Json}
    (hd : UnlistedStyles p document a values) : a.screen.view.InlineStyles p.inline (fun _ => unlistedManner.block) values := by
  rcases hd with hd | hd
  · unfold UnlistedDocument at hd
    rw [unlistedStyle_calm] at hd
    exact static_styles (G := unlistedManner) ho hd values
  · exact hd

theorem Unlisted.opened {fuel : Nat} {document : Html} {css : Css} {a : App} (h : openApp p fuel document css = .ok a) (hc : css.Unlisted)
    {values : List Json} (hd : UnlistedStyles p document a values) : Unlisted p fuel document a values := by
  obtain ⟨σ, ho⟩ := openApp_opened h
  exact ⟨.opened h, .opened ho (hd.styles h), fun n r hr => hc.1 _ (openApp_rules ho n r hr), by rw [ho.sheet]; exact hc.2⟩

theorem Unlisted.updated {fuel fuel' : Nat} {document : Html} {a a' : App} {value : Json} {values : List Json} (h : Unlisted p fuel document a (value :: values)) {order : FrameOrder} {input : Input}
    {out : Output} (hu : a.update p fuel' order input value = .ok (a', out)) : Unlisted p fuel document a' values := by
  obtain ⟨v, styled, tree, t', ui, g1, g2, g3, g4, g5⟩ := update_parts hu
  refine ⟨h.living.updated hu, h.fed.updated h.living.session hu, ?_, ?_⟩
  · rw [g5]; exact h.rules
  · rw [g5]; exact h.keyframes

/-- **C84.** One update, in any state of the program, comes to the same end, good or bad, in whatever order its hash maps are
iterated. -/
theorem Unlisted.update_again {fuel fuel' : Nat} {document : Html} {a : App} {f f' : Frame} {values : List Json} (h : Unlisted p fuel document a (f.value :: values)) (hf : f.Again f') :
    a.update p fuel' f'.order f'.input f'.value = a.update p fuel' f.order f.input f.value := by
  rw [hf.input, hf.value]
  unfold App.update
  cases hv : a.screen.view.update p.inline f.value with
  | error e => rfl
  | ok v =>
    simp only
    have : styleView (a.env p fuel' f'.order f.input.time) fuel' v.body f.input.viewport ⟨v.stage.tree, upd a.layouts v.root (resizeRoot f.input.viewport (a.layouts v.root))⟩ =
        styleView (a.env p fuel' f.order f.input.time) fuel' v.body f.input.viewport ⟨v.stage.tree, upd a.layouts v.root (resizeRoot f.input.viewport (a.layouts v.root))⟩ :=
      C47_order_irrelevant_partial (env := a.env p fuel' f'.order f.input.time) (env' := a.env p fuel' f.order f.input.time) ⟨rfl, rfl, rfl, rfl, rfl, hf.fair', hf.fair⟩ fuel' v.body f.input.viewport _ h.rules h.keyframes
        (h.fed.bound hv)
    rw [this, hf.recall]

/-- **C84 (part).** A program that is opened again for the same document and stylesheet and gets the same updates does the same,
in whatever order hash maps are iterated: it sends the same messages and comes to the same state, or to the same
failure. Missing: lists of values for properties that take one value, see `C84_order_counterexample`. -/
theorem C84_reproducible_partial {fuel fuel' : Nat} {document : Html} {css : Css} {a : App} (ho : openApp p fuel document css = .ok a) (hc : css.Unlisted)
    {fs fs' : List Frame} (hd : UnlistedStyles p document a (fs.map (·.value))) (hf : List.Forall₂ Frame.Again fs fs') : a.run p fuel' fs' = a.run p fuel' fs := by
  have h := Unlisted.opened ho hc hd
  clear ho hd
  induction hf generalizing a with
  | nil => rfl
  | @cons f f' fs fs' h1 _ ih =>
    simp only [App.run]
    rw [h.update_again h1]
    cases hu : a.update p fuel' f.order f.input f.value with
    | error e => rfl
    | ok r =>
      obtain ⟨a1, out⟩ := r
      simp only
      rw [ih (h.updated hu)]

/-- **C84 (part).** The same for the layout engine: two runs with the same updates, each with its own orders of hash maps and
its own use of the results its engine has kept, send the same messages and come to the same state. Missing: as before, and
texts whose font changes (C82). -/
theorem C84_engines_partial {fuel fuel' : Nat} {document : Html} {css : Css} {a a' a'' : App} {m' m'' : Memory} {outs outs' : List Output} (ho : openApp p fuel document css = .ok a)
    (hc : css.Unlisted) {fs fs' : List Frame} (hd : UnlistedStyles p document a (fs.map (·.value))) (hf : List.Forall₂ Frame.Repeats fs fs') (hr : Cached p fuel' a Memory.empty fs a' m' outs)
    (hr' : Cached p fuel' a Memory.empty fs' a'' m'' outs') (hs : SteadyFonts p fuel' a fs) (hs' : SteadyFonts p fuel' a fs') : a'' = a' ∧ outs' = outs := by
  have h1 := C82_as_if_computed_partial ho hr hs
  have h2 := C82_as_if_computed_partial ho hr' hs'
  have h3 := C84_reproducible_partial (fuel' := fuel') ho hc (fs := fs.map Frame.anew) (fs' := fs'.map Frame.anew) (by rw [List.map_map]; exact hd) (by
    rw [List.forall₂_map_left_iff, List.forall₂_map_right_iff]
    refine hf.imp fun f f' h => ?_
    exact ⟨h.input, h.value, ⟨h.fair.1, h.fair.2⟩, ⟨h.fair'.1, h.fair'.2⟩, rfl⟩)
  rw [h1, h2] at h3
  injection h3 with h3
  injection h3 with h3 h4
  exact ⟨h3, h4⟩

end Verif
