import Verif.View.Started
import Verif.Spec.Inline
/-!
# The inline styles of a history (lemmas for C74, C77, C84, C85)
-/
namespace Verif

variable {p : Platform}

theorem Twin.styles {v0 v : View} (h : Twin v0 v) {P : NodeId → List Declaration → Prop} (hp : ∀ n e, v0.stage.tree.ctx n = some e → P n e.style) :
    ∀ n e, v.stage.tree.ctx n = some e → P n e.style := by
  intro n e he
  cases hc : v0.stage.tree.ctx n with
  | none => rw [h.tree.gone n hc] at he; cases he
  | some x =>
    obtain ⟨e', h1, h2⟩ := h.tree.there n x hc
    rw [h1] at he; injection he with he; subst he
    rw [h2.style]; exact hp n x hc

theorem View.InlineStyles.step {inline : String → Option (List Declaration)} {P : NodeId → List Declaration → Prop} {v v' : View} {value : Json} {values : List Json}
    (h : v.InlineStyles inline P (value :: values)) (hu : v.update inline value = .ok v') :
    (∀ n e, v'.stage.tree.ctx n = some e → P n e.style) ∧ v'.InlineStyles inline P values := by
  refine ⟨h 1 v' (by simp [View.updates, hu]), fun k w hw => h (k + 1) w ?_⟩
  simp only [List.take_succ_cons, View.updates, hu]
  exact hw

/-- The view of the program has a twin whose inline styles are as they should be in the updates to come. -/
structure Fed (p : Platform) (fuel : Nat) (document : Html) (P : NodeId → List Declaration → Prop) (a : App) (values : List Json) : Prop where
  fed : ∃ v0, Reached p.translate p.inline p.transformers fuel document v0 ∧ Twin v0 a.screen.view ∧ v0.InlineStyles p.inline P values

theorem Fed.opened {fuel : Nat} {document : Html} {css : Css} {a : App} {σ : Render} (h : OpenedApp p fuel document css a σ) {P : NodeId → List Declaration → Prop}
    {values : List Json} (hs : a.screen.view.InlineStyles p.inline P values) : Fed p fuel document P a values :=
  ⟨_, .opened h.view, ⟨rfl, rfl, rfl, rfl, Tree.Related.refl Element.SameForm.refl _⟩, hs⟩

theorem Fed.bound {fuel : Nat} {document : Html} {P : NodeId → List Declaration → Prop} {a : App} {value : Json} {values : List Json}
    (h : Fed p fuel document P a (value :: values)) {v : View} (hv : a.screen.view.update p.inline value = .ok v) : ∀ n e, v.stage.tree.ctx n = some e → P n e.style := by
  obtain ⟨v0, hr, htw, hs⟩ := h.fed
  obtain ⟨v2, h1, h2⟩ := twin_step hr htw hv
  exact h2.styles (hs.step h1).1

theorem Fed.updated {fuel fuel' : Nat} {document : Html} {P : NodeId → List Declaration → Prop} {a a' : App} {order : FrameOrder} {input : Input} {value : Json}
    {values : List Json} {out : Output} (hs : Session p.translate p.inline p.transformers fuel document a.screen) (h : Fed p fuel document P a (value :: values)) (hu : a.update p fuel' order input value = .ok (a', out)) :
    Fed p fuel document P a' values := by
  obtain ⟨v0, hr, htw, hst⟩ := h.fed
  obtain ⟨v, t, t', u, g1, g2, g3, g4⟩ := update_refines hs hu
  obtain ⟨v2, e1, e2⟩ := twin_step hr htw g1
  refine ⟨v2, .updated hr e1, ?_, (hst.step e1).2⟩
  rw [g4]
  exact e2.output g2 (handleOutput_form (session_ok hs) g1 g2 g3)

/-- What is said of animators and transitions holds of a view that was just opened. -/
theorem openApp_loose {G : Manner} {fuel : Nat} {document : Html} {css : Css} {a : App} {σ : Render} (h : OpenedApp p fuel document css a σ) :
    a.screen.view.stage.tree.Calm G.loose := by
  have hv := renderView_ok h.rendered
  have key : ∀ h : Html, CalmHtml (docEnv p.translate p.inline document).inline G.loose h := by
    intro h b hb
    cases b with
    | none key value => exact fun _ _ _ => trivial
    | «attribute» key spans => exact .inl trivial
    | _ => trivial
  have hc := renderView_calm (env := docEnv p.translate p.inline document) (G := G.loose) ⟨key _, fun d _ => key d, fun id t ht => ⟨key t, fun d _ => key d⟩⟩ h.rendered
  exact (updateTrees_calm (inline := p.inline) (fun _ _ => trivial) _ (s := ⟨σ.tree, σ.staticId⟩) hv.wf (defaultReactions_ok h.rendered) h.stage hc).1

theorem Element.Calm.loosen {G : Manner} {e : Element} (h : e.Calm G) : e.Calm G.loose := ⟨.inl trivial, trivial, h.animators, h.transitions⟩

theorem Tree.Calm.loosen {G : Manner} {t : Tree} (h : t.Calm G) : t.Calm G.loose := fun n e he => (h n e he).loosen

theorem Tree.Calm.with {G : Manner} {t : Tree} (h : t.Calm G.loose) (hG : G.free) (hs : ∀ n e, t.ctx n = some e → G.block e.style) : t.Calm G :=
  fun n e he => ⟨.inl hG, hs n e he, (h n e he).animators, (h n e he).transitions⟩

/-- Inline styles are not bound. -/
def unboundManner : Manner where
  free := False
  block _ := True
  animator _ := True
  transition _ := True
  none := trivial

theorem Tree.Calm.form {t t' : Tree} (h : t.Calm unboundManner) (hf : SameForm t t') : t'.Calm unboundManner :=
  h.related (Tree.Related.mono (fun e e' hx hc => ⟨by rw [hx.attrsBindings]; exact hc.bound, trivial, fun _ _ => trivial, fun _ _ => trivial⟩) hf)

theorem Tree.Calm.unbound {G : Manner} {t : Tree} (h : t.Calm G.strict) : t.Calm unboundManner :=
  fun n e he => ⟨(h n e he).bound, trivial, fun _ _ => trivial, fun _ _ => trivial⟩

theorem openApp_strict {G : Manner} {fuel : Nat} {document : Html} {css : Css} {a : App} {σ : Render} (h : OpenedApp p fuel document css a σ)
    (hd : CalmNode (docEnv p.translate p.inline document) G.strict (docBody document)) : a.screen.view.stage.tree.Calm G.strict := by
  have hv := renderView_ok h.rendered
  have hc := renderView_calm (env := docEnv p.translate p.inline document) hd h.rendered
  exact (updateTrees_calm (inline := p.inline) False.elim _ (s := ⟨σ.tree, σ.staticId⟩) hv.wf (defaultReactions_ok h.rendered) h.stage hc).1

/-- The inline styles of a document without bound ones. -/
theorem static_styles {G : Manner} {fuel : Nat} {document : Html} {css : Css} {a : App} (ho : openApp p fuel document css = .ok a)
    (hd : CalmNode (docEnv p.translate p.inline document) G.strict (docBody document)) (values : List Json) : a.screen.view.InlineStyles p.inline (fun _ => G.block) values := by
  obtain ⟨σ, h⟩ := openApp_opened ho
  have h0 := openApp_strict h hd
  have key : ∀ (values : List Json) (v v' : View), Reached p.translate p.inline p.transformers fuel document v → v.stage.tree.Calm G.strict → v.updates p.inline values = .ok v' →
      v'.stage.tree.Calm G.strict := by
    intro values
    induction values with
    | nil => intro v v' _ hc hu; simp only [View.updates, Except.ok.injEq] at hu; rw [← hu]; exact hc
    | cons x xs ih =>
      intro v v' hr hc hu
      rw [View.updates] at hu
      split at hu
      · cases hu
      · rename_i v1 h1
        refine ih v1 v' (.updated hr h1) ?_ hu
        obtain ⟨regs, hg⟩ := reached_good hr
        unfold View.update at h1
        cases hb : v.vm.bind x with
        | none => rw [hb] at h1; simp at h1
        | some q =>
          obtain ⟨vm, rs⟩ := q
          rw [hb] at h1
          simp only at h1
          obtain ⟨stage, a1, a2, a3, a4⟩ := viewGood_update (inline := p.inline) hg x hb
          rw [a1] at h1
          simp only [Except.ok.injEq] at h1
          subst h1
          exact (updateTrees_calm False.elim rs hg.wf a4 a1 hc).1
  intro k v' hu n e he
  exact (key _ _ _ (.opened h.view) h0 hu n e he).style

end Verif
