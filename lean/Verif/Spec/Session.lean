import Verif.Input.Model
/-!
# Sessions: histories of a view with styling and input

Between two updates of a view the code also styles and lays out the tree (`view.rs` 116-142) and handles
input.  Styling and layout are left open here: a step may change what they write, in any way.
-/
namespace Verif

/-- What styling, layout and input leave alone in an element. -/
structure Element.SameForm (e e' : Element) : Prop where
  node : e'.node = e.node
  children : e'.children = e.children
  tag : e'.tag = e.tag
  text : e'.text = e.text
  attrs : e'.attrs = e.attrs
  attrsBindings : e'.attrsBindings = e.attrsBindings
  listeners : e'.listeners = e.listeners
  hints : e'.hints = e.hints
  style : e'.style = e.style

/-- Two trees with the same links whose elements are related. -/
structure Tree.Related (R : Element → Element → Prop) (t t' : Tree) : Prop where
  kids : t'.kids = t.kids
  par : t'.par = t.par
  next : t'.next = t.next
  gone : ∀ n, t.ctx n = none → t'.ctx n = none
  there : ∀ n e, t.ctx n = some e → ∃ e', t'.ctx n = some e' ∧ R e e'

/-- What styling and layout may do: anything but to form and input state of the elements. -/
abbrev Restyled : Tree → Tree → Prop := Tree.Related fun e e' => e.SameForm e' ∧ e'.state = e.state

/-- A view with its input state. -/
structure Screen where
  view : View
  ui : Ui

/-- What listeners see of a view. -/
def View.emitter (v : View) : Emitter := ⟨v.vm.model, v.vm.transformers⟩

/-- `view.rs` 109-143 `update` with styling and layout left open: `out` is the output of the step from `s` to
`s'` with the given value and events. -/
def Screen.Updates (inline : String → Option (List Declaration)) (s : Screen) (value : Json) (events : List InputEvent)
    (s' : Screen) (out : Output) : Prop :=
  ∃ v t t' u, s.view.update inline value = .ok v ∧ Restyled v.stage.tree t ∧
    handleOutput v.emitter v.body events (t, s.ui) = .ok ((t', u), out) ∧
    s' = ⟨{ v with stage := { v.stage with tree := t' } }, u⟩

/-- Everything that can be reached from opening a document by updates with any values, any styling and any
events. -/
inductive Session (translate : String → String) (inline : String → Option (List Declaration))
    (tr : Transformers) (fuel : Nat) (document : Html) : Screen → Prop
  | opened {v} : openView translate inline tr fuel document = .ok v →
      Session translate inline tr fuel document ⟨v, {}⟩
  | updated {s s' value events out} : Session translate inline tr fuel document s →
      s.Updates inline value events s' out → Session translate inline tr fuel document s'

end Verif
