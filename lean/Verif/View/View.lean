import Verif.View.RenderUnique
import Verif.View.Elems
import Verif.ViewModel.History
/-!
# A view from a document, and its updates (`src/view.rs` 18-114, 296-318)

Modelled: collecting templates and body, rendering, the view model, the default state of conditional
elements, and the binding part of `update`.  Style, layout and input have models of their own.
-/
namespace Verif

/-- `view.rs` 18-28 `View`: the parts binding acts on. -/
structure View where
  vm : ViewModel
  stage : Stage
  root : NodeId
  body : NodeId

/-- `bindings.entry(path).or_default().push(binding)` on a `BTreeMap` seen as the list of its entries in
iteration order. -/
def insertBinding (r : String × Binding) : List (String × Binding) → List (String × Binding)
  | [] => [r]
  | x :: xs => if r.1 < x.1 then r :: x :: xs else x :: insertBinding r xs

/-- Iteration over `BTreeMap<String, Vec<Binding>>` (`view.rs` 300): by key, then in order of
registration. -/
def orderedBindings (regs : List (String × Binding)) : List Binding :=
  (regs.foldl (fun l r => insertBinding r l) []).map Prod.snd

/-- `view.rs` 31-93 `from_html`, after parsing.  The transformers that `pipe` (100-105) adds after the
creation are given here at once: they are not used before the first update. -/
def openView (translate : String → String) (inline : String → Option (List Declaration))
    (tr : Transformers) (fuel : Nat) (document : Html) : Except RenderFail View :=
  let ts := collect document.children (fun _ => none)
  match renderView ⟨ts.1, translate, inline⟩ fuel ts.2 with
  | .error e => .error e
  | .ok (root, body, σ) =>
    match ViewModel.create (lookupRegs σ.regs) σ.schema tr with
    | none => .error (.tree .panic)
    | some vm =>
      match updateTrees inline ⟨σ.tree, σ.staticId⟩ (defaultReactions (orderedBindings σ.regs)) with
      | .error f => .error (.tree f)
      | .ok stage => .ok ⟨vm, stage, root, body⟩

/-- `view.rs` 109-114: the binding part of `update`. -/
def View.update (inline : String → Option (List Declaration)) (v : View) (value : Json) : Except Fail View :=
  match v.vm.bind value with
  | none => .error .panic
  | some (vm, reactions) =>
    match updateTrees inline v.stage reactions with
    | .error f => .error f
    | .ok stage => .ok { v with vm := vm, stage := stage }

/-- A sequence of updates. -/
def View.updates (inline : String → Option (List Declaration)) (v : View) : List Json → Except Fail View
  | [] => .ok v
  | x :: xs =>
    match v.update inline x with
    | .error f => .error f
    | .ok v => v.updates inline xs

end Verif
