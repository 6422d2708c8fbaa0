import Verif.ViewModel.Bind
/-!
# Bindings and reactions (`src/view_model.rs` 35-84, 209-236, 560-699)
-/
namespace Verif
open Json

/-- `taffy::NodeId`. -/
abbrev NodeId := Nat

/-- `view_model.rs` 607-613 `BindingParams`. -/
inductive BindingParams where
  | text (node : NodeId) (span : Nat)
  | visibility (parent node : NodeId) (visible : Bool)
  | attribute (node : NodeId) (key : String) (span : Nat)
  | tag (node : NodeId) (key : String)
  | repeat (parent : NodeId) (start size : Nat)
deriving DecidableEq, Repr

/-- `view_model.rs` 601-604 `Binding`. -/
structure Binding where
  params : BindingParams
  pipe : List String
deriving DecidableEq, Repr

/-- `view_model.rs` 672-699 `Reaction`. -/
inductive Reaction where
  | type (node : NodeId) (span : Nat) (text : String)
  | reattach (parent node : NodeId) (visible : Bool)
  | repeat (parent : NodeId) (start cursor stop : Nat)
  | tag (node : NodeId) (key : String) (tag : Bool)
  | bind (node : NodeId) (key : String) (span : Nat) (text : String)
deriving DecidableEq, Repr

/-- `HashMap<String, Transformer>` (`view_model.rs` 23); never iterated. -/
abbrev Transformers := String → Option (Json → Json)

/-- `BTreeMap<String, Vec<Binding>>` (`view_model.rs` 15); never iterated.  A missing key is the empty
list. -/
abbrev Bindings := String → List Binding

/-- `view_model.rs` 616-668 `react_value_change`. -/
def Binding.react (b : Binding) (value : Json) : Reaction :=
  match b.params with
  | .visibility parent node visible => .reattach parent node (value.evalBoolean == visible)
  | .tag node key => .tag node key value.evalBoolean
  | .attribute node key span => .bind node key span value.evalString
  | .text node span => .type node span value.evalString
  | .repeat parent start size =>
    match value with
    | .arr l =>
      let count := if l.length > size then size else l.length
      .repeat parent start (start + count) (start + size)
    | _ => .repeat parent start start (start + size)

/-- `view_model.rs` 220-229 (and 465-473 for callback arguments): the transformers of a pipe, unknown
names skipped. -/
def applyPipe (tr : Transformers) (pipe : List String) (value : Json) : Json :=
  pipe.foldl (fun v name => match tr name with | none => v | some f => f v) value

/-- `view_model.rs` 209-236 `react`: the reactions pushed by one notification.  The special case of an
empty pipe (233) is the fold over no names. -/
def reactAt (bindings : Bindings) (tr : Transformers) (note : String × Json) : List Reaction :=
  (bindings note.1).map (fun b => b.react (applyPipe tr b.pipe note.2))

/-- `view_model.rs` 19-31 `ViewModel`, binding part. -/
structure ViewModel where
  bindings : Bindings
  model : Json
  defaults : Defaults
  transformers : Transformers

/-- `view_model.rs` 35-50 `create`; `none` = panic. -/
def ViewModel.create (bindings : Bindings) (model : Json) (tr : Transformers) : Option ViewModel :=
  (memorize "" model (fun _ => none)).map (fun d => ⟨bindings, model, d, tr⟩)

/-- `view_model.rs` 71-84 `bind`: the new state and the reactions; `none` = panic. -/
def ViewModel.bind (vm : ViewModel) (value : Json) : Option (ViewModel × List Reaction) :=
  (bindValue vm.defaults vm.model value "" "").map fun b =>
    ({ vm with model := b.dst }, b.notes.flatMap (reactAt vm.bindings vm.transformers))

end Verif
