import Verif.ViewModel.Eval
/-!
# The project's own tests, on the model: `src/view_model.rs` 790-1162
-/
namespace Verif.Conformance
open Json

/-- Binding values one after the other; the reactions to the last one. -/
def rebind (bindings : List (String × Binding)) (model : Json) (vs : List Json) : Option (List Reaction) :=
  (ViewModel.create (fun path => (bindings.filter (·.1 = path)).map (·.2)) model (fun _ => none)).bind fun vm => go vm [] vs
where
  go (vm : ViewModel) (last : List Reaction) : List Json → Option (List Reaction)
  | [] => some last
  | v :: vs => ((evalValue vm.defaults 50 vm.model v "" "").bind id).bind fun b =>
      go { vm with model := b.dst } (b.notes.flatMap (reactAt vm.bindings vm.transformers)) vs

def textB (node : Nat) : Binding := ⟨.text node 0, []⟩
def condIf (parent node : Nat) : Binding := ⟨.visibility parent node true, []⟩
def repeatB (node n : Nat) : Binding := ⟨.repeat node 0 n, []⟩
def attrB (node : Nat) (key : String) (span : Nat) : Binding := ⟨.attribute node key span, []⟩

/-- Objects are sorted maps. -/
theorem test_rebind_root_property_with_undefined : rebind [("/name", textB 100), ("/description", textB 200)] (.obj [("description", .null), ("name", .null)])
    [.obj [("description", .str "Description..."), ("name", .str "Name")], .obj [("name", .str "Alice")]] =
    some [.type 200 0 "", .type 100 0 "Alice"] := by decide +kernel
theorem test_rebind_object_property_with_undefined : rebind [("/object/name", textB 100), ("/object/description", textB 200)] (.obj [("object", .obj [("description", .null), ("name", .null)])])
    [.obj [("object", .obj [("description", .str "Description..."), ("name", .str "Name")])], .obj [("object", .obj [("name", .str "Alice")])]] =
    some [.type 200 0 "", .type 100 0 "Alice"] := by decide +kernel
theorem test_rebind_object_with_null : rebind [("/tooltip", condIf 100 200), ("/tooltip/name", textB 300), ("/tooltip/description", textB 400)]
    (.obj [("tooltip", .obj [("description", .null), ("name", .null)])])
    [.obj [("tooltip", .obj [("description", .str "Description..."), ("name", .str "Name")])], .obj [("tooltip", .null)]] =
    some [.type 400 0 "", .type 300 0 "", .reattach 100 200 false] := by decide +kernel

def names : List (String × Binding) := [("/names", repeatB 100 3), ("/names/0", textB 200), ("/names/1", textB 300), ("/names/2", textB 400)]
def namesModel : Json := .obj [("names", .arr [.null, .null, .null])]
def namesValue (l : List String) : Json := .obj [("names", .arr (l.map .str))]

theorem test_rebind_simple_array_same_values_reduced_array : rebind names namesModel [namesValue ["Alice", "Boris"], namesValue ["Alice"]] =
    some [.repeat 100 0 1 3] := by decide +kernel
theorem test_rebind_simple_array_new_values : rebind names namesModel [namesValue ["Alice", "Boris"], namesValue ["Carol", "David"]] =
    some [.type 200 0 "Carol", .type 300 0 "David"] := by decide +kernel
theorem test_rebind_simple_array_new_values_increased_array : rebind names namesModel [namesValue ["Alice"], namesValue ["Boris", "Carol"]] =
    some [.repeat 100 0 2 3, .type 200 0 "Boris", .type 300 0 "Carol"] := by decide +kernel

def items : List (String × Binding) := [("/items", repeatB 100 3), ("/items/0/name", textB 200), ("/items/0/id", attrB 200 "id" 0),
  ("/items/1/name", textB 300), ("/items/1/id", attrB 300 "id" 0), ("/items/2/name", textB 400), ("/items/2/id", attrB 400 "id" 0)]
def itemsModel : Json := .obj [("items", .arr (List.replicate 3 (.obj [("id", .null), ("name", .null)])))]
def itemsValue (l : List (Int × String)) : Json := .obj [("items", .arr (l.map fun x => .obj [("id", .num (.int x.1)), ("name", .str x.2)]))]

theorem test_rebind_objects_array_same_values_reduced_array : rebind items itemsModel [itemsValue [(0, "Alice"), (1, "Boris")], itemsValue [(0, "Alice")]] =
    some [.repeat 100 0 1 3] := by decide +kernel
theorem test_rebind_objects_array_new_values_increased_array : rebind items itemsModel [itemsValue [(0, "Alice")], itemsValue [(1, "Boris"), (2, "Carol")]] =
    some [.repeat 100 0 2 3, .bind 200 "id" 0 "1", .type 200 0 "Boris", .bind 300 "id" 0 "2", .type 300 0 "Carol"] := by decide +kernel

end Verif.Conformance
