import Verif.ViewModel.History
/-!
# C04-C12: binding a value to the view

Read with `Verif/Spec/Shape.lean`.  A view model is created from the blank model `m0` the renderer
builds; `s` is the shape of the template, `Fits s v` says that a value suits the template.
-/
namespace Verif
open Json

/-! ## C04 -/

/-- C04: after any successful update with `v`, updating again with `v` changes nothing and gives no
reaction.  No hypothesis on the state before (any history), on the template or on the value, except that
it is a JSON value (objects have distinct keys). -/
theorem C04_rebind_same_is_noop (vm vm' : ViewModel) (v : Json) (rs : List Reaction) (hv : WfJson v)
    (h : vm.bind v = some (vm', rs)) : vm'.bind v = some (vm', []) := by
  unfold ViewModel.bind at h ⊢
  rw [Option.map_eq_some_iff] at h
  obtain ⟨b, hb, e⟩ := h
  simp only [Prod.mk.injEq] at e
  rw [← e.1]
  simp only []
  rw [bind_idem vm.defaults vm.model v "" "" b hv hb]
  simp

/-! ## C05, C07 -/

/-- A blank model and a history of fitting values, as in C05-C09: the view model is created from `m0`,
which has the shape `s`, and then updated with the values `vs`. -/
structure FittingHistory (s : Shape) (bindings : Bindings) (m0 : Json) (tr : Transformers)
    (vs : List Json) (vm : ViewModel) : Prop where
  shapeOk : s.Ok
  noArrArr : s.NoArrArr
  blank : HasShape s m0
  fits : ∀ v ∈ vs, Fits s v
  reached : (ViewModel.create bindings m0 tr).bind (fun vm0 => vm0.binds vs) = some vm

theorem FittingHistory.good {s bindings m0 tr vs vm} (h : FittingHistory s bindings m0 tr vs vm) :
    Good s vm := by
  obtain ⟨h1, h2, h3, h4, h5⟩ := h
  rw [Option.bind_eq_some_iff] at h5
  obtain ⟨vm0, hc, hb⟩ := h5
  exact good_binds (create_good h1 h2 h3 hc) h4 hb

/-- C05: after a history of fitting values that ends with `v`, the bound model is what the template sees
of `v`; nothing else of the history matters. -/
theorem C05_history_independent {s bindings m0 tr vs vm} (v : Json)
    (h : FittingHistory s bindings m0 tr (vs ++ [v]) vm) : vm.model = project s v := by
  obtain ⟨h1, h2, h3, h4, h5⟩ := h
  rw [Option.bind_eq_some_iff] at h5
  obtain ⟨vm0, hc, hb⟩ := h5
  rw [binds_good (create_good h1 h2 h3 hc) h4] at hb
  simp only [Option.some.injEq] at hb
  rw [← hb]; simp

/-- C05: two histories that end with the same value lead to the same bound model. -/
theorem C05_same_last_value {s bindings m0 tr vs ws vm vm'} (v : Json)
    (h : FittingHistory s bindings m0 tr (vs ++ [v]) vm)
    (h' : FittingHistory s bindings m0 tr (ws ++ [v]) vm') : vm.model = vm'.model := by
  rw [C05_history_independent v h, C05_history_independent v h']

/-- C07: a fitting value never makes `bind` panic, after any fitting history. -/
theorem C07_fitting_never_panics {s bindings m0 tr vs vm} (h : FittingHistory s bindings m0 tr vs vm)
    (v : Json) (hv : Fits s v) : ∃ vm' rs, vm.bind v = some (vm', rs) ∧
      FittingHistory s bindings m0 tr (vs ++ [v]) vm' := by
  refine ⟨_, _, bind_good h.good hv, ?_⟩
  obtain ⟨h1, h2, h3, h4, h5⟩ := h
  refine ⟨h1, h2, h3, ?_, ?_⟩
  · intro w hw
    rcases List.mem_append.1 hw with hw | hw
    · exact h4 w hw
    · simp at hw; subst hw; exact hv
  · rw [Option.bind_eq_some_iff] at h5 ⊢
    obtain ⟨vm0, hc, hb⟩ := h5
    refine ⟨vm0, hc, ?_⟩
    have hg := create_good h1 h2 h3 hc
    have hall : ∀ w ∈ vs ++ [v], Fits s w := by
      intro w hw
      rcases List.mem_append.1 hw with hw | hw
      · exact h4 w hw
      · simp at hw; subst hw; exact hv
    rw [binds_good hg hall]
    rw [binds_good hg h4] at hb
    simp only [Option.some.injEq] at hb
    rw [← hb]; simp

/-- The view model of a template with one scalar expression `{a}`. -/
def scalarVm : ViewModel := ⟨fun _ => [], .obj [("a", .null)], fun _ => none, fun _ => none⟩

/-- Finding for C07: without fitting values `bind` does panic: a path used as a scalar receives an array
and then a shorter array. -/
theorem C07_panic_on_non_fitting :
    (scalarVm.binds [.obj [("a", .arr [.null])], .obj [("a", .arr [])]]) = none := by
  simp [ViewModel.binds, ViewModel.bind, scalarVm, bindValue, bindFields, bindElems, look, Json.get,
    resizeStep]

/-! ## C06 -/

/-- C06: the reactions of an update are the reactions of the bindings of the notified paths; every path
is notified at most once; a path is notified exactly when what it denotes changed (for an array: its
length), and the binding receives the new value. -/
theorem C06_reactions_are_changes {s bindings m0 tr vs vm} (h : FittingHistory s bindings m0 tr vs vm)
    (v : Json) (hv : Fits s v) :
    ∃ (vm' : ViewModel) (notes : List (String × Json)), vm.bind v = some (vm',
        notes.flatMap fun n => (vm.bindings n.1).map fun b => b.react (applyPipe vm.transformers b.pipe n.2)) ∧
      (notes.map Prod.fst).Nodup ∧
      ∀ str x, (str, x) ∈ notes ↔
        ∃ path part value before, str = ptr path ∧ s.read v path = some (part, value) ∧
          prior vm.defaults "" vm.model path = some before ∧
          Differs part before value ∧ x = payload part value := by
  have hg := h.good
  refine ⟨_, notesOf vm.defaults s vm.model v "" "", bind_good hg hv, ?_, ?_⟩
  · exact notesOf_nodup vm.defaults s vm.model v [] "" hg.ok hg.model hv hg.defaults
  · intro str x
    have := notesOf_mem vm.defaults s vm.model v [] "" str x hg.ok hg.model hv hg.defaults
    rw [ptr_nil] at this
    rw [this]
    constructor
    · rintro ⟨p, hp, s', raw, before, h1, h2, h3, h4⟩
      exact ⟨p, s', raw, before, by simpa using hp, h1, h2, h3, h4⟩
    · rintro ⟨p, s', raw, before, hp, h1, h2, h3, h4⟩
      exact ⟨p, by simpa using hp, s', raw, before, h1, h2, h3, h4⟩

/-- C06: every place of the new value denoted something before the update, so the comparison above is
never void. -/
theorem C06_prior_defined {s bindings m0 tr vs vm} (h : FittingHistory s bindings m0 tr vs vm)
    (v : Json) (path : List Tok) (part : Shape) (value : Json) (hr : s.read v path = some (part, value)) :
    ∃ before, prior vm.defaults "" vm.model path = some before :=
  prior_defined vm.defaults path s vm.model v "" h.good.ok h.good.model h.good.defaults hr

/-- C06: every binding of a notified path reacts exactly once, in the order of registration. -/
theorem C06_each_binding_once (bindings : Bindings) (tr : Transformers) (path : String) (v : Json) :
    (reactAt bindings tr (path, v)).length = (bindings path).length ∧
    ∀ (i : Nat) (b : Binding), (bindings path)[i]? = some b →
      (reactAt bindings tr (path, v))[i]? = some (b.react (applyPipe tr b.pipe v)) := by
  refine ⟨by simp [reactAt], ?_⟩
  intro i b h
  simp [reactAt, h]

/-! ## C08 -/

/-- C08: values that agree on what the template mentions (extra keys, missing keys against nulls) lead to
the same model. -/
theorem C08_extra_keys_invisible_model {s bindings m0 tr vs vm}
    (h : FittingHistory s bindings m0 tr vs vm) (v w : Json) (hv : Fits s v) (hw : Fits s w)
    (ha : Agree s v w) :
    (vm.bind v).map Prod.fst = (vm.bind w).map Prod.fst := by
  rw [bind_good h.good hv, bind_good h.good hw]
  simp [agree_project s v w ha]

/-- C08: and, for bindings without transformers, to the same reactions. -/
theorem C08_extra_keys_invisible {s bindings m0 tr vs vm} (h : FittingHistory s bindings m0 tr vs vm)
    (hp : ∀ p b, b ∈ vm.bindings p → b.pipe = [])
    (v w : Json) (hv : Fits s v) (hw : Fits s w) (ha : Agree s v w) : vm.bind v = vm.bind w := by
  rw [bind_good h.good hv, bind_good h.good hw, agree_project s v w ha]
  rw [reactions_agree vm.bindings vm.transformers hp
    (notes_agree vm.defaults s vm.model v w "" "" ha)]

/-- C08: a missing key and an explicit null agree, for every shape of the field. -/
theorem C08_missing_is_null (l : List (String × Json)) (k : String)
    (hk : Json.get l k = none) : ∀ k', member (.obj l) k' = member (.obj ((k, .null) :: l)) k' := by
  intro k'
  simp only [member, get_cons]
  by_cases h : k = k'
  · subst h; simp [hk]
  · simp [h]

/-! ## C09 -/

/-- C09 (part): for templates without an array directly inside an array, every item of a repeated array is
bound item by item after any history of shrinking and growing: a scalar inside item `i` is notified of
its new value whenever that value differs from what the place denoted before.
Missing for the full property: items that are arrays themselves, where it is false (`C09_array_in_array`). -/
theorem C09_items_bound_partial {s bindings m0 tr vs vm} (h : FittingHistory s bindings m0 tr vs vm)
    (v : Json) (hv : Fits s v) (path : List Tok) (value before : Json)
    (hr : s.read v path = some (.leaf, value)) (hb : prior vm.defaults "" vm.model path = some before)
    (hne : before ≠ value) (b : Binding) (hbind : b ∈ vm.bindings (ptr path)) :
    ∃ vm' rs, vm.bind v = some (vm', rs) ∧ b.react (applyPipe vm.transformers b.pipe value) ∈ rs := by
  obtain ⟨vm', notes, h1, -, h3⟩ := C06_reactions_are_changes h v hv
  refine ⟨vm', _, h1, ?_⟩
  rw [List.mem_flatMap]
  refine ⟨(ptr path, value), (h3 _ _).2 ⟨path, .leaf, value, before, rfl, hr, hb, hne, rfl⟩, ?_⟩
  exact List.mem_map.2 ⟨b, hbind, rfl⟩

/-- The blank model of `*row="2 {rows}"` containing `*cell="2 {row}"` containing `{cell}`. -/
def gridModel : Json := .obj [("rows", .arr [.arr [.null, .null], .arr [.null, .null]])]

/-- The bindings of that template: the text of every cell. -/
def gridBindings : Bindings := fun p =>
  if p = "/rows/1/0" then [⟨.text 10 0, []⟩] else []

def num (n : Int) : Json := .num (.int n)

/-- Finding for C09: with an array directly inside an array, a row that reappears is not bound cell by
cell.  Binding two rows at once notifies the cell `/rows/1/0` of its value 3; binding one row first and
then the same two rows does not. -/
theorem C09_array_in_array :
    let one := Json.obj [("rows", .arr [.arr [num 1, num 2]])]
    let two := Json.obj [("rows", .arr [.arr [num 1, num 2], .arr [num 3, num 4]])]
    ((ViewModel.create gridBindings gridModel (fun _ => none)).bind fun vm =>
      (vm.bind two).map Prod.snd) = some [.type 10 0 "3"] ∧
    ((ViewModel.create gridBindings gridModel (fun _ => none)).bind fun vm =>
      (vm.binds [one]).bind fun vm => (vm.bind two).map Prod.snd) = some [] := by
  constructor
  · simp [ViewModel.create, memorize, memorizeFields, gridModel, ViewModel.bind,
      bindValue, bindFields, bindElems, look, Json.get, resizeStep, sub, num, reactAt,
      gridBindings, applyPipe, Binding.react, evalString, Num.toText]
    rfl
  · simp [ViewModel.create, memorize, memorizeFields, gridModel, ViewModel.binds, ViewModel.bind,
      bindValue, bindFields, bindElems, look, Json.get, resizeStep, resize, sub, num, reactAt,
      gridBindings]
    decide

/-! ## C10 -/

/-- C10: a repeat binding with `size` slots from `start` designates `start ≤ cursor ≤ end = start + size`,
with `cursor = start + min len size` for an array and `cursor = start` for anything else. -/
theorem C10_repeat_in_slots (parent : NodeId) (start size : Nat) (pipe : List String) (v : Json) :
    ∃ cursor, (Binding.react ⟨.repeat parent start size, pipe⟩ v)
        = .repeat parent start cursor (start + size) ∧
      start ≤ cursor ∧ cursor ≤ start + size ∧
      (∀ l, v = .arr l → cursor = start + min l.length size) ∧
      ((∀ l, v ≠ .arr l) → cursor = start) := by
  cases v with
  | arr l =>
    refine ⟨start + min l.length size, ?_, by omega, by omega, ?_, ?_⟩
    · simp only [Binding.react]
      split <;> (congr 1; omega)
    · rintro l' h; injection h with h; rw [h]
    · intro h; exact absurd rfl (h l)
  | _ => exact ⟨start, rfl, by omega, by omega, by simp, fun _ => rfl⟩

example : Binding.react ⟨.repeat 1 2 3, []⟩ (.arr [.null, .null]) = .repeat 1 2 4 5 := by decide

/-! ## C11 -/

/-- Specification of a pipe: known transformers compose from left to right. -/
def pipeSpec (tr : Transformers) : List String → Json → Json
  | [], v => v
  | name :: rest, v => pipeSpec tr rest ((tr name).elim v (fun f => f v))

/-- C11: a binding reacts with the composition of its registered transformers, left to right. -/
theorem C11_pipe_left_to_right (tr : Transformers) (bindings : Bindings) (path : String) (v : Json) :
    reactAt bindings tr (path, v) = (bindings path).map fun b => b.react (pipeSpec tr b.pipe v) := by
  have : ∀ pipe v, applyPipe tr pipe v = pipeSpec tr pipe v := by
    intro pipe
    induction pipe with
    | nil => intro v; rfl
    | cons n t ih =>
      intro v
      simp only [applyPipe, List.foldl_cons, pipeSpec]
      rw [← ih]
      cases tr n <;> rfl
  simp [reactAt, this]

/-- C11: names that are not registered can be removed from the pipe. -/
theorem C11_unknown_skipped (tr : Transformers) (pipe : List String) (v : Json) :
    applyPipe tr pipe v = applyPipe tr (pipe.filter fun n => (tr n).isSome) v := by
  induction pipe generalizing v with
  | nil => rfl
  | cons n t ih =>
    simp only [applyPipe, List.foldl_cons]
    cases h : tr n with
    | none =>
      rw [List.filter_cons_of_neg (by simp [h])]
      exact ih v
    | some f =>
      rw [List.filter_cons_of_pos (by simp [h])]
      simp only [List.foldl_cons, h]
      exact ih (f v)

/-! ## C12 -/

/-- C12 (part): whenever the path of an object is notified, an element conditioned on it (`?` with
`want = true`, `!` with `want = false`) is shown exactly when the object is non-null.
Missing: the notification itself, which does not happen when only null-ness changes
(`C12_null_object_not_noticed`). -/
theorem C12_object_condition_partial (tr : Transformers) (fs : List (String × Shape)) (value : Json)
    (parent node : NodeId) (want : Bool) :
    (Binding.react ⟨.visibility parent node want, []⟩ (applyPipe tr [] (payload (.obj fs) value)))
      = .reattach parent node (decide (value ≠ .null) == want) := by
  by_cases h : value = .null <;> simp [payload, h, applyPipe, Binding.react, evalBoolean]

/-- The template `<div ?="{tip}">{tip.a}</div>`. -/
def tipVm : ViewModel :=
  ⟨fun p => if p = "/tip" then [⟨.visibility 1 2 true, []⟩] else [],
   .obj [("tip", .obj [("a", .null)])], fun _ => none, fun _ => none⟩

/-- Finding for C12: an object all of whose mentioned fields are null is not shown: binding
`{tip: {a: null}}` gives no reaction at all, and neither does going back to null. -/
theorem C12_null_object_not_noticed :
    (tipVm.bind (.obj [("tip", .obj [("a", .null)])])).map Prod.snd = some [] ∧
    ((tipVm.binds [.obj [("tip", .obj [("a", .bool true)])], .obj [("tip", .obj [("a", .null)])]]).bind
      fun vm => (vm.bind (.obj [("tip", .null)])).map Prod.snd) = some [] := by
  constructor <;>
  simp [tipVm, ViewModel.binds, ViewModel.bind, bindValue, bindFields, look, Json.get, sub, reactAt]

/-! ## The hypotheses are met -/

/-- Shape of a template with a title and a list of named items. -/
def demoShape : Shape := .obj [("items", .arr (.obj [("name", .leaf)])), ("title", .leaf)]
/-- Its blank model. -/
def demoBlank : Json :=
  .obj [("items", .arr [.obj [("name", .null)], .obj [("name", .null)]]), ("title", .null)]
def demoBindings : Bindings := fun p =>
  if p = "/items/1/name" then [⟨.text 7 0, []⟩] else []
/-- Three values: one item, then two, then null. -/
def demoValues : List Json :=
  [.obj [("items", .arr [.obj [("name", .str "a"), ("extra", .bool true)]])],
   .obj [("items", .arr [.obj [("name", .str "a")], .obj [("name", .str "b")]]), ("title", .str "t")],
   .obj [("items", .null)]]

theorem demo_history : ∃ vm, FittingHistory demoShape demoBindings demoBlank (fun _ => none)
    demoValues vm := by
  have hok : demoShape.Ok := by
    simp [demoShape, Shape.Ok, Shape.OkFields, SlashFree]
  have hno : demoShape.NoArrArr := by
    simp [demoShape, Shape.NoArrArr, Shape.NoArrArrFields]
  have hs : HasShape demoShape demoBlank := by
    simp [demoShape, demoBlank, HasShape, HasFields, Scalar]
  have hf : ∀ v ∈ demoValues, Fits demoShape v := by
    simp [demoValues, demoShape, Fits, FitsFields, member, Json.get, Scalar]
  have hc : ∃ d, memorize "" demoBlank (fun _ => none) = some d := by
    simp [demoBlank, memorize, memorizeFields]
  obtain ⟨d, hd⟩ := hc
  have hcr : ViewModel.create demoBindings demoBlank (fun _ => none) =
      some ⟨demoBindings, demoBlank, d, fun _ => none⟩ := by rw [ViewModel.create, hd]; rfl
  have hb := binds_good (create_good hok hno hs hcr) hf
  exact ⟨_, hok, hno, hs, hf, by rw [hcr]; exact hb⟩

example : ∃ vm, FittingHistory demoShape demoBindings demoBlank (fun _ => none) demoValues vm ∧
    vm.model = .obj [("items", .arr []), ("title", .null)] := by
  obtain ⟨vm, h⟩ := demo_history
  exact ⟨vm, h, by
    rw [C05_history_independent (vs := demoValues.dropLast) (.obj [("items", .null)]) h]
    simp [demoShape, project, projectFields, member, items, Json.get]⟩

example : Agree demoShape (.obj [("items", .arr [.obj [("extra", .null)]]), ("other", .null)])
    (.obj [("items", .arr [.obj [("name", .null)]]), ("title", .null)]) := by
  simp [demoShape, Agree, AgreeFields, member, items, Json.get]
  intro i a b h1 h2
  have : i = 0 := by
    have := (List.getElem?_eq_some_iff.1 h1).1
    simpa using this
  subst this
  simp at h1 h2
  subst h1; subst h2
  simp

example : WfJson (.obj [("a", .arr [.null]), ("b", .null)]) := by
  simp [WfJson, WfFields, WfList]

end Verif
