import Verif.Css.Types
import Verif.ViewModel.React
/-!
# Elements (`src/element.rs`, `src/styles/default.rs`, `src/styles/scrolling.rs` 3-9)
-/
namespace Verif

/-- `HashMap<String, _>` that is never iterated. -/
abbrev SMap (α : Type) := String → Option α

/-- `HashMap::insert`. -/
def SMap.set {α} (m : SMap α) (k : String) (v : α) : SMap α := fun x => if x = k then some v else m x
/-- `HashMap::remove`. -/
def SMap.del {α} (m : SMap α) (k : String) : SMap α := fun x => if x = k then none else m x

@[simp] theorem SMap.set_same {α} (m : SMap α) (k : String) (v : α) : m.set k v k = some v := by
  simp [SMap.set]
theorem SMap.set_other {α} (m : SMap α) {k x : String} (v : α) (h : x ≠ k) : m.set k v x = m x := by
  simp [SMap.set, h]
@[simp] theorem SMap.del_same {α} (m : SMap α) (k : String) : m.del k k = none := by
  simp [SMap.del]
theorem SMap.del_other {α} (m : SMap α) {k x : String} (h : x ≠ k) : m.del k x = m x := by
  simp [SMap.del, h]

/-- `element.rs` 122-124 `TextContent`. -/
structure TextContent where
  spans : List String
deriving DecidableEq, Repr

/-- `element.rs` 131-141 `TextContent::set`. -/
def TextContent.set (t : TextContent) (span : Nat) (value : String) : TextContent :=
  if span ≥ t.spans.length then t else ⟨t.spans.set span value⟩

/-- `element.rs` 143-146 `TextContent::to_string`. -/
def TextContent.toString (t : TextContent) : String := String.join t.spans

/-- `element.rs` 54-58 `HandlerArgument`. -/
inductive HandlerArgument where
  | keyword (key : String)
  | event
  | binder (path : String) (pipe : List String)
deriving DecidableEq, Repr

/-- `element.rs` 49-51 `Handler`. -/
structure Handler where
  arguments : List HandlerArgument
deriving DecidableEq, Repr

/-- `element.rs` 61-64 `ElementStyle`: a rule and whether it is static. -/
inductive ElementStyle where
  | static (style : Style)
  | dynamic (style : Style)

/-- `element.rs` 67-71 `ElementStyleHints`; the set of attributes as a list. -/
structure StyleHints where
  dynamicAttrs : List String := []
  hasDynamicClasses : Bool := false
  hasDynamicId : Bool := false

/-- `element.rs` 73-83. -/
def StyleHints.hasDynamicProperties (h : StyleHints) : Bool :=
  !h.dynamicAttrs.isEmpty || h.hasDynamicClasses || h.hasDynamicId

/-- `element.rs` 150-153 `Length`. -/
inductive Length where
  | number (v : Rat)
  | percent (v : Rat)
deriving DecidableEq, Repr

/-- `element.rs` 234-237 `MyBorder` and its derived `Default`. -/
structure Border where
  width : Rat := 0
  color : Rgba := ⟨0, 0, 0, 0⟩
deriving DecidableEq, Repr

/-- `element.rs` 191-197 `Borders`; the four radii in source order. -/
structure Borders where
  top : Border := {}
  bottom : Border := {}
  right : Border := {}
  left : Border := {}
  radiusTL : Length := .number 0
  radiusTR : Length := .number 0
  radiusBR : Length := .number 0
  radiusBL : Length := .number 0
deriving DecidableEq, Repr

/-- `element.rs` 240-270 `Background` and its `Default`. -/
structure Background where
  image : Option String := none
  isSrc : Bool := false
  color : Rgba := ⟨0, 0, 0, 0⟩
  srcX : Rat := 0
  srcY : Rat := 0
deriving DecidableEq, Repr

/-- `element.rs` 301-310 `TextAlign`. -/
inductive TextAlign where
  | start | «end» | left | right | center | justify | justifyAll | matchParent
deriving DecidableEq, Repr

/-- `element.rs` 282-298 `FontFace`, with the values of `default.rs` 21-30. -/
structure FontFace where
  family : String := "system-ui"
  size : Rat := 16
  style : String := "normal"
  weight : Nat := 400
  lineHeight : Rat := 1
  align : TextAlign := .start
deriving DecidableEq, Repr

/-- `element.rs` 313-318 `ElementState`. -/
structure ElementState where
  active : Bool := false
  hover : Bool := false
  focus : Bool := false
  checked : Bool := false
deriving DecidableEq, Repr

/-- `element.rs` 321-325 `PointerEvents`. -/
inductive PointerEvents where
  | auto | none
deriving DecidableEq, Repr

/-- `element.rs` 328-339 `Pointer`. -/
inductive Pointer where
  | auto | default | contextMenu | help | pointer | progress | wait | text | notAllowed
deriving DecidableEq, Repr

/-- `styles/scrolling.rs` 3-9 `Scrolling`. -/
structure Scrolling where
  x : Rat := 0
  y : Rat := 0
  scrollX : Rat := 0
  scrollY : Rat := 0
deriving DecidableEq, Repr

/-- The parts of `taffy::Layout` (result of the layout solver) the code reads: location, size and
content size. -/
structure Layout where
  x : Rat := 0
  y : Rat := 0
  width : Rat := 0
  height : Rat := 0
  contentWidth : Rat := 0
  contentHeight : Rat := 0
deriving DecidableEq, Repr

/-- `element.rs` 13-46 `Element`, with the values of `create_element` (`default.rs` 33-80) as defaults.
Left out: `transforms` (never written) and `object_fit` (never read or written). -/
structure Element where
  node : NodeId
  children : List NodeId := []
  tag : String := ""
  text : Option TextContent := none
  attrs : SMap String := fun _ => none
  attrsBindings : SMap TextContent := fun _ => none
  position : Rat × Rat := (0, 0)
  size : Rat × Rat := (0, 0)
  contentSize : Rat × Rat := (0, 0)
  backgrounds : List Background := []
  borders : Borders := {}
  color : Rgba := ⟨0, 0, 0, 255⟩
  font : FontFace := {}
  listeners : SMap Handler := fun _ => none
  selfOpacity : Rat := 1
  opacity : Rat := 1
  scrolling : Option Scrolling := none
  clipping : Option Layout := none
  pointerEvents : PointerEvents := .auto
  pointer : Pointer := .auto
  visible : Bool := true
  hints : StyleHints := {}
  styles : List ElementStyle := []
  style : List Declaration := []
  animators : List Animator := []
  state : ElementState := {}
  transitions : List Transition := []

/-- `element.rs` 99-118: `get_background_mut`, `get_animator_mut`, `get_transition_mut` followed by an
update of the returned entry: the vector is first padded with default entries up to `index`. -/
def updateAt {α} (l : List α) (index : Nat) (dflt : α) (f : α → α) : List α :=
  let l' := l ++ List.replicate (index + 1 - l.length) dflt
  l'.modify index f

theorem updateAt_length {α} (l : List α) (i : Nat) (d : α) (f : α → α) :
    (updateAt l i d f).length = max l.length (i + 1) := by
  simp [updateAt]; omega

theorem updateAt_getElem? {α} (l : List α) (i : Nat) (d : α) (f : α → α) (j : Nat) :
    (updateAt l i d f)[j]? =
      if j = i then some (f (l[i]?.getD d)) else if j < l.length then l[j]? else
        if j < i then some d else none := by
  unfold updateAt
  simp only [List.getElem?_modify]
  by_cases h : j = i
  · subst h
    simp only [if_true]
    by_cases hl : j < l.length
    · rw [List.getElem?_append_left hl]; simp [hl]
    · rw [List.getElem?_append_right (by omega), List.getElem?_replicate]
      simp [show j - l.length < j + 1 - l.length by omega, List.getElem?_eq_none (Nat.le_of_not_lt hl)]
  · simp only [h, if_false]
    have h' : ¬ i = j := fun e => h e.symm
    simp only [h', if_false]
    by_cases hl : j < l.length
    · rw [List.getElem?_append_left hl]; simp [hl]
    · simp only [hl, if_false]
      rw [List.getElem?_append_right (by omega), List.getElem?_replicate]
      by_cases hi : j < i
      · simp [hi, show j - l.length < i + 1 - l.length by omega]
      · simp [hi, show ¬ j - l.length < i + 1 - l.length by omega]

end Verif
