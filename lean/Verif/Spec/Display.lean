import Verif.Spec.Scope
import Verif.Spec.Shape
/-!
# Specification of what a template shows for a value (C65)

`present` reads a template as a function from a value to a displayed tree.  It knows nothing of paths,
bindings, notifications or of earlier values.  It is partial: `none` means that the template is outside
what the property is about for this value (see `Scene.nulls`, `present` and `presentChildren`).
-/
namespace Verif
open Json

/-- What a user of a view sees of its tree: texts, and elements with tag, attributes and children. -/
inductive Shown where
  | text (s : String)
  | element (tag : String) (attrs : SMap String) (children : List Shown)

/-- All of some results. -/
def allOf {α : Type} : List (Option α) → Option (List α)
  | [] => some []
  | a :: l => a.bind fun x => (allOf l).map (x :: ·)

/-- What a template is read with: its environment, the transformers, the value, and whether a place that
is null has a meaning here. -/
structure Scene where
  env : RenderEnv
  tr : Transformers
  value : Json
  nulls : Bool

/-- A part of a value: the item, if the name is a number, and otherwise the field; a missing field is
null, a missing item is nothing. -/
def part (v : Json) (name : String) : Option Json :=
  if '/' ∈ name.toList then none else
  match parseU64 name with
  | some i => (items v)[i]?
  | none => some (member v name)

/-- The value of an expression without its pipe: the first name is a local or a part of the bound value,
the others are parts of that. -/
def Binder.value (w : Json) (η : SMap Json) (b : Binder) : Option Json :=
  b.tail.foldl (fun v k => v.bind (part · k)) (match η b.head with | some v => some v | none => part w b.head)

/-- The scalar an expression shows. -/
def Scene.scalar (S : Scene) (η : SMap Json) (b : Binder) : Option Json :=
  match b.value S.value η with
  | some .null => if S.nulls then some .null else none
  | some (.arr _) => none
  | some (.obj _) => none
  | x => x

/-- The text of a span; `static` says what becomes of text that is not an expression. -/
def Scene.span (S : Scene) (η : SMap Json) (static : String → String) : TextSpan → Option String
  | .string t => some (static t)
  | .binder b => (S.scalar η b).map fun x => (applyPipe S.tr b.pipe x).evalString

/-- The text of spans. -/
def Scene.spans (S : Scene) (η : SMap Json) (static : String → String) (l : List TextSpan) : Option String :=
  (allOf (l.map (S.span η static))).map String.join

/-- The attributes a binding gives its element. -/
def Scene.attr (S : Scene) (η : SMap Json) : ElementBinding → Option (List (String × Option String))
  | .none key value => some [(key, some value)]
  | .attribute key spans => (S.spans η id spans).map fun t => [(key, some t)]
  | .tag key b => (S.scalar η b).map fun x =>
      [(key, if (applyPipe S.tr b.pipe x).evalBoolean then some key else none)]
  | _ => some []

/-- The names of the attributes an element gives. -/
def attributeNames (bs : List ElementBinding) : List String :=
  bs.filterMap fun b => match b with
    | .none key _ => some key
    | .attribute key _ => some key
    | .tag key _ => some key
    | _ => none

/-- Reading an attribute from a list of attributes. -/
def attributeOf (l : List (String × Option String)) : SMap String := fun key =>
  (l.find? (fun a => a.1 = key)).bind (·.2)

/-- The names the aliases of an element introduce, with what they stand for. -/
def aliasValues (w : Json) (η : SMap Json) : List ElementBinding → Option (SMap Json)
  | [] => some η
  | .alias name b :: bs => (b.value w η).bind fun x => aliasValues w (η.set name x) bs
  | _ :: bs => aliasValues w η bs

/-- What a child, after resolving a link, shows: a conditional child itself or nothing, a repeated child
itself for each of the first `count` items, any other child itself. -/
def Scene.child (S : Scene) (below : SMap Json → Html → Option Shown) (η : SMap Json) (c : Html) :
    Option (List Shown) :=
  (aliasValues S.value η c.bindings).bind fun η =>
  match c.asVisibility, c.asRepeat with
  | some (want, b), _ => (S.scalar η b).bind fun x =>
      if (applyPipe S.tr b.pipe x).evalBoolean = want then (below η c).map ([·]) else some []
  | none, some (name, count, b) =>
    if b.pipe ≠ [] then none else
    (b.value S.value η).bind fun array => allOf (((items array).take count).map fun x => below (η.set name x) c)
  | none, none => (below η c).map ([·])

/-- A child that is repeated. -/
def Html.isRepeat (c : Html) : Bool := c.asVisibility.isNone && c.asRepeat.isSome

/-- The children one after the other; no meaning is given to a repeat with siblings after it. -/
def Scene.children (S : Scene) (below : SMap Json → Html → Option Shown) (η : SMap Json) :
    List Html → Option (List Shown)
  | [] => some []
  | c :: cs =>
    match resolveChild S.env c with
    | .error _ => none
    | .ok c =>
      if c.isRepeat ∧ cs ≠ [] then none else
      (S.child below η c).bind fun a => (S.children below η cs).map (a ++ ·)

/-- What a template shows, to a nesting depth; no meaning is given to an element with the same attribute
twice.  An image has one empty child, the picture. -/
def Scene.present (S : Scene) : Nat → SMap Json → Html → Option Shown
  | 0, _, _ => none
  | depth + 1, η, h =>
    match h.text with
    | some spans => (S.spans η S.env.translate spans).map .text
    | none =>
      if ¬ (attributeNames h.bindings).Nodup then none else
      (allOf (h.bindings.map (S.attr η))).bind fun attrs =>
      (if h.tag = "img" then some [.element "" (fun _ => none) []]
        else if h.tag ∈ voidTags then some []
        else S.children (S.present depth) η h.children).map fun cs =>
      .element h.tag (attributeOf attrs.flatten) cs

/-- Every array of the last value was there in all the values before. -/
def SteadyArrays (s : Shape) (vs : List Json) (w : Json) : Prop :=
  ∀ p item x, s.read w p = some (.arr item, x) → ∀ v ∈ vs, (s.read v p).isSome

end Verif
