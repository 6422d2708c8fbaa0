import Verif.Css.Compute
/-!
# Specification vocabulary for the cascade (C43-C46)
-/
namespace Verif

/-- What a list of definitions means when variables are replaced by their values; `.error` stands for a
variable without a value. -/
inductive Computes (vars : Variables) : List Definition → List ComputedValue → Prop
  | nil : Computes vars [] []
  | known {name l ds a b} : vars name = some l → Computes vars l a → Computes vars ds b →
      Computes vars (.var name :: ds) (a ++ b)
  | unknown {name ds b} : vars name = none → Computes vars ds b → Computes vars (.var name :: ds) (.error :: b)
  | function {name args ds a b} : Computes vars args a → Computes vars ds b →
      Computes vars (.function name args :: ds) (computeFunction name a :: b)
  | explicit {v ds b} : Computes vars ds b → Computes vars (.explicit v :: ds) (v :: b)

/-- The values a block gives to a variable, in order. -/
def givenTo (name : String) (ds : List Declaration) : List Shorthand :=
  ds.filterMap fun d => match d with
    | .variable k l => if k = name then some l else none
    | .property _ _ => none

/-- The variables after some declarations: the last value given there, else the inherited one. -/
def scopeAfter (inherited : Variables) (ds : List Declaration) : Variables := fun name =>
  match (givenTo name ds).getLast? with
  | some l => some l
  | none => inherited name

/-- With these variables the declaration sets longhand `d` to `v`. -/
def Declaration.Sets (vars : Variables) (x : Declaration) (d : Descriptor) (v : ComputedValue) : Prop :=
  ∃ key values shorthand vs, x = .property key values ∧ values[d.index]? = some shorthand ∧
    Computes vars shorthand vs ∧ (d.key, v) ∈ expand key vs

/-- Declaration number `i` of the block sets longhand `d` to `v` (with the variables in scope there). -/
def SetsAt (inherited : Variables) (block : List Declaration) (i : Nat) (d : Descriptor) (v : ComputedValue) : Prop :=
  ∃ x, block[i]? = some x ∧ x.Sets (scopeAfter inherited (block.take i)) d v

/-- A variable is mentioned in a list of definitions. -/
inductive Mentions (name : String) : List Definition → Prop
  | var {ds} : Mentions name (.var name :: ds)
  | function {f args ds} : Mentions name args → Mentions name (.function f args :: ds)
  | tail {d ds} : Mentions name ds → Mentions name (d :: ds)

/-- No variable is defined, directly or not, by itself. -/
def Acyclic (vars : Variables) : Prop :=
  ∃ rank : String → Nat, ∀ name l, vars name = some l → ∀ m, Mentions m l → rank m < rank name

/-- The four sides CSS gives to one to four values: top, right, bottom, left. -/
def fourSides {α : Type} : List α → Option (α × α × α × α)
  | [a] => some (a, a, a, a)
  | [v, h] => some (v, h, v, h)
  | [t, h, b] => some (t, h, b, h)
  | [t, r, b, l] => some (t, r, b, l)
  | _ => none

/-- The box shorthands with their four longhands in the order of `fourSides` (for radii: from the top left
corner clockwise). -/
def boxShorthands : List (PropertyKey × PropertyKey × PropertyKey × PropertyKey × PropertyKey) :=
  [(.Margin, .MarginTop, .MarginRight, .MarginBottom, .MarginLeft),
   (.Padding, .PaddingTop, .PaddingRight, .PaddingBottom, .PaddingLeft),
   (.BorderWidth, .BorderTopWidth, .BorderRightWidth, .BorderBottomWidth, .BorderLeftWidth),
   (.BorderColor, .BorderTopColor, .BorderRightColor, .BorderBottomColor, .BorderLeftColor),
   (.BorderRadius, .BorderTopLeftRadius, .BorderTopRightRadius, .BorderBottomRightRadius, .BorderBottomLeftRadius)]

/-- The longhands of the supported shorthands (other than the box shorthands). -/
def otherShorthands : List (PropertyKey × List PropertyKey) :=
  [(.Background, [.BackgroundImage, .BackgroundColor]),
   (.BackgroundPosition, [.BackgroundPositionX, .BackgroundPositionY]),
   (.Border, [.BorderTopWidth, .BorderTopColor, .BorderRightWidth, .BorderRightColor,
              .BorderBottomWidth, .BorderBottomColor, .BorderLeftWidth, .BorderLeftColor]),
   (.BorderTop, [.BorderTopWidth, .BorderTopColor]),
   (.BorderRight, [.BorderRightWidth, .BorderRightColor]),
   (.BorderBottom, [.BorderBottomWidth, .BorderBottomColor]),
   (.BorderLeft, [.BorderLeftWidth, .BorderLeftColor]),
   (.Overflow, [.OverflowX, .OverflowY]),
   (.Inset, [.Top, .Right, .Bottom, .Left]),
   (.Gap, [.RowGap, .ColumnGap]),
   (.Transition, [.TransitionProperty, .TransitionDuration, .TransitionTimingFunction, .TransitionDelay]),
   (.Animation, [.AnimationDelay, .AnimationDuration, .AnimationIterationCount, .AnimationName, .AnimationTimingFunction])]

end Verif
