import Verif.View.Element
/-!
# Computed styles (`src/styles/mod.rs` 120-177, `compute_style.rs`, `compute_function.rs`)

Fuel stands for the stack: `computeDef` with too little of it is `none`, a stack overflow.
-/
namespace Verif

/-- `f32 as u8`: truncated towards zero and clamped (NaN is left out of the model). -/
def asU8 (x : Rat) : Nat := if x ≤ 0 then 0 else if 255 ≤ x then 255 else x.floor.toNat

/-- `compute_function.rs` 29-36 `map_c`. -/
def mapC : ComputedValue → Nat
  | .zero => 0
  | .percentage v => asU8 (v * 255)
  | .number v => asU8 v
  | _ => 0

/-- `compute_function.rs` 39-46 `map_a`. -/
def mapA : ComputedValue → Nat
  | .zero => 0
  | .percentage v => asU8 (v * 255)
  | .number v => asU8 (v * 255)
  | _ => 0

/-- `compute_function.rs` 11-24: the value of a function with computed arguments. -/
def computeFunction (name : String) (arguments : List ComputedValue) : ComputedValue :=
  if name = "rgb" then
    match arguments with
    | [r, g, b] => .color ⟨mapC r, mapC g, mapC b, 255⟩
    | _ => .error
  else if name = "rgba" then
    match arguments with
    | [r, g, b, a] => .color ⟨mapC r, mapC g, mapC b, mapA a⟩
    | _ => .error
  else if name = "url" then
    match arguments with
    | [.str path] => .str path
    | _ => .error
  else .error

/-- `styles/mod.rs` 28-33, 36: `Variables`, a map that is never iterated. -/
abbrev Variables := SMap Shorthand

/-- A loop that pushes to a vector, or never ends. -/
def gather {α β} (f : α → Option (List β)) : List α → Option (List β)
  | [] => some []
  | a :: as =>
    match f a with
    | none => none
    | some x =>
      match gather f as with
      | none => none
      | some y => some (x ++ y)

/-- `styles/mod.rs` 146-169 `compute_shorthand` for one definition, with `compute_function`
(`compute_function.rs` 7-26). -/
def computeDef (vars : Variables) : Nat → Definition → Option (List ComputedValue)
  | 0, _ => none
  | fuel + 1, .var name =>
    match vars name with
    | none => some [.error]
    | some shorthand => gather (computeDef vars fuel) shorthand
  | fuel + 1, .function name arguments =>
    match gather (computeDef vars fuel) arguments with
    | none => none
    | some values => some [computeFunction name values]
  | _ + 1, .explicit value => some [value]

/-- `styles/mod.rs` 146-169 `compute_shorthand`. -/
def computeShorthand (vars : Variables) (fuel : Nat) (ds : Shorthand) : Option (List ComputedValue) :=
  gather (computeDef vars fuel) ds

/-- The last arm but one of `compute_style.rs` 22-290: a single value is taken as it is. -/
def plainValue (key : PropertyKey) : List ComputedValue → List (PropertyKey × ComputedValue)
  | [value] => [(key, value)]
  | _ => []

/-- The arms for shorthands of four sides with one to four values. -/
def boxValues (a b c d : PropertyKey) : List ComputedValue → List (PropertyKey × ComputedValue)
  | [w, x, y, z] => [(a, w), (b, x), (c, y), (d, z)]
  | [w, x, y] => [(a, w), (b, x), (c, y), (d, x)]
  | [v, h] => [(a, v), (b, h), (c, v), (d, h)]
  | [v] => [(a, v), (b, v), (c, v), (d, v)]
  | _ => []

/-- The eight properties written for `border` (`compute_style.rs` 42-49, 57-64). -/
def borderValues (width color : ComputedValue) : List (PropertyKey × ComputedValue) :=
  [(.BorderTopWidth, width), (.BorderTopColor, color), (.BorderRightWidth, width), (.BorderRightColor, color),
   (.BorderBottomWidth, width), (.BorderBottomColor, color), (.BorderLeftWidth, width), (.BorderLeftColor, color)]

/-- The arms for one side of the border (`compute_style.rs` 66-81). -/
def sideValues (key width color : PropertyKey) : List ComputedValue → List (PropertyKey × ComputedValue)
  | [w, _, c] => [(width, w), (color, c)]
  | vs => plainValue key vs

/-- `compute_style.rs` 22-290: the properties that are overwritten, in order; none for what is not
supported. -/
def expand (key : PropertyKey) (values : List ComputedValue) : List (PropertyKey × ComputedValue) :=
  if key = .Background then
    match values with
    | [color] => [(.BackgroundImage, .keyword "none"), (.BackgroundColor, color)]
    | _ => []
  else if key = .BackgroundPosition then
    match values with
    | [value] => [(.BackgroundPositionX, value), (.BackgroundPositionY, value)]
    | [x, y] => [(.BackgroundPositionX, x), (.BackgroundPositionY, y)]
    | _ => []
  else if key = .Border then
    match values with
    | [.keyword keyword] => if keyword = "none" then borderValues .zero (.keyword "currentcolor") else []
    | [width, _, color] => borderValues width color
    | vs => plainValue key vs
  else if key = .BorderTop then sideValues key .BorderTopWidth .BorderTopColor values
  else if key = .BorderRight then sideValues key .BorderRightWidth .BorderRightColor values
  else if key = .BorderBottom then sideValues key .BorderBottomWidth .BorderBottomColor values
  else if key = .BorderLeft then sideValues key .BorderLeftWidth .BorderLeftColor values
  else if key = .BorderWidth then boxValues .BorderTopWidth .BorderRightWidth .BorderBottomWidth .BorderLeftWidth values
  else if key = .BorderColor then boxValues .BorderTopColor .BorderRightColor .BorderBottomColor .BorderLeftColor values
  else if key = .BorderRadius then
    boxValues .BorderTopLeftRadius .BorderTopRightRadius .BorderBottomRightRadius .BorderBottomLeftRadius values
  else if key = .Overflow then
    match values with
    | [value] => [(.OverflowX, value), (.OverflowY, value)]
    | [x, y] => [(.OverflowX, x), (.OverflowY, y)]
    | _ => []
  else if key = .Inset then
    match values with
    | [top, right, bottom, left] => [(.Top, top), (.Right, right), (.Bottom, bottom), (.Left, left)]
    | [value] => [(.Top, value), (.Right, value), (.Bottom, value), (.Left, value)]
    | _ => []
  else if key = .Gap then
    match values with
    | [column, row] => [(.RowGap, row), (.ColumnGap, column)]
    | [value] => [(.RowGap, value), (.ColumnGap, value)]
    | _ => []
  else if key = .Padding then boxValues .PaddingTop .PaddingRight .PaddingBottom .PaddingLeft values
  else if key = .Margin then boxValues .MarginTop .MarginRight .MarginBottom .MarginLeft values
  else if key = .Transition then
    match values with
    | [property, duration] => [(.TransitionProperty, property), (.TransitionDuration, duration)]
    | [property, duration, timing] =>
      [(.TransitionProperty, property), (.TransitionDuration, duration), (.TransitionTimingFunction, timing)]
    | [property, duration, timing, delay] =>
      [(.TransitionProperty, property), (.TransitionDuration, duration), (.TransitionTimingFunction, timing),
       (.TransitionDelay, delay)]
    | vs => plainValue key vs
  else if key = .Animation then
    match values with
    | [duration, timing, .time delay, name] =>
      [(.AnimationDelay, .time delay), (.AnimationDuration, duration), (.AnimationName, name),
       (.AnimationTimingFunction, timing)]
    | [duration, timing, iterations, name] =>
      [(.AnimationDuration, duration), (.AnimationIterationCount, iterations), (.AnimationName, name),
       (.AnimationTimingFunction, timing)]
    | [duration, timing, name] =>
      [(.AnimationDuration, duration), (.AnimationName, name), (.AnimationTimingFunction, timing)]
    | [duration, name] => [(.AnimationDuration, duration), (.AnimationName, name)]
    | vs => plainValue key vs
  else plainValue key values

/-- `css/model.rs` 147 `ComputedStyle`, a hash map that is iterated: an association list. -/
abbrev ComputedStyle := List (Descriptor × ComputedValue)

/-- `HashMap::get`. -/
def ComputedStyle.get (m : ComputedStyle) (d : Descriptor) : Option ComputedValue := (m.find? (·.1 == d)).map (·.2)

/-- `HashMap::insert`. -/
def ComputedStyle.insert (m : ComputedStyle) (d : Descriptor) (v : ComputedValue) : ComputedStyle :=
  m.filter (·.1 != d) ++ [(d, v)]

/-- The `overwrite`s of one property (`compute_style.rs` 18-20). -/
def overwrites (index : Nat) : List (PropertyKey × ComputedValue) → ComputedStyle → ComputedStyle
  | [], m => m
  | (key, value) :: l, m => overwrites index l (m.insert ⟨key, index⟩ value)

/-- `compute_style.rs` 7-291 `compute_style`. -/
def computeStyle (vars : Variables) (fuel : Nat) (key : PropertyKey) (index : Nat) (definition : Shorthand)
    (style : ComputedStyle) : Option ComputedStyle :=
  match computeShorthand vars fuel definition with
  | none => none
  | some values => some (overwrites index (expand key values) style)

/-- `styles/mod.rs` 138-140: the values of a property, from `index` on. -/
def computeValues (vars : Variables) (fuel : Nat) (key : PropertyKey) :
    Nat → List Shorthand → ComputedStyle → Option ComputedStyle
  | _, [], style => some style
  | index, value :: values, style =>
    match computeStyle vars fuel key index value style with
    | none => none
    | some style => computeValues vars fuel key (index + 1) values style

/-- `styles/mod.rs` 133-144 `compute_declaration_block`. -/
def computeBlock (fuel : Nat) : List Declaration → Variables → ComputedStyle → Option (Variables × ComputedStyle)
  | [], vars, style => some (vars, style)
  | .variable key shorthand :: block, vars, style => computeBlock fuel block (vars.set key shorthand) style
  | .property key values :: block, vars, style =>
    match computeValues vars fuel key 0 values style with
    | none => none
    | some style => computeBlock fuel block vars style

/-- `styles/mod.rs` 73-91: the blocks of the matching rules, then the inline style. -/
def computeBlocks (fuel : Nat) : List (List Declaration) → Variables → ComputedStyle → Option (Variables × ComputedStyle)
  | [], vars, style => some (vars, style)
  | block :: blocks, vars, style =>
    match computeBlock fuel block vars style with
    | none => none
    | some (vars, style) => computeBlocks fuel blocks vars style

end Verif
