import Verif.View.Update
/-!
# Templates (`src/html/reader.rs` 31-123, `src/view_model.rs` 569-598)
-/
namespace Verif

/-- `view_model.rs` 569-572 `Binder`.  Simplification: the grammar rule `Getter = Key ("." Key)*`
(`html.pest` 108) guarantees a non-empty path, here its head and tail. -/
structure Binder where
  head : String
  tail : List String
  pipe : List String
deriving DecidableEq, Repr

/-- `reader.rs` 99-103 `CallbackArgument`. -/
inductive CallbackArgument where
  | keyword (key : String)
  | event
  | binder (b : Binder)
deriving DecidableEq, Repr

/-- `reader.rs` 121-124 `TextSpan`. -/
inductive TextSpan where
  | string (s : String)
  | binder (b : Binder)
deriving DecidableEq, Repr

/-- `reader.rs` 88-96 `ElementBinding`; a `TextBinding` (105-108) is its list of spans. -/
inductive ElementBinding where
  | none (key value : String)
  | alias (name : String) (b : Binder)
  | tag (key : String) (b : Binder)
  | attribute (key : String) (spans : List TextSpan)
  | repeat (name : String) (count : Nat) (b : Binder)
  | callback (event : String) (arguments : List CallbackArgument)
  | visibility (visible : Bool) (b : Binder)
deriving DecidableEq, Repr

/-- `reader.rs` 31-36 `Html`. -/
inductive Html where
  | mk (tag : String) (bindings : List ElementBinding) (text : Option (List TextSpan))
    (children : List Html)

namespace Html
def tag : Html → String | mk t _ _ _ => t
def bindings : Html → List ElementBinding | mk _ b _ _ => b
def text : Html → Option (List TextSpan) | mk _ _ t _ => t
def children : Html → List Html | mk _ _ _ c => c
end Html

/-- `reader.rs` 39-46 `Html::empty`. -/
def Html.empty : Html := .mk "" [] none []

/-- `reader.rs` 50-60: the loop of `as_template_link`: the last `href` and the other bindings. -/
def linkParts : List ElementBinding → Option String → Option String × List ElementBinding
  | [], id => (id, [])
  | .none name value :: bs, id =>
    if name = "href" then linkParts bs (some value)
    else ((linkParts bs id).1, .none name value :: (linkParts bs id).2)
  | b :: bs, id => ((linkParts bs id).1, b :: (linkParts bs id).2)

/-- `reader.rs` 48-66 `as_template_link`. -/
def Html.asLink (h : Html) : Option (String × List ElementBinding) :=
  if h.tag = "link" then
    match linkParts h.bindings none with
    | (some id, bs) => some (id, bs)
    | (none, _) => none
  else none

/-- `reader.rs` 68-75 `as_visibility`: the first one. -/
def Html.asVisibility (h : Html) : Option (Bool × Binder) :=
  h.bindings.findSome? fun b => match b with | .visibility v b => some (v, b) | _ => none

/-- `reader.rs` 77-84 `as_repeat`: the first one. -/
def Html.asRepeat (h : Html) : Option (String × Nat × Binder) :=
  h.bindings.findSome? fun b => match b with | .repeat n c b => some (n, c, b) | _ => none

/-- `view_model.rs` 575-583 `Binder::to_string`. -/
def Binder.toText (b : Binder) : String :=
  let path := ".".intercalate (b.head :: b.tail)
  if b.pipe.length > 0 then "{ " ++ path ++ " | " ++ " | ".intercalate b.pipe ++ " }"
  else "{ " ++ path ++ " }"

/-- `view_model.rs` 587-597 `to_json_pointer`. -/
def Binder.pointer (b : Binder) (locals : SMap String) : String :=
  let head := (locals b.head).getD ("/" ++ b.head)
  if b.tail.length > 0 then head ++ "/" ++ "/".intercalate b.tail else head

end Verif
