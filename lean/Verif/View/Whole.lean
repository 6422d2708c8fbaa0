import Verif.View.Layout
import Verif.View.View
import Verif.Html.Reader
import Verif.Css.Reader
/-!
# The whole program: opening a view from texts and updating it (`src/view.rs` 31-143, 320-355)

The parts have models of their own; here they are put together as in the code.
-/
namespace Verif

/-- How a call of the program can end without a result: an error value, a panic, a number that is not a
number, or not at all (`endless`: the fuel, which stands for time and stack, does not suffice). -/
inductive Halt where
  | error
  | panic
  | nan
  | endless
deriving DecidableEq, Repr

def Fail.halt : Fail → Halt
  | .err => .error
  | .panic => .panic

def RenderFail.halt : RenderFail → Halt
  | .templateNotFound _ => .error
  | .outOfFuel => .endless
  | .tree f => f.halt

def Trouble.halt : Trouble → Halt
  | .endless => .endless
  | .panic => .panic
  | .nan => .nan
  | .error => .error

/-- A result with the failures of the program as a whole. -/
def orHalt {ε α : Type} (f : ε → Halt) : Except ε α → Except Halt α
  | .ok a => .ok a
  | .error e => .error (f e)

/-- What the program runs on: whether arithmetic is checked (`nextTarget`), the translator, `read_inline_css`
(`none` for a refused text, see `Platform.Honest`), the transformers, and the layout solver with the fonts it
measures texts with. -/
structure Platform where
  checks : Bool
  translate : String → String
  inline : String → Option (List Declaration)
  transformers : Transformers
  solve : Styled → NodeId → Layout

/-- `inline` is `read_inline_css` (`css/reader.rs` 30-35). -/
def Platform.Honest (p : Platform) : Prop :=
  ∀ text, ∃ F, ∀ fuel ≥ F, readInline fuel text = some (match p.inline text with | some ds => .ok ds | none => .error .err)

/-- `view.rs` 18-28 `View` with all its parts: `screen` has the model, the tree, the nodes, the table of ids and
the state of input, `kept` the rules kept for each element (`element.styles`), `layouts` the layout styles of the
nodes. -/
structure App where
  screen : Screen
  css : Css
  kept : NodeId → List ElementStyle
  layouts : NodeId → LayoutStyle

/-- A loop over children that stops at an error (`view.rs` 350-352). -/
def keepEach {σ : Type} (f : σ → NodeId → Except Halt σ) : List NodeId → σ → Except Halt σ
  | [], s => .ok s
  | c :: cs, s =>
    match f s c with
    | .error e => .error e
    | .ok s => keepEach f cs s

/-- `view.rs` 320-355 `calculate_elements_stylesheet`; the first number bounds the depth of the recursion. -/
def keepRules (checks : Bool) (styles : List Style) (t : Tree) :
    Nat → NodeId → (NodeId → List ElementStyle) → Except Halt (NodeId → List ElementStyle)
  | 0, _, _ => .error .endless
  | depth + 1, n, kept =>
    match t.ctx n with
    | none => .error .error
    | some e =>
      match classify checks t n e styles with
      | .error f => .error f.halt
      | .ok l => keepEach (fun kept c => keepRules checks styles t depth c kept) (t.kids n) (upd kept n l)

/-- The layout styles of a rendered tree: `default_layout` (`default.rs` 82-113), and for the picture of an image
100% in both directions (`rendering.rs` 83-92). -/
def freshLayouts (t : Tree) (n : NodeId) : LayoutStyle :=
  if ((t.par n).bind t.ctx).any (fun e => e.tag = "img") then
    { width := .percent 1, height := .percent 1, minWidth := .percent 1, minHeight := .percent 1 }
  else {}

/-- `view.rs` 41-95: `from_html` after reading; `pipe` (102-107) as in `openView`. -/
def openApp (p : Platform) (fuel : Nat) (document : Html) (css : Css) : Except Halt App :=
  let ts := collect document.children (fun _ => none)
  match renderView ⟨ts.1, p.translate, p.inline⟩ fuel ts.2 with
  | .error e => .error e.halt
  | .ok (root, body, σ) =>
    match ViewModel.create (lookupRegs σ.regs) σ.schema p.transformers with
    | none => .error .panic
    | some vm =>
      match keepRules p.checks css.styles σ.tree fuel body (fun _ => []) with
      | .error h => .error h
      | .ok kept =>
        match updateTrees p.inline ⟨σ.tree, σ.staticId⟩ (defaultReactions (orderedBindings σ.regs)) with
        | .error f => .error f.halt
        | .ok stage => .ok ⟨⟨⟨vm, stage, root, body⟩, {}⟩, css, kept, freshLayouts σ.tree⟩

/-- `view.rs` 31-95 `from_html`. -/
def fromHtml (p : Platform) (fuel : Nat) (html css : String) : Except Halt App :=
  match readHtml fuel html with
  | none => .error .endless
  | some (.error f) => .error f.halt
  | some (.ok document) =>
    match readCss fuel css with
    | none => .error .endless
    | some (.error f) => .error f.halt
    | some (.ok css) => openApp p fuel document css

/-- `input.rs` 4-8 `Input`. -/
structure Input where
  time : Rat := 0
  viewport : Rat × Rat := (800, 600)
  events : List InputEvent := []

/-- `view.rs` 115-126: the size of the root follows the viewport, if both of its numbers have changed. -/
def resizeRoot (viewport : Rat × Rat) (l : LayoutStyle) : LayoutStyle :=
  if l.width ≠ .length viewport.1 ∧ l.height ≠ .length viewport.2 then
    { l with width := .length viewport.1, height := .length viewport.2 }
  else l

/-- What styling reads of a view in a frame. -/
def App.env (p : Platform) (fuel : Nat) (order : FrameOrder) (a : App) (time : Rat) : FrameEnv :=
  ⟨p.checks, a.kept, a.css.animations, time, fuel, order⟩

/-- `view.rs` 109-143 `update`; `order` is the order in which the hash maps are iterated in this frame. -/
def App.update (p : Platform) (fuel : Nat) (order : FrameOrder) (a : App) (input : Input) (value : Json) :
    Except Halt (App × Output) :=
  match a.screen.view.update p.inline value with
  | .error f => .error f.halt
  | .ok v =>
    let layouts := upd a.layouts v.root (resizeRoot input.viewport (a.layouts v.root))
    match styleView (a.env p fuel order input.time) fuel v.body input.viewport ⟨v.stage.tree, layouts⟩ with
    | .error t => .error t.halt
    | .ok styled =>
      match placeView (p.solve (styled.recall order.recall)) fuel v.body styled.tree with
      | .error t => .error t.halt
      | .ok tree =>
        match handleOutput v.emitter v.body input.events (tree, a.screen.ui) with
        | .error f => .error f.halt
        | .ok ((tree, ui), out) =>
          .ok (⟨⟨{ v with stage := { v.stage with tree := tree } }, ui⟩, a.css, a.kept, styled.layouts⟩, out)

/-- One frame: the orders of the hash maps, the input and the value. -/
structure Frame where
  order : FrameOrder
  input : Input
  value : Json

/-- Updates one after the other, with their outputs. -/
def App.run (p : Platform) (fuel : Nat) (a : App) : List Frame → Except Halt (App × List Output)
  | [] => .ok (a, [])
  | f :: fs =>
    match a.update p fuel f.order f.input f.value with
    | .error h => .error h
    | .ok (a, out) =>
      match a.run p fuel fs with
      | .error h => .error h
      | .ok (a, outs) => .ok (a, out :: outs)

end Verif
