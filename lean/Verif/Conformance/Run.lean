import Verif.Props.WholeExamples
/-!
# Running the tests of `src/view.rs` on the model

The harness of the tests in `Verif.Conformance.View` and `Verif.Conformance.Events`.
-/
namespace Verif.Conformance
open Verif

/-- A length in pixels. -/
def _root_.Verif.LengthPA.px : LengthPA → Option Rat
  | .length x => some x
  | _ => none
def _root_.Verif.LengthP.px : LengthP → Rat
  | .length x => x
  | _ => 0

/-- A layout solver for the tests: boxes below each other, as large as their content. -/
def flowSize (s : Styled) : Nat → NodeId → Rat × Rat
  | 0, _ => (0, 0)
  | depth + 1, n =>
    let l := s.layouts n
    let inner := ((s.tree.kids n).filter fun c => (s.layouts c).position = .relative).map (flowSize s depth)
    ((l.width.px).getD (inner.foldl (fun w b => max w b.1) 0 + l.padding.left.px + l.padding.right.px),
     (l.height.px).getD (inner.foldl (fun h b => h + b.2) 0 + l.padding.top.px + l.padding.bottom.px))

def flow (s : Styled) (n : NodeId) : Layout :=
  let size := flowSize s 10 n
  let l := s.layouts n
  match s.tree.par n with
  | none => { width := size.1, height := size.2 }
  | some q =>
    let p := s.layouts q
    match l.position with
    | .absolute => { x := l.inset.left.px.getD 0, y := l.inset.top.px.getD 0, width := size.1, height := size.2 }
    | .relative =>
      let before := ((s.tree.kids q).takeWhile (· ≠ n)).filter fun c => (s.layouts c).position = .relative
      { x := p.padding.left.px, y := p.padding.top.px + (before.map fun c => (flowSize s 10 c).2).foldl (· + ·) 0, width := size.1, height := size.2 }

/-- The platform of the tests: `FakeTranslator`, `read_inline_css`. -/
def testPlatform : Platform := ⟨true, id, fun t => match readInline 1000 t with | some (.ok ds) => some ds | _ => none, fun _ => none, flow⟩

def frameOf (time : Rat) (events : List InputEvent) (value : Json) : Frame := ⟨orderId, ⟨time, (800, 600), events⟩, value⟩

/-- Opening texts and updating them, looking at the view and its output after every update. -/
def watch {α : Type} (html css : String) (look : App → Output → α) (fs : List Frame) : Except Halt (List α) :=
  match fromHtml testPlatform 3000 html css with
  | .error e => .error e
  | .ok a => go a fs
where
  go (a : App) : List Frame → Except Halt (List α)
  | [] => .ok []
  | f :: fs =>
    match a.evalRun testPlatform 3000 [f] with
    | some (.ok (a, [out])) => (go a fs).map (look a out :: ·)
    | some (.error e) => .error e
    | _ => .error .endless

def _root_.Verif.App.kid (a : App) (path : List Nat) : Option Element := go a.screen.view.body path
where go (n : NodeId) : List Nat → Option Element
  | [] => a.screen.view.stage.tree.ctx n
  | i :: path => ((a.screen.view.stage.tree.kids n)[i]?).bind fun c => go c path


def idsOf (a : App) (_ : Output) : List String :=
  (a.screen.view.stage.tree.kids a.screen.view.body).map fun c => ((a.screen.view.stage.tree.ctx c).bind fun e => e.attrs "id").getD "?"

def kidCount (a : App) : Nat := (a.screen.view.stage.tree.kids a.screen.view.body).length

def msg (key value : String) : Json := .obj [(key, .str value)]

end Verif.Conformance
