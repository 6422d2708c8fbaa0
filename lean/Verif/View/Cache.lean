import Verif.View.Whole
import Verif.Spec.Rules
/-!
# The results the layout engine keeps (`src/view.rs` 109-143, 175-294, 396-400; taffy 0.6)

`TaffyTree` keeps the results of layout at the nodes. `mark_dirty` throws away those of a node and of all nodes above it;
`set_style`, `add_child`, `insert_child_at_index` and `remove_child_at_index` call it for the node they change. The code
goes to some length to call them only when something changes (`view.rs` 396-400). This is third party code, written here
from its source semantics; the engine may use any result it has kept, and keeps any result of its own, which is more
freedom than it has. What is trusted is that a kept result is what computing it again from the same contents would give.
-/
namespace Verif

/-- `m a n c`: a result kept at `a` was computed with `n` having the contents `c`. -/
abbrev Memory : Type := NodeId → NodeId → Measured → Prop

/-- Nothing has been laid out yet. -/
def Memory.empty : Memory := fun _ _ _ => False

/-- The nodes `mark_dirty` of `n` reaches: `n` and, from parent to parent, those above it. -/
inductive Above (t : Tree) (a : NodeId) : NodeId → Prop
  | self : Above t a a
  | up {n q} : t.par n = some q → Above t a q → Above t a n

/-- `TaffyTree::mark_dirty`. -/
def Memory.mark (t : Tree) (n : NodeId) (m : Memory) : Memory := fun a x c => m a x c ∧ ¬ Above t a n

/-- The nodes a reaction marks (`view.rs` 175-294): a text that is set (184), a parent a child of which is attached
(218, 243) or detached (222, 248); and the picture of an image with a new source (`controls/img.rs` 28). -/
def touched (t : Tree) : Reaction → List NodeId
  | .type node _ _ => [node]
  | .reattach parent node visible => if decide (node ∈ t.kids parent) = visible then [] else [parent]
  | .repeat parent start cursor stop =>
    match t.ctx parent with
    | none => []
    | some e =>
      if (∃ n ∈ (e.children.take cursor).drop start, n ∉ t.kids parent) ∨ (∃ n ∈ (e.children.take stop).drop cursor, n ∈ t.kids parent) then [parent] else []
  | .bind node key _ _ => if (t.ctx node).any (fun e => e.tag = "img") ∧ key = "src" then (t.kids node).take 1 else []
  | .tag _ _ _ => []

/-- What is kept after a reaction. A parent is marked once for every child it gets or loses, which is the same as once. -/
def Memory.reaction (t : Tree) (m : Memory) (r : Reaction) : Memory := (touched t r).foldl (fun m n => m.mark t n) m

/-- What is kept after the reactions of an update (`view.rs` 111-114). -/
def Memory.reactions (inline : String → Option (List Declaration)) : Stage → Memory → List Reaction → Memory
  | _, m, [] => m
  | s, m, r :: rs =>
    match updateTree inline s r with
    | .error _ => m
    | .ok s' => Memory.reactions inline s' (m.reaction s.tree r) rs

/-- What is kept after binding a value. -/
def Memory.bound (inline : String → Option (List Declaration)) (v : View) (value : Json) (m : Memory) : Memory :=
  match v.vm.bind value with
  | none => m
  | some (_, reactions) => Memory.reactions inline v.stage m reactions

/-- `view.rs` 116-126, 396-400: `set_style` is called for the nodes whose layout style has changed. Each node is styled once,
so the nodes marked are those whose style is another one when styling is done. -/
def Memory.styled (layouts : NodeId → LayoutStyle) (s : Styled) (m : Memory) : Memory :=
  fun a x c => m a x c ∧ ∀ n, s.layouts n ≠ layouts n → ¬ Above s.tree a n

/-- What the engine takes a node for. -/
def Styled.taken (s : Styled) (recall : NodeId → Option Measured) (n : NodeId) : Measured := (recall n).getD (s.content n)

/-- `compute_layout_with_measure` (`view.rs` 135-139): from what is kept to what is kept afterwards, and what the engine takes the
nodes for. It is always asked the same question about the body, so that it does not compute anything if there is a
result at the body. -/
structure Lays (body : NodeId) (s : Styled) (m : Memory) (recall : NodeId → Option Measured) (m' : Memory) : Prop where
  recalls : ∀ n c, recall n = some c → Displayed s.tree body n ∧ ∃ a, m a n c
  hit : (∃ n c, m body n c) → ∀ n, Displayed s.tree body n → ∃ c, recall n = some c ∧ m body n c
  keeps : ∀ a n c, m' a n c → m a n c ∨ Displayed s.tree body a ∧ Displayed s.tree a n ∧ c = s.taken recall n
  body : ∀ n, Displayed s.tree body n → m' body n (s.taken recall n)

/-- An update of the program with the memory of its layout engine. -/
def Recalls (p : Platform) (fuel : Nat) (a : App) (m : Memory) (f : Frame) (m' : Memory) : Prop :=
  ∃ v styled, a.screen.view.update p.inline f.value = .ok v ∧
    styleView (a.env p fuel f.order f.input.time) fuel v.body f.input.viewport
      ⟨v.stage.tree, upd a.layouts v.root (resizeRoot f.input.viewport (a.layouts v.root))⟩ = .ok styled ∧
    Lays v.body styled ((m.bound p.inline a.screen.view f.value).styled a.layouts styled) f.order.recall m'

/-- Updates one after the other, in which the engine recalls only what it has kept. -/
inductive Cached (p : Platform) (fuel : Nat) : App → Memory → List Frame → App → Memory → List Output → Prop
  | nil {a m} : Cached p fuel a m [] a m []
  | cons {a m f a1 m1 fs a' m' out outs} : a.update p fuel f.order f.input f.value = .ok (a1, out) → Recalls p fuel a m f m1 →
      Cached p fuel a1 m1 fs a' m' outs → Cached p fuel a m (f :: fs) a' m' (out :: outs)

/-- `view.rs` 493-519 `measure_text`: the size of a node without children. `fonts` is `Fonts::measure` (`fonts.rs` 3-5), a known
size wins, `space` is the available width (`none` without limit, 0 for the least width). -/
def measureText (fonts : String → FontFace → Option Rat → Rat × Rat) (size : Option Rat × Option Rat) (space : Option Rat) (e : Option Element) : Rat × Rat :=
  match size with
  | (some width, some height) => (width, height)
  | _ =>
    match e with
    | none => (0, 0)
    | some e =>
      match e.text with
      | some t => fonts t.toString e.font (match size.1 with | some w => some w | none => space)
      | none => (0, 0)

end Verif
