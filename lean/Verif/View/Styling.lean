import Verif.Css.Apply
import Verif.Css.Animation
import Verif.Css.Matching
import Verif.Spec.Session
/-!
# Styling a frame (`src/styles/mod.rs` 61-127, `src/view.rs` 356-445)

Hash maps are iterated in orders that `FrameOrder` leaves open.
-/
namespace Verif

/-- What the layout engine reads of a node: its layout style, its children and, of a text, what `measure_text`
(`view.rs` 493-519) reads. -/
structure Measured where
  layout : LayoutStyle
  kids : List NodeId
  text : Option (TextContent × FontFace)

/-- What the code leaves open in one frame: the iteration orders of the hash maps, of the tracks of animator number `i`
of a node and of the computed style of a node; and what the layout engine, which keeps results, still takes a node for
(`none`: it looks again). Which recollections are possible is said in `View/Cache.lean`. -/
structure FrameOrder where
  tracks : NodeId → Nat → List Track → List Track
  style : NodeId → ComputedStyle → ComputedStyle
  recall : NodeId → Option Measured

/-- Iteration visits every entry once. -/
structure FrameOrder.Fair (o : FrameOrder) : Prop where
  tracks : ∀ n i l, (o.tracks n i l).Perm l
  style : ∀ n l, (o.style n l).Perm l

/-- What styling a frame reads besides the tree. `rules` are the rules kept for each element when the
document was opened (`element.styles`, `view.rs` 327-349, see `classify`); `checks` as in `nextTarget`. -/
structure FrameEnv where
  checks : Bool
  rules : NodeId → List ElementStyle
  animations : String → Option Animation
  time : Rat
  fuel : Nat
  order : FrameOrder

/-- `styles/mod.rs` 94-108: the animators, one after the other; an unknown animation is skipped. -/
def playAnimators (env : FrameEnv) (n : NodeId) (vars : Variables) :
    Nat → List Animator → ComputedStyle → Except Trouble (List Animator × ComputedStyle)
  | _, [], style => .ok ([], style)
  | i, a :: rest, style =>
    match env.animations a.name with
    | none =>
      match playAnimators env n vars (i + 1) rest style with
      | .error t => .error t
      | .ok (rest, style) => .ok (a :: rest, style)
    | some animation =>
      match computeTracks vars env.fuel animation style with
      | none => .error .endless
      | some tracks =>
        match a.play env.fuel env.time (env.order.tracks n i tracks) style with
        | .error t => .error t
        | .ok (a, style) =>
          match playAnimators env n vars (i + 1) rest style with
          | .error t => .error t
          | .ok (rest, style) => .ok (a :: rest, style)

/-- `styles/mod.rs` 111-113: the transitions, one after the other. -/
def playTransitions (fuel : Nat) (time : Rat) : List Transition → ComputedStyle → Except Trouble (List Transition × ComputedStyle)
  | [], style => .ok ([], style)
  | t :: rest, style =>
    match t.play fuel time style with
    | .error e => .error e
    | .ok (t, style) =>
      match playTransitions fuel time rest style with
      | .error e => .error e
      | .ok (rest, style) => .ok (t :: rest, style)

/-- `styles/mod.rs` 88-91: the blocks of an element: those of its rules, then the inline style. -/
def elementBlocks (rules : List Style) (inline : List Declaration) : List (List Declaration) :=
  rules.map (·.declaration) ++ (if inline.isEmpty then [] else [inline])

/-- `styles/mod.rs` 62-127 `Cascade::apply_styles`: layout style, element and variables afterwards. The rules
are matched before the first block is computed; in the code the two alternate. -/
def styleElement (env : FrameEnv) (t : Tree) (n : NodeId) (parent : Element) (sizes : Sizes) (vars : Variables)
    (layout : LayoutStyle) (e : Element) : Except Trouble ((LayoutStyle × Element) × Variables) :=
  let e := parent.inherit e.reset
  match applied env.checks viewPseudo t n (env.rules n) with
  | .error _ => .error .panic
  | .ok rules =>
    match computeBlocks env.fuel (elementBlocks rules e.style) vars [] with
    | none => .error .endless
    | some (vars, style) =>
      match playAnimators env n vars 0 e.animators style with
      | .error t => .error t
      | .ok (animators, style) =>
        match playTransitions env.fuel env.time e.transitions style with
        | .error t => .error t
        | .ok (transitions, style) =>
          let s := applyAll sizes (env.order.style n style) (layout, { e with animators := animators, transitions := transitions })
          .ok ((s.1, { s.2 with transitions := s.2.transitions.map fun t => t.init style }), vars)

/-- A tree with the layout styles of its nodes. -/
structure Styled where
  tree : Tree
  layouts : NodeId → LayoutStyle

/-- What the layout engine would read of a node now. -/
def Styled.content (s : Styled) (n : NodeId) : Measured :=
  ⟨s.layouts n, s.tree.kids n, (s.tree.ctx n).bind fun e => e.text.map fun t => (t, e.font)⟩

/-- The element the engine takes an element for. -/
def Element.recall (e : Element) (c : Measured) : Element :=
  match c.text with
  | none => e
  | some (t, f) => { e with text := some t, font := f }

/-- The tree the engine takes a tree for. -/
def Styled.recall (s : Styled) (r : NodeId → Option Measured) : Styled where
  tree := { s.tree with
    kids := fun n => match r n with | some c => c.kids | none => s.tree.kids n
    ctx := fun n => match r n with | some c => (s.tree.ctx n).map (·.recall c) | none => s.tree.ctx n }
  layouts := fun n => match r n with | some c => c.layout | none => s.layouts n

/-- The write back of a styled element (`view.rs` 378-398). -/
def Styled.put (s : Styled) (n : NodeId) (l : LayoutStyle) (e : Element) : Styled := ⟨s.tree.setCtx n e, upd s.layouts n l⟩

/-- `view.rs` 400-424: the tags whose children are not styled. -/
def leafTags : List String :=
  ["img", "input", "area", "base", "br", "col", "command", "embed", "hr", "keygen", "link", "meta", "param", "source", "track", "wbr"]

/-- The sizes for the children of an element (`view.rs` 428-429). -/
def Sizes.under (sizes : Sizes) (e : Element) : Sizes := { sizes with parentFontSize := e.font.size, parentColor := e.color }

/-- `view.rs` 427-431: a loop over children that stops at an error. -/
def forEach {σ : Type} (f : σ → NodeId → Except Trouble σ) : List NodeId → σ → Except Trouble σ
  | [], s => .ok s
  | c :: cs, s =>
    match f s c with
    | .error e => .error e
    | .ok s => forEach f cs s

/-- `view.rs` 357-437 `apply_styles`; `depth` bounds the depth of the tree. A node without parent or element is an
error there. -/
def styleTree (env : FrameEnv) : Nat → NodeId → Sizes → Variables → Styled → Except Trouble Styled
  | 0, _, _, _, _ => .error .endless
  | depth + 1, n, sizes, vars, s =>
    match (s.tree.par n).bind s.tree.ctx, s.tree.ctx n with
    | some parent, some e =>
      if e.text.isSome then .ok (s.put n (s.layouts n) (parent.inherit e))
      else
        match styleElement env s.tree n parent sizes vars (s.layouts n) e with
        | .error t => .error t
        | .ok ((l, e'), vars') =>
          if e'.tag ∈ leafTags then .ok (s.put n l e')
          else forEach (fun s c => styleTree env depth c (sizes.under e') vars' s) (s.tree.kids n) (s.put n l e')
    | _, _ => .error .error

/-- `view.rs` 124-130: styling begins at the body without variables. -/
def styleView (env : FrameEnv) (depth : Nat) (body : NodeId) (viewport : Rat × Rat) (s : Styled) : Except Trouble Styled :=
  styleTree env depth body ⟨16, 16, ⟨0, 0, 0, 0⟩, viewport.1, viewport.2⟩ (fun _ => none) s

end Verif
