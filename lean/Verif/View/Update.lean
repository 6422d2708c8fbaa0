import Verif.View.Tree
/-!
# Reactions on the tree (`src/view.rs` 175-318, `src/controls/img.rs` 19-31)
-/
namespace Verif

/-- The part of `View` (`view.rs` 18-28) reactions act on: tree and table of ids. -/
structure Stage where
  tree : Tree
  identified : SMap NodeId

/-- `view.rs` 214-227: the search for the insertion index.  `index` is the value of the loop variable
when the condition `index > 0` is tested. -/
def reattachIndex (definition current : List NodeId) (definitionIndex : Nat) : Nat → Except Fail Nat
  | 0 => .ok 0
  | index + 1 =>
    match current[index]? with
    | none => .error .panic
    | some sibling =>
      match definition.findIdx? (· == sibling) with
      | none => .error .err
      | some siblingIndex =>
        if siblingIndex < definitionIndex then .ok (index + 1)
        else reattachIndex definition current definitionIndex index

/-- `view.rs` 186-238: `Reaction::Reattach`. -/
def reattach (t : Tree) (parent node : NodeId) (visible : Bool) : Except Fail Tree := do
  let e ← t.elem parent
  let definition := e.children
  match definition.findIdx? (· == node) with
  | none => .error .err
  | some definitionIndex =>
    let current := t.kids parent
    let currentIndex := current.findIdx? (· == node)
    if visible then
      match currentIndex with
      | some _ => .ok t
      | none =>
        let index ← reattachIndex definition current definitionIndex (min current.length definitionIndex)
        t.insertChild parent index node
    else
      match currentIndex with
      | some i => t.removeChildAt parent i
      | none => .ok t

/-- `view.rs` 252-256: attach the shown slots that are not visible. -/
def repeatShow (visible : List NodeId) (parent : NodeId) : List NodeId → Tree → Except Fail Tree
  | [], t => .ok t
  | n :: ns, t => do
    let t ← if n ∈ visible then .ok t else t.addChild parent n
    repeatShow visible parent ns t

/-- `view.rs` 257-261: detach the hidden slots that are visible. -/
def repeatHide (visible : List NodeId) (parent : NodeId) : List NodeId → Tree → Except Fail Tree
  | [], t => .ok t
  | n :: ns, t => do
    let t ← if n ∈ visible then t.removeChild parent n else .ok t
    repeatHide visible parent ns t

/-- `view.rs` 239-262: `Reaction::Repeat`; the slices panic when out of bounds. -/
def repeatReact (t : Tree) (parent : NodeId) (start cursor stop : Nat) : Except Fail Tree := do
  let e ← t.elem parent
  let children := e.children
  let visible := t.kids parent
  if ¬ (start ≤ cursor ∧ cursor ≤ stop ∧ stop ≤ children.length) then .error .panic else
  let shown := (children.take cursor).drop start
  let hidden := (children.take stop).drop cursor
  let t ← repeatShow visible parent shown t
  repeatHide visible parent hidden t

/-- `controls/img.rs` 18-30 `update_img_src`. -/
def updateImgSrc (t : Tree) (img : NodeId) (src : String) : Except Fail Tree := do
  let child ← t.childAt img 0
  let _ ← t.elem child
  .ok (t.modify child fun e => { e with
    backgrounds := updateAt e.backgrounds 0 {} fun b => { b with image := some src, isSrc := true } })

/-- `view.rs` 271-294: `Reaction::Bind`. `inline` stands for `read_inline_css` (`none` = `Err`). -/
def bindReact (inline : String → Option (List Declaration)) (s : Stage) (node : NodeId) (key : String)
    (span : Nat) (text : String) : Except Fail Stage := do
  let e ← s.tree.elem node
  match e.attrsBindings key with
  | none => .error .err
  | some attr =>
    let attr := attr.set span text
    let value := attr.toString
    let e := { e with attrsBindings := e.attrsBindings.set key attr, attrs := e.attrs.set key value }
    let e := if key = "style" then { e with style := (inline value).getD e.style } else e
    let t := s.tree.setCtx node e
    let identified := if key = "id" then s.identified.set value node else s.identified
    let t ← if e.tag = "img" ∧ key = "src" then updateImgSrc t node value else .ok t
    .ok ⟨t, identified⟩

/-- `view.rs` 175-292 `update_tree`. -/
def updateTree (inline : String → Option (List Declaration)) (s : Stage) : Reaction → Except Fail Stage
  | .type node span text =>
    match s.tree.ctx node with
    | some e =>
      match e.text with
      | some t => .ok { s with tree := s.tree.setCtx node { e with text := some (t.set span text) } }
      | none => .error .err
    | none => .error .err
  | .reattach parent node visible => do
    let t ← reattach s.tree parent node visible
    .ok { s with tree := t }
  | .repeat parent start cursor stop => do
    let t ← repeatReact s.tree parent start cursor stop
    .ok { s with tree := t }
  | .tag node key tag => do
    let e ← s.tree.elem node
    let e := { e with attrs := if tag then e.attrs.set key key else e.attrs.del key }
    .ok { s with tree := s.tree.setCtx node e }
  | .bind node key span text => bindReact inline s node key span text

/-- `view.rs` 112-114: the reactions of an update, in order. -/
def updateTrees (inline : String → Option (List Declaration)) (s : Stage) : List Reaction → Except Fail Stage
  | [] => .ok s
  | r :: rs => do
    let s ← updateTree inline s r
    updateTrees inline s rs

/-- `view.rs` 298-318 `apply_default_bindings_state`: every conditional element is hidden.  `all` lists
the bindings in the iteration order of the map. -/
def defaultReactions (all : List Binding) : List Reaction :=
  all.filterMap fun b => match b.params with
    | .visibility parent node _ => some (.reattach parent node false)
    | _ => none

end Verif
