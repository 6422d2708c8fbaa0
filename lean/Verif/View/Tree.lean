import Verif.View.Element
/-!
# The element tree (`src/tree.rs`; `taffy::TaffyTree<Element>`)

The operations of `TaffyTree` (taffy 0.6) are third party code; they are written here from its source
semantics.  What they do to the layout caches (`mark_dirty`) is in
`View/Cache.lean`.
-/
namespace Verif

/-- Why an operation does not return: an `Err(_)` or a panic. -/
inductive Fail where
  | err
  | panic
deriving DecidableEq, Repr

/-- `TaffyTree<Element>`: node contexts, children lists, parents.  Nodes are allocated from a counter;
the nodes that exist are those below `next`. -/
structure Tree where
  ctx : NodeId → Option Element
  kids : NodeId → List NodeId
  par : NodeId → Option NodeId
  next : Nat

/-- `TaffyTree::new`. -/
def Tree.empty : Tree := ⟨fun _ => none, fun _ => [], fun _ => none, 0⟩

/-- Update of a function at one point. -/
def upd {β} (f : NodeId → β) (n : NodeId) (v : β) : NodeId → β := fun x => if x = n then v else f x

@[simp] theorem upd_same {β} (f : NodeId → β) (n : NodeId) (v : β) : upd f n v n = v := by simp [upd]
theorem upd_other {β} (f : NodeId → β) {n x : NodeId} (v : β) (h : x ≠ n) : upd f n v x = f x := by
  simp [upd, h]

/-- `TaffyTree::new_leaf`. -/
def Tree.newLeaf (t : Tree) : NodeId × Tree := (t.next, { t with next := t.next + 1 })

/-- `TaffyTree::set_node_context(node, Some(element))`. -/
def Tree.setCtx (t : Tree) (n : NodeId) (e : Element) : Tree := { t with ctx := upd t.ctx n (some e) }

/-- `tree.rs` 11-23 `get_element`, `get_element_mut`. -/
def Tree.elem (t : Tree) (n : NodeId) : Except Fail Element :=
  match t.ctx n with
  | some e => .ok e
  | none => .error .err

/-- An update of an element through `get_element_mut`. -/
def Tree.modify (t : Tree) (n : NodeId) (f : Element → Element) : Tree :=
  { t with ctx := upd t.ctx n ((t.ctx n).map f) }

/-- `TaffyTree::add_child`. -/
def Tree.addChild (t : Tree) (p c : NodeId) : Except Fail Tree :=
  if p < t.next ∧ c < t.next then
    .ok { t with par := upd t.par c (some p), kids := upd t.kids p (t.kids p ++ [c]) }
  else .error .panic

/-- `TaffyTree::insert_child_at_index`. -/
def Tree.insertChild (t : Tree) (p : NodeId) (i : Nat) (c : NodeId) : Except Fail Tree :=
  if ¬ (p < t.next ∧ c < t.next) then .error .panic
  else if i > (t.kids p).length then .error .err
  else .ok { t with par := upd t.par c (some p), kids := upd t.kids p ((t.kids p).insertIdx i c) }

/-- `TaffyTree::remove_child_at_index`. -/
def Tree.removeChildAt (t : Tree) (p : NodeId) (i : Nat) : Except Fail Tree :=
  match (t.kids p)[i]? with
  | none => .error .err
  | some c => .ok { t with par := upd t.par c none, kids := upd t.kids p ((t.kids p).eraseIdx i) }

/-- `TaffyTree::remove_child`: position of the child (`unwrap`), then removal at that index. -/
def Tree.removeChild (t : Tree) (p c : NodeId) : Except Fail Tree :=
  match (t.kids p).findIdx? (· == c) with
  | none => .error .panic
  | some i => t.removeChildAt p i

/-- `TaffyTree::child_at_index`. -/
def Tree.childAt (t : Tree) (p : NodeId) (i : Nat) : Except Fail NodeId :=
  match (t.kids p)[i]? with
  | none => .error .err
  | some c => .ok c

/-- One step of `TaffyTree::set_children`: a child leaves its previous parent and gets this one. -/
def Tree.adopt (p : NodeId) (t : Tree) (c : NodeId) : Tree :=
  { t with
    kids := match t.par c with
      | some q => upd t.kids q ((t.kids q).erase c)
      | none => t.kids
    par := upd t.par c (some p) }

/-- `TaffyTree::set_children`: old children lose their parent, new ones leave their previous parent and
get this one, the list is replaced. -/
def Tree.setChildren (t : Tree) (p : NodeId) (cs : List NodeId) : Except Fail Tree :=
  if ¬ (p < t.next ∧ ∀ c ∈ cs, c < t.next) then .error .panic else
  let t1 : Tree := { t with par := fun x => if x ∈ t.kids p then none else t.par x }
  let t2 : Tree := cs.foldl (Tree.adopt p) t1
  .ok { t2 with kids := upd t2.kids p cs }

end Verif
