import Verif.View.Update
/-!
# Specification vocabulary for the displayed tree (C13-C16)
-/
namespace Verif

/-- The template children of a node: for the root the body, for an element the children its template
has (all branches of conditionals and all slots of repeats). -/
def Tree.slots (t : Tree) (root body p : NodeId) : List NodeId :=
  if p = root then [body] else
  match t.ctx p with
  | some e => e.children
  | none => []

/-- The node a binding is stored for: the one whose element its reactions read. -/
def Binding.node (b : Binding) : NodeId :=
  match b.params with
  | .text n _ => n
  | .visibility p _ _ => p
  | .attribute n _ _ => n
  | .tag n _ => n
  | .repeat p _ _ => p

/-- Positions `i..j` of a list. -/
def slice {α} (l : List α) (i j : Nat) : List α := (l.take j).drop i

/-- The displayed tree is a tree inside the template: links between parents and children agree, no child
is listed twice, displayed children are template children, template children are younger nodes than
their parent and belong to one parent only. -/
structure Tree.Wf (t : Tree) (root body : NodeId) : Prop where
  link : ∀ p c, c ∈ t.kids p ↔ t.par c = some p
  nodup : ∀ p, (t.kids p).Nodup
  sub : ∀ p c, c ∈ t.kids p → c ∈ t.slots root body p
  slotsNodup : ∀ p, (t.slots root body p).Nodup
  slotsYounger : ∀ p c, c ∈ t.slots root body p → p < c ∧ c < t.next ∧ (t.ctx c).isSome
  slotsUnique : ∀ p q c, c ∈ t.slots root body p → c ∈ t.slots root body q → p = q
  exist : ∀ n, (t.ctx n).isSome → n < t.next
  rootExists : (t.ctx root).isSome
  /-- the background child of an image stays displayed -/
  img : ∀ n e, t.ctx n = some e → e.tag = "img" → n ≠ root → e.children ≠ [] ∧ t.kids n = e.children

/-- What a reaction needs in order to be applicable: its node exists and has the text, attribute or
children the reaction is about. -/
def ReactionOk (t : Tree) (root body : NodeId) : Reaction → Prop
  | .type n _ _ => ∃ e, t.ctx n = some e ∧ e.text.isSome
  | .reattach p n _ => p ≠ root ∧ n ∈ t.slots root body p ∧ ∀ e, t.ctx p = some e → e.tag ≠ "img"
  | .repeat p i k j => p ≠ root ∧ i ≤ k ∧ k ≤ j ∧ j ≤ (t.slots root body p).length ∧
      ∃ e, t.ctx p = some e ∧ e.tag ≠ "img"
  | .tag n _ _ => (t.ctx n).isSome
  | .bind n key _ _ => n ≠ root ∧ ∃ e, t.ctx n = some e ∧ (e.attrsBindings key).isSome

/-- Which template children of `p` should be displayed after a reaction, given which were before. -/
def showStep (slots : List NodeId) (p : NodeId) (shown : NodeId → Bool) : Reaction → NodeId → Bool
  | .reattach q n v => fun c => if q = p ∧ c = n then v else shown c
  | .repeat q i k j => fun c =>
      if q = p ∧ c ∈ slice slots i j then decide (c ∈ slice slots i k) else shown c
  | _ => shown

/-- The same for a sequence of reactions. -/
def showAll (slots : List NodeId) (p : NodeId) (shown : NodeId → Bool) (rs : List Reaction) :
    NodeId → Bool :=
  rs.foldl (showStep slots p) shown

end Verif
