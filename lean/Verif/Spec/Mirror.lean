import Verif.Spec.Scope
import Verif.Spec.Tree
/-!
# Specification of the rendered tree (C24, C27, C61)

`Mirrors env ctx regs depth ρ h n` says that the node `n` is a rendering of the template node `h` in the
scope `ρ`: `ctx` gives the elements, `regs` the registered bindings.  It is a relation between the
template and the result and does not mention how the result was computed.
-/
namespace Verif

/-- The text a span shows before anything is bound. -/
def spanSource (static : String → String) : TextSpan → String
  | .string s => static s
  | .binder b => b.toText

/-- What a binding on an element says about attribute `key`. -/
def attrValue (key : String) : ElementBinding → Option String
  | .none k v => if k = key then some v else none
  | .attribute k spans => if k = key then some (String.join (spans.map (spanSource id))) else none
  | _ => none

/-- A callback argument with its path resolved. -/
def argValue (ρ : SMap String) : CallbackArgument → HandlerArgument
  | .keyword k => .keyword k
  | .event => .event
  | .binder b => .binder (b.denotes ρ) b.pipe

/-- What a binding on an element says about the listener of `event`. -/
def listenerValue (ρ : SMap String) (event : String) : ElementBinding → Option Handler
  | .callback e as => if e = event then some ⟨as.map (argValue ρ)⟩ else none
  | _ => none

/-- The bindings an element registers for itself. -/
def OwnRegistered (regs : List (String × Binding)) (ρ : SMap String) (n : NodeId) : ElementBinding → Prop
  | .tag key b => (b.denotes ρ, ⟨.tag n key, b.pipe⟩) ∈ regs
  | .attribute key spans => ∀ (i : Nat) b, spans[i]? = some (.binder b) →
      (b.denotes ρ, ⟨.attribute n key i, b.pipe⟩) ∈ regs
  | _ => True

/-- The binding `r` is one that `b` on the element `n` registers. -/
def OwnRegistration (ρ : SMap String) (n : NodeId) (r : String × Binding) : ElementBinding → Prop
  | .tag key b => r = (b.denotes ρ, ⟨.tag n key, b.pipe⟩)
  | .attribute key spans => ∃ (i : Nat) (b : Binder), spans[i]? = some (.binder b) ∧
      r = (b.denotes ρ, ⟨.attribute n key i, b.pipe⟩)
  | _ => False

/-- The spans of a bound attribute `key`. -/
def attrSpans (key : String) : ElementBinding → Option TextContent
  | .attribute _ [.string _] => none
  | .attribute k spans => if k = key then some ⟨spans.map (spanSource id)⟩ else none
  | _ => none

/-- The nodes `group` are a rendering of the template child `c` of `n`, from position `start` of its
children.  A conditional child has one node, a repeated one has as many as its count, and the loop
variable denotes the respective item in them.  `own` is the binding of the condition or of the repeat. -/
def MirrorsChild (env : RenderEnv)
    (below : SMap String → Html → NodeId → Prop) (ρ : SMap String) (n : NodeId) (start : Nat) (c : Html)
    (group : List NodeId) (own : List (String × Binding)) : Prop :=
  ∃ c', resolveChild env c = .ok c' ∧
    match c'.asVisibility, c'.asRepeat with
    | some (visible, b), _ => ∃ m, group = [m] ∧ below (aliasScope ρ c'.bindings).1 c' m ∧
        own = [(b.denotes (aliasScope ρ c'.bindings).1, ⟨.visibility n m visible, b.pipe⟩)]
    | none, some (name, count, b) => group.length = count ∧
        own = [(b.denotes (aliasScope ρ c'.bindings).1, ⟨.repeat n start count, b.pipe⟩)] ∧
        ∀ (k : Nat) m, group[k]? = some m →
          below ((aliasScope ρ c'.bindings).1.set name
            (b.denotes (aliasScope ρ c'.bindings).1 ++ "/" ++ toString k)) c' m
    | none, none => ∃ m, group = [m] ∧ below (aliasScope ρ c'.bindings).1 c' m ∧ own = []

/-- The template children one after the other, and the bindings of conditions and repeats. -/
def MirrorsChildren (env : RenderEnv)
    (below : SMap String → Html → NodeId → Prop) (ρ : SMap String) (n : NodeId) :
    Nat → List Html → List NodeId → List (String × Binding) → Prop
  | _, [], nodes, own => nodes = [] ∧ own = []
  | start, c :: cs, nodes, own => ∃ group rest o o', nodes = group ++ rest ∧ own = o ++ o' ∧
      MirrorsChild env below ρ n start c group o ∧
      MirrorsChildren env below ρ n (start + group.length) cs rest o'

/-- See above.  No other bindings are registered for `n` than those of its template. -/
def Mirrors (env : RenderEnv) (ctx : NodeId → Option Element) (regs : List (String × Binding)) :
    Nat → SMap String → Html → NodeId → Prop
  | 0, _, _, _ => False
  | depth + 1, ρ, h, n => ∃ e, ctx n = some e ∧ e.node = n ∧
    match h.text with
    | some spans => e.text = some ⟨spans.map (spanSource env.translate)⟩ ∧ e.tag = "" ∧ e.children = [] ∧
        (∀ (i : Nat) b, spans[i]? = some (.binder b) → (b.denotes ρ, ⟨.text n i, b.pipe⟩) ∈ regs) ∧
        ∀ r ∈ regs, r.2.node = n →
          ∃ (i : Nat) (b : Binder), spans[i]? = some (.binder b) ∧ r = (b.denotes ρ, ⟨.text n i, b.pipe⟩)
    | none => e.text = none ∧ e.tag = h.tag ∧
        (∀ key, e.attrs key = (h.bindings.filterMap (attrValue key)).getLast?) ∧
        (∀ event, e.listeners event = (h.bindings.filterMap (listenerValue ρ event)).getLast?) ∧
        (∀ key, e.attrsBindings key = (h.bindings.filterMap (attrSpans key)).getLast?) ∧
        (∀ b ∈ h.bindings, OwnRegistered regs ρ n b) ∧
        ∃ own, (∀ r ∈ own, r ∈ regs) ∧
        (∀ r ∈ regs, r.2.node = n → (∃ b ∈ h.bindings, OwnRegistration ρ n r b) ∨ r ∈ own) ∧
        if h.tag = "img" then own = [] ∧ ∃ c bg, e.children = [c] ∧ ctx c = some bg ∧
            bg.backgrounds.map (·.image) = [some ((e.attrs "src").getD "")] ∧ bg.children = [] ∧
            bg.node = c ∧ bg.tag = "" ∧ bg.text = none ∧ (∀ key, bg.attrs key = none) ∧
            ∀ r ∈ regs, r.2.node ≠ c
        else if h.tag ∈ voidTags then e.children = [] ∧ own = []
        else MirrorsChildren env (Mirrors env ctx regs depth) ρ n 0 h.children e.children own

end Verif
