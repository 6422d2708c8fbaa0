import Verif.View.Schema
/-!
# Rendering of a template (`src/rendering.rs`, `src/controls/img.rs` 9-16, `src/view.rs` 31-93)

The recursion of `render_node` goes through templates, so it need not terminate: `renderNode` takes the
maximal nesting depth as fuel and gives `outOfFuel` when it is exceeded.
-/
namespace Verif

/-- Why rendering does not produce a view. -/
inductive RenderFail where
  | templateNotFound (id : String)
  | outOfFuel
  | tree (f : Fail)
deriving DecidableEq, Repr

/-- `rendering.rs` 11-19 `Renderer`, mutable part.  `bindings: BTreeMap<String, Vec<Binding>>` is the
list of all `entry(path).or_default().push(binding)` in order. -/
structure Render where
  tree : Tree := .empty
  regs : List (String × Binding) := []
  locals : SMap String := fun _ => none
  schema : Json := .obj []
  staticId : SMap NodeId := fun _ => none

/-- `rendering.rs` 11-19 `Renderer`, constant part: templates, translator, and `read_inline_css`. -/
structure RenderEnv where
  templates : SMap Html
  translate : String → String
  inline : String → Option (List Declaration)

/-- `view_model.rs` 726-730 `Schema::field`. -/
def Render.field (σ : Render) (b : Binder) : String × Render :=
  (b.pointer σ.locals, { σ with schema := define σ.schema (b.pointer σ.locals) })

/-- `view_model.rs` 719-724 `Schema::index`. -/
def Render.index (σ : Render) (b : Binder) (i : Nat) : String × Render :=
  (b.pointer σ.locals ++ "/" ++ toString i,
    { σ with schema := define σ.schema (b.pointer σ.locals ++ "/" ++ toString i) })

/-- `self.bindings.entry(path).or_default().push(binding)`. -/
def Render.register (σ : Render) (path : String) (b : Binding) : Render :=
  { σ with regs := σ.regs ++ [(path, b)] }

/-- `rendering.rs` 56-74 and 146-164: the spans of a text or attribute. -/
def renderSpans (params : Nat → BindingParams) (static : String → String) :
    List TextSpan → Nat → Render → List String × Render
  | [], _, σ => ([], σ)
  | .string s :: ss, i, σ =>
    let (r, σ) := renderSpans params static ss (i + 1) σ
    (static s :: r, σ)
  | .binder b :: ss, i, σ =>
    let (path, σ) := σ.field b
    let σ := σ.register path ⟨params i, b.pipe⟩
    let (r, σ) := renderSpans params static ss (i + 1) σ
    (b.toText :: r, σ)

/-- `rendering.rs` 56-82 `render_text`. -/
def renderText (env : RenderEnv) (spans : List TextSpan) (σ : Render) : NodeId × Render :=
  let node := σ.tree.newLeaf.1
  let σ := { σ with tree := σ.tree.newLeaf.2 }
  let r := renderSpans (fun i => .text node i) env.translate spans 0 σ
  let element : Element := { node := node, text := some ⟨r.1⟩ }
  (node, { r.2 with tree := r.2.tree.setCtx node element })

/-- `rendering.rs` 84-100 `render_bg_image`. -/
def renderBgImage (src : String) (σ : Render) : NodeId × Render :=
  let node := σ.tree.newLeaf.1
  let t := σ.tree.newLeaf.2
  let element : Element := { node := node, backgrounds := [{ image := some src, isSrc := true }] }
  (node, { σ with tree := t.setCtx node element })

/-- `rendering.rs` 175-185: the arguments of a callback. -/
def renderArguments : List CallbackArgument → Render → List HandlerArgument × Render
  | [], σ => ([], σ)
  | .keyword k :: as, σ =>
    let (r, σ) := renderArguments as σ
    (.keyword k :: r, σ)
  | .event :: as, σ =>
    let (r, σ) := renderArguments as σ
    (.event :: r, σ)
  | .binder b :: as, σ =>
    let (path, σ) := σ.field b
    let (r, σ) := renderArguments as σ
    (.binder path b.pipe :: r, σ)

/-- `rendering.rs` 108-194: the loop over the bindings of an element, one step. -/
def renderBinding (env : RenderEnv) (node : NodeId) (s : Element × Render) (b : ElementBinding) :
    Element × Render :=
  let (e, σ) := s
  match b with
  | .none key value =>
    let e := if key = "style" then { e with style := (env.inline value).getD e.style } else e
    let σ := if key = "id" then { σ with staticId := σ.staticId.set value node } else σ
    ({ e with attrs := e.attrs.set key value }, σ)
  | .tag key b =>
    let (path, σ) := σ.field b
    let σ := σ.register path ⟨.tag node key, b.pipe⟩
    ({ e with hints := { e.hints with dynamicAttrs := e.hints.dynamicAttrs ++ [key] } }, σ)
  | .attribute key [.string value] => ({ e with attrs := e.attrs.set key value }, σ)
  | .attribute key spans =>
    let (texts, σ) := renderSpans (fun i => .attribute node key i) id spans 0 σ
    let attr : TextContent := ⟨texts⟩
    let hints := { e.hints with dynamicAttrs := e.hints.dynamicAttrs ++ [key] }
    let hints := if key = "class" then { hints with hasDynamicClasses := true } else hints
    let hints := if key = "id" then { hints with hasDynamicId := true } else hints
    ({ e with hints := hints, attrs := e.attrs.set key attr.toString,
              attrsBindings := e.attrsBindings.set key attr }, σ)
  | .callback event arguments =>
    let (arguments, σ) := renderArguments arguments σ
    ({ e with listeners := e.listeners.set event ⟨arguments⟩ }, σ)
  | .alias _ _ => (e, σ)
  | .repeat _ _ _ => (e, σ)
  | .visibility _ _ => (e, σ)

/-- `rendering.rs` 197-217: the tags that have no template children, except `img`. -/
def voidTags : List String :=
  ["input", "area", "base", "br", "col", "command", "embed", "hr", "keygen", "link", "meta", "param",
   "source", "track", "wbr"]

/-- `rendering.rs` 220-234: a link is replaced by its template with the bindings of the link first. -/
def resolveChild (env : RenderEnv) (child : Html) : Except RenderFail Html :=
  match child.asLink with
  | some (id, bs) =>
    match env.templates id with
    | none => .error (.templateNotFound id)
    | some t => .ok (.mk t.tag (bs ++ t.bindings) t.text t.children)
  | none => .ok child

/-- `rendering.rs` 236-245: the aliases of a child; what they override is remembered. -/
def renderAliases : List ElementBinding → SMap (Option String) → Render → SMap (Option String) × Render
  | [], overridden, σ => (overridden, σ)
  | .alias name b :: bs, overridden, σ =>
    let (path, σ) := σ.field b
    let overridden := overridden.set name (σ.locals name)
    renderAliases bs overridden { σ with locals := σ.locals.set name path }
  | _ :: bs, overridden, σ => renderAliases bs overridden σ

/-- `rendering.rs` 284-290: the aliases are undone.  The map is iterated in an unspecified order; its keys
are distinct, so the result does not depend on it. -/
def restore (overridden : SMap (Option String)) (locals : SMap String) : SMap String :=
  fun x => match overridden x with
    | some v => v
    | none => locals x

/-- Rendering of a node, the recursive call. -/
abbrev RenderFn := Html → Render → Except RenderFail (NodeId × Render)

/-- `rendering.rs` 269-275: the slots of a repeat. -/
def renderSlots (rec : RenderFn) (name : String) (binder : Binder) (child : Html) :
    List Nat → List NodeId → Render → Except RenderFail (List NodeId × Render)
  | [], children, σ => .ok (children, σ)
  | n :: ns, children, σ =>
    let (path, σ) := σ.index binder n
    let σ := { σ with locals := σ.locals.set name path }
    match rec child σ with
    | .error e => .error e
    | .ok (c, σ) => renderSlots rec name binder child ns (children ++ [c]) σ

/-- `rendering.rs` 247-282: what is rendered for one template child. -/
def renderBody (rec : RenderFn) (node : NodeId) (child : Html) (children : List NodeId) (σ : Render) :
    Except RenderFail (List NodeId × Render) :=
  match child.asVisibility with
  | some (visible, binder) =>
    let (path, σ) := σ.field binder
    match rec child σ with
    | .error e => .error e
    | .ok (c, σ) => .ok (children ++ [c], σ.register path ⟨.visibility node c visible, binder.pipe⟩)
  | none =>
    match child.asRepeat with
    | some (name, count, binder) =>
      let (array, σ) := σ.field binder
      let σ := σ.register array ⟨.repeat node children.length count, binder.pipe⟩
      let overridden := σ.locals name
      let σ := { σ with locals := σ.locals.del name }
      match renderSlots rec name binder child (List.range count) children σ with
      | .error e => .error e
      | .ok (children, σ) =>
        let locals := match overridden with
          | some v => σ.locals.set name v
          | none => σ.locals.del name
        .ok (children, { σ with locals := locals })
    | none =>
      match rec child σ with
      | .error e => .error e
      | .ok (c, σ) => .ok (children ++ [c], σ)

/-- `rendering.rs` 219-291: one template child, with its link and aliases. -/
def renderChild (env : RenderEnv) (rec : RenderFn) (node : NodeId) (child : Html)
    (children : List NodeId) (σ : Render) : Except RenderFail (List NodeId × Render) :=
  match resolveChild env child with
  | .error e => .error e
  | .ok child =>
    let (overridden, σ) := renderAliases child.bindings (fun _ => none) σ
    match renderBody rec node child children σ with
    | .error e => .error e
    | .ok (children, σ) => .ok (children, { σ with locals := restore overridden σ.locals })

/-- `rendering.rs` 219: the loop over the template children. -/
def renderChildren (env : RenderEnv) (rec : RenderFn) (node : NodeId) :
    List Html → List NodeId → Render → Except RenderFail (List NodeId × Render)
  | [], children, σ => .ok (children, σ)
  | h :: hs, children, σ =>
    match renderChild env rec node h children σ with
    | .error e => .error e
    | .ok (children, σ) => renderChildren env rec node hs children σ

/-- `rendering.rs` 195-293: the children of an element. -/
def renderContent (env : RenderEnv) (rec : RenderFn) (node : NodeId) (e : Element)
    (templates : List Html) (σ : Render) : Except RenderFail (List NodeId × Render) :=
  if e.tag = "img" then
    let r := renderBgImage ((e.attrs "src").getD "") σ
    .ok ([r.1], r.2)
  else if e.tag ∈ voidTags then .ok ([], σ)
  else renderChildren env rec node templates [] σ

/-- `rendering.rs` 102-298 `render_element`. -/
def renderElement (env : RenderEnv) (rec : RenderFn) (h : Html) (σ : Render) :
    Except RenderFail (NodeId × Render) :=
  let node := σ.tree.newLeaf.1
  let σ := { σ with tree := σ.tree.newLeaf.2 }
  let s := h.bindings.foldl (renderBinding env node) ({ node := node, tag := h.tag }, σ)
  match renderContent env rec node s.1 h.children s.2 with
  | .error e => .error e
  | .ok (children, σ) =>
    let t := σ.tree.setCtx node { s.1 with children := children }
    match t.setChildren node children with
    | .error f => .error (.tree f)
    | .ok t => .ok (node, { σ with tree := t })

/-- `rendering.rs` 48-54 `render_node`. -/
def renderNode (env : RenderEnv) : Nat → RenderFn
  | 0, _, _ => .error .outOfFuel
  | fuel + 1, h, σ =>
    match h.text with
    | some spans => .ok (renderText env spans σ)
    | none => renderElement env (renderNode env fuel) h σ

/-- `rendering.rs` 39-46 `render`: the root, the body and the final state. -/
def renderView (env : RenderEnv) (fuel : Nat) (body : Html) :
    Except RenderFail (NodeId × NodeId × Render) :=
  let σ : Render := {}
  let root := σ.tree.newLeaf.1
  let t := σ.tree.newLeaf.2.setCtx root { node := root }
  match renderNode env fuel body { σ with tree := t } with
  | .error e => .error e
  | .ok (body, σ) =>
    match σ.tree.addChild root body with
    | .error f => .error (.tree f)
    | .ok t => .ok (root, body, { σ with tree := t })

/-- `view.rs` 54-61: the id of a template: its last `id` attribute. -/
def templateId (bs : List ElementBinding) : Option String :=
  bs.foldl (fun id b => match b with
    | .none key value => if key = "id" then some value else id
    | _ => id) none

/-- `view.rs` 41-72: the loop over the children of the document: templates before the first body. -/
def collect : List Html → SMap Html → SMap Html × Html
  | [], ts => (ts, .empty)
  | h :: hs, ts =>
    if h.tag = "template" then
      match templateId h.bindings, h.children with
      | some id, [c] => collect hs (ts.set ("#" ++ id) c)
      | _, _ => collect hs ts
    else if h.tag = "body" then (ts, h)
    else collect hs ts

/-- The bindings of a path (`BTreeMap::get`). -/
def lookupRegs (regs : List (String × Binding)) : Bindings :=
  fun path => (regs.filter (fun r => r.1 = path)).map Prod.snd

end Verif
