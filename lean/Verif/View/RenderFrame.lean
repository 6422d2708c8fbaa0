import Verif.View.RenderTree
/-!
# What rendering does to tree and bindings (lemmas for C16, C18, C27)
-/
namespace Verif

/-- The bindings registered for a list of spans. -/
def spanRegs (params : Nat → BindingParams) (locals : SMap String) :
    List TextSpan → Nat → List (String × Binding)
  | [], _ => []
  | .string _ :: ss, i => spanRegs params locals ss (i + 1)
  | .binder b :: ss, i => (b.pointer locals, ⟨params i, b.pipe⟩) :: spanRegs params locals ss (i + 1)

theorem renderSpans_frame (params st) (ss : List TextSpan) (i : Nat) (σ : Render) :
    (renderSpans params st ss i σ).2.tree = σ.tree ∧
    (renderSpans params st ss i σ).2.locals = σ.locals ∧
    (renderSpans params st ss i σ).2.staticId = σ.staticId ∧
    (renderSpans params st ss i σ).1.length = ss.length ∧
    (renderSpans params st ss i σ).2.regs = σ.regs ++ spanRegs params σ.locals ss i := by
  induction ss generalizing i σ with
  | nil => simp [renderSpans, spanRegs]
  | cons s ss ih =>
    cases s with
    | string s =>
      obtain ⟨h1, h2, h3, h4, h5⟩ := ih (i + 1) σ
      simp [renderSpans, spanRegs, h1, h2, h3, h4, h5]
    | binder b =>
      obtain ⟨h1, h2, h3, h4, h5⟩ := ih (i + 1) (((σ.field b).2).register (σ.field b).1 ⟨params i, b.pipe⟩)
      simp only [renderSpans, h1, h2, h3, h5]
      simp [Render.field, Render.register, spanRegs] at *
      exact h4

theorem spanRegs_mem {params : Nat → BindingParams} {locals} {ss : List TextSpan} {i : Nat}
    {r : String × Binding} (h : r ∈ spanRegs params locals ss i) :
    ∃ j b, ss[j]? = some (.binder b) ∧ r = (b.pointer locals, ⟨params (i + j), b.pipe⟩) := by
  induction ss generalizing i with
  | nil => simp [spanRegs] at h
  | cons s ss ih =>
    cases s with
    | string s =>
      obtain ⟨j, b, h1, h2⟩ := ih h
      exact ⟨j + 1, b, by simpa using h1, by rw [h2]; congr 3; omega⟩
    | binder b =>
      simp only [spanRegs, List.mem_cons] at h
      rcases h with h | h
      · exact ⟨0, b, by simp, h⟩
      · obtain ⟨j, b', h1, h2⟩ := ih h
        exact ⟨j + 1, b', by simpa using h1, by rw [h2]; congr 3; omega⟩

theorem renderArguments_frame (as : List CallbackArgument) (σ : Render) :
    (renderArguments as σ).2.tree = σ.tree ∧ (renderArguments as σ).2.locals = σ.locals ∧
    (renderArguments as σ).2.staticId = σ.staticId ∧ (renderArguments as σ).2.regs = σ.regs := by
  induction as generalizing σ with
  | nil => simp [renderArguments]
  | cons a as ih =>
    cases a with
    | keyword k => simpa [renderArguments] using ih σ
    | event => simpa [renderArguments] using ih σ
    | binder b =>
      obtain ⟨h1, h2, h3, h4⟩ := ih (σ.field b).2
      simp only [renderArguments, h1, h2, h3, h4]
      simp [Render.field]

/-- What the hints of an element (`element.rs` 67-71) say about a bound attribute. -/
structure HintedAttr (h : StyleHints) (k : String) : Prop where
  mem : k ∈ h.dynamicAttrs
  classes : k = "class" → h.hasDynamicClasses = true
  id : k = "id" → h.hasDynamicId = true

/-- Hints only grow. -/
structure HintsLe (h h' : StyleHints) : Prop where
  mem : ∀ k ∈ h.dynamicAttrs, k ∈ h'.dynamicAttrs
  classes : h.hasDynamicClasses = true → h'.hasDynamicClasses = true
  id : h.hasDynamicId = true → h'.hasDynamicId = true

theorem HintsLe.refl (h : StyleHints) : HintsLe h h := ⟨fun _ => _root_.id, _root_.id, _root_.id⟩
theorem HintsLe.trans {a b c : StyleHints} (h1 : HintsLe a b) (h2 : HintsLe b c) : HintsLe a c :=
  ⟨fun k hk => h2.mem k (h1.mem k hk), fun h => h2.classes (h1.classes h), fun h => h2.id (h1.id h)⟩
theorem HintedAttr.mono {h h' : StyleHints} {k} (x : HintedAttr h k) (hl : HintsLe h h') : HintedAttr h' k :=
  ⟨hl.mem k x.mem, fun e => hl.classes (x.classes e), fun e => hl.id (x.id e)⟩

/-- What a binding on an element under construction needs. -/
def OwnBinding (node : NodeId) (e : Element) (b : Binding) : Prop :=
  match b.params with
  | .tag n k => n = node ∧ k ∈ e.hints.dynamicAttrs
  | .attribute n k _ => n = node ∧ (e.attrsBindings k).isSome ∧ HintedAttr e.hints k
  | _ => False

structure BindingStep (node : NodeId) (s s' : Element × Render) : Prop where
  tree : s'.2.tree = s.2.tree
  locals : s'.2.locals = s.2.locals
  sameNode : (s'.1.node, s'.1.state) = (s.1.node, s.1.state)
  tag : s'.1.tag = s.1.tag
  text : s'.1.text = s.1.text
  children : s'.1.children = s.1.children
  attrs : ∀ k, (s.1.attrsBindings k).isSome → (s'.1.attrsBindings k).isSome
  hints : HintsLe s.1.hints s'.1.hints
  regs : ∃ added, s'.2.regs = s.2.regs ++ added ∧ ∀ r ∈ added, OwnBinding node s'.1 r.2

theorem renderBinding_step (env : RenderEnv) (node : NodeId) (s : Element × Render) (b : ElementBinding) :
    BindingStep node s (renderBinding env node s b) := by
  obtain ⟨e, σ⟩ := s
  cases b with
  | none key value =>
    simp only [renderBinding]
    by_cases h1 : key = "style" <;> by_cases h2 : key = "id" <;>
      exact ⟨by simp [h1, h2], by simp [h1, h2], by simp [h1], by simp [h1], by simp [h1], by simp [h1],
        by simp [h1], by simp only [h1, if_true, if_false]; exact HintsLe.refl _, [], by simp [h1, h2], by simp⟩
  | alias n b => exact ⟨rfl, rfl, rfl, rfl, rfl, rfl, fun _ => id, HintsLe.refl _, [], by simp [renderBinding], by simp⟩
  | «repeat» n c b => exact ⟨rfl, rfl, rfl, rfl, rfl, rfl, fun _ => id, HintsLe.refl _, [], by simp [renderBinding], by simp⟩
  | visibility n b => exact ⟨rfl, rfl, rfl, rfl, rfl, rfl, fun _ => id, HintsLe.refl _, [], by simp [renderBinding], by simp⟩
  | tag key b =>
    refine ⟨rfl, rfl, rfl, rfl, rfl, rfl, fun _ => id, ?_, _, rfl, ?_⟩
    · exact ⟨fun k hk => by simp [renderBinding, hk], id, id⟩
    · simp [OwnBinding, renderBinding]
  | callback ev as =>
    obtain ⟨h1, h2, h3, h4⟩ := renderArguments_frame as σ
    exact ⟨h1, h2, rfl, rfl, rfl, rfl, fun _ => id, HintsLe.refl _, [], by simp [renderBinding, h4], by simp⟩
  | «attribute» key spans =>
    have main : ∀ spans', BindingStep node (e, σ)
        (let r := renderSpans (fun i => .attribute node key i) id spans' 0 σ
         let attr : TextContent := ⟨r.1⟩
         let hints := { e.hints with dynamicAttrs := e.hints.dynamicAttrs ++ [key] }
         let hints := if key = "class" then { hints with hasDynamicClasses := true } else hints
         let hints := if key = "id" then { hints with hasDynamicId := true } else hints
         ({ e with hints := hints, attrs := e.attrs.set key attr.toString, attrsBindings := e.attrsBindings.set key attr }, r.2)) := by
      intro spans'
      obtain ⟨h1, h2, h3, h4, h5⟩ := renderSpans_frame (fun i => .attribute node key i) id spans' 0 σ
      refine ⟨h1, h2, rfl, rfl, rfl, rfl, ?_, ?_, _, h5, ?_⟩
      · intro k hk
        by_cases hkk : k = key
        · subst hkk; simp
        · simpa [SMap.set_other _ _ hkk] using hk
      · by_cases hk1 : key = "class" <;> by_cases hk2 : key = "id" <;> simp only [hk1, hk2, if_true, if_false] <;>
          exact ⟨fun k hk => by simp [hk], fun h => by simp [h], fun h => by simp [h]⟩
      · intro r hr
        obtain ⟨j, b, -, rfl⟩ := spanRegs_mem hr
        refine ⟨rfl, by simp, ?_⟩
        by_cases hk1 : key = "class" <;> by_cases hk2 : key = "id" <;>
          exact ⟨by simp [hk1, hk2], fun h => by simp_all, fun h => by simp_all⟩
    match spans with
    | [] => exact main []
    | [.string v] =>
      exact ⟨rfl, rfl, rfl, rfl, rfl, rfl, fun _ => id, HintsLe.refl _, [], by simp [renderBinding], by simp⟩
    | [.binder b] => exact main [.binder b]
    | .string a :: b :: l => exact main (.string a :: b :: l)
    | .binder a :: b :: l => exact main (.binder a :: b :: l)

theorem BindingStep.trans {node : NodeId} {a b c : Element × Render} (h1 : BindingStep node a b)
    (h2 : BindingStep node b c) : BindingStep node a c := by
  obtain ⟨r1, e1, o1⟩ := h1.regs
  obtain ⟨r2, e2, o2⟩ := h2.regs
  refine ⟨h2.tree.trans h1.tree, h2.locals.trans h1.locals, h2.sameNode.trans h1.sameNode, h2.tag.trans h1.tag,
    h2.text.trans h1.text, h2.children.trans h1.children, fun k hk => h2.attrs k (h1.attrs k hk), h1.hints.trans h2.hints,
    r1 ++ r2, by rw [e2, e1, List.append_assoc], ?_⟩
  intro r hr
  rcases List.mem_append.1 hr with hr | hr
  · have := o1 r hr
    unfold OwnBinding at this ⊢
    split at this
    · exact ⟨this.1, h2.hints.mem _ this.2⟩
    · exact ⟨this.1, h2.attrs _ this.2.1, this.2.2.mono h2.hints⟩
    · exact this.elim
  · exact o2 r hr

theorem renderBindings_step (env : RenderEnv) (node : NodeId) (bs : List ElementBinding)
    (s : Element × Render) : BindingStep node s (bs.foldl (renderBinding env node) s) := by
  induction bs generalizing s with
  | nil => exact ⟨rfl, rfl, rfl, rfl, rfl, rfl, fun _ => id, HintsLe.refl _, [], by simp, by simp⟩
  | cons b bs ih => exact (renderBinding_step env node s b).trans (ih _)

theorem renderAliases_frame (bs : List ElementBinding) (ov : SMap (Option String)) (σ : Render) :
    (renderAliases bs ov σ).2.tree = σ.tree ∧ (renderAliases bs ov σ).2.regs = σ.regs ∧
    (renderAliases bs ov σ).2.staticId = σ.staticId := by
  induction bs generalizing ov σ with
  | nil => simp [renderAliases]
  | cons b bs ih =>
    cases b with
    | alias name b =>
      obtain ⟨h1, h2, h3⟩ := ih (ov.set name ((σ.field b).2.locals name))
        { (σ.field b).2 with locals := (σ.field b).2.locals.set name (σ.field b).1 }
      simp only [renderAliases, h1, h2, h3]
      simp [Render.field]
    | _ => simpa [renderAliases] using ih ov σ

/-- What the reactions of a binding need in the tree. -/
def BindOk (t : Tree) (b : Binding) : Prop :=
  match b.params with
  | .text n i => ∃ e tx, t.ctx n = some e ∧ e.text = some tx ∧ i < tx.spans.length
  | .visibility p c _ => ∃ e, t.ctx p = some e ∧ c ∈ e.children ∧ e.tag ≠ "img"
  | .attribute n k _ => ∃ e, t.ctx n = some e ∧ (e.attrsBindings k).isSome ∧ HintedAttr e.hints k
  | .tag n k => ∃ e, t.ctx n = some e ∧ k ∈ e.hints.dynamicAttrs
  | .repeat p s k => ∃ e, t.ctx p = some e ∧ s + k ≤ e.children.length ∧ e.tag ≠ "img"

theorem BindOk.congr {t t' : Tree} {b : Binding} (h : t'.ctx b.node = t.ctx b.node) (hb : BindOk t b) :
    BindOk t' b := by
  unfold BindOk at hb ⊢
  unfold Binding.node at h
  cases hp : b.params <;> simp only [hp] at hb h ⊢ <;> rw [h] <;> exact hb

/-- A binding of the nodes from `lo` on that is all right. -/
def Fine (lo : Nat) (t : Tree) (b : Binding) : Prop := BindOk t b ∧ lo ≤ b.node ∧ b.node < t.next

/-- A binding about the children of the element under construction. -/
def Pending (node : NodeId) (children : List NodeId) (bound : Nat) (b : Binding) : Prop :=
  match b.params with
  | .visibility p c _ => p = node ∧ c ∈ children
  | .repeat p s k => p = node ∧ s + k ≤ bound
  | _ => False

/-- Rendering a node: a new tree with that node on top, and fine bindings. -/
structure Grew (σ σ' : Render) (n : NodeId) : Prop where
  top : n = σ.tree.next
  forest : Forest σ.tree.next σ.tree σ'.tree [n]
  regs : ∃ added, σ'.regs = σ.regs ++ added ∧ ∀ r ∈ added, Fine σ.tree.next σ'.tree r.2

/-- Rendering the children of `node`. -/
structure Loop (node : NodeId) (σ0 : Render) (children : List NodeId) (bound : Nat) (σ : Render) : Prop where
  forest : Forest σ0.tree.next σ0.tree σ.tree children
  regs : ∃ added, σ.regs = σ0.regs ++ added ∧
    ∀ r ∈ added, Fine σ0.tree.next σ.tree r.2 ∨ Pending node children bound r.2

/-- The outcome of a rendering function: success as described, or an error of the template. -/
def Outcome {α} (P : α → Render → Prop) : Except RenderFail (α × Render) → Prop
  | .ok (a, σ) => P a σ
  | .error (.tree _) => False
  | .error _ => True

theorem Outcome.error {α β} {P : α → Render → Prop} {Q : β → Render → Prop} {e : RenderFail}
    (h : Outcome P (.error e)) : Outcome Q (.error e) := by
  cases e <;> first | exact h | trivial

/-- A rendering function that behaves. -/
def RecOk (rec : RenderFn) : Prop :=
  ∀ h σ, σ.tree.Clean → Outcome (fun n σ' => Grew σ σ' n) (rec h σ)

theorem Fine.mono {lo : Nat} {t t' : Tree} {tops : List NodeId} {b : Binding} (h : Fine lo t b)
    (hf : Forest t.next t t' tops) : Fine lo t' b :=
  ⟨h.1.congr (hf.old _ h.2.2).1, h.2.1, Nat.lt_of_lt_of_le h.2.2 hf.le⟩

theorem Pending.mono {node : NodeId} {a a' : List NodeId} {k k' : Nat} {b : Binding}
    (h : Pending node a k b) (ha : ∀ c ∈ a, c ∈ a') (hk : k ≤ k') : Pending node a' k' b := by
  unfold Pending at h ⊢
  cases hp : b.params <;> simp only [hp] at h ⊢
  · exact ⟨h.1, ha _ h.2⟩
  · exact ⟨h.1, Nat.le_trans h.2 hk⟩

theorem Loop.mono {node σ0 children k k' σ} (h : Loop node σ0 children k σ) (hk : k ≤ k') :
    Loop node σ0 children k' σ := by
  obtain ⟨f, added, e, hr⟩ := h
  exact ⟨f, added, e, fun r hr' => (hr r hr').imp id (fun p => p.mono (fun _ => id) hk)⟩

/-- Changing only schema, locals and ids does not matter. -/
theorem Loop.other {node σ0 children k σ} (h : Loop node σ0 children k σ) {σ' : Render}
    (ht : σ'.tree = σ.tree) (hr : σ'.regs = σ.regs) : Loop node σ0 children k σ' := by
  obtain ⟨f, added, e, hr'⟩ := h
  exact ⟨by rw [ht]; exact f, added, by rw [hr]; exact e, by rw [ht]; exact hr'⟩

theorem Loop.child {node σ0 children k σ σ' n} (h : Loop node σ0 children k σ) (g : Grew σ σ' n) :
    Loop node σ0 (children ++ [n]) k σ' := by
  obtain ⟨f, added, e, hr⟩ := h
  obtain ⟨-, gf, added', e', hr'⟩ := g
  refine ⟨f.append gf, added ++ added', by rw [e', e, List.append_assoc], ?_⟩
  intro r hm
  rcases List.mem_append.1 hm with hm | hm
  · rcases hr r hm with x | x
    · exact .inl (x.mono gf)
    · exact .inr (x.mono (by simp +contextual) (Nat.le_refl _))
  · obtain ⟨x1, x2, x3⟩ := hr' r hm
    exact .inl ⟨x1, Nat.le_trans f.le x2, x3⟩

theorem Loop.register {node σ0 children k σ} (h : Loop node σ0 children k σ) {path : String} {b : Binding}
    (hb : Pending node children k b) : Loop node σ0 children k (σ.register path b) := by
  obtain ⟨f, added, e, hr⟩ := h
  refine ⟨f, added ++ [(path, b)], by simp [Render.register, e], ?_⟩
  intro r hm
  rcases List.mem_append.1 hm with hm | hm
  · exact hr r hm
  · simp at hm; subst hm; exact .inr hb

theorem renderSlots_loop {rec : RenderFn} (hrec : RecOk rec) {name binder child node σ0} {bound : Nat}
    (ns : List Nat) (children : List NodeId) (σ : Render) (h : Loop node σ0 children bound σ) :
    Outcome (fun cs σ' => Loop node σ0 cs bound σ' ∧ cs.length = children.length + ns.length)
      (renderSlots rec name binder child ns children σ) := by
  induction ns generalizing children σ with
  | nil => exact ⟨h, rfl⟩
  | cons n ns ih =>
    simp only [renderSlots]
    have h1 : Loop node σ0 children bound
        { (σ.index binder n).2 with locals := (σ.index binder n).2.locals.set name (σ.index binder n).1 } :=
      h.other rfl rfl
    have := hrec child _ h1.forest.clean
    split
    · rename_i e he
      rw [he] at this
      exact this.error
    · rename_i c σ' he
      rw [he] at this
      have h2 := ih (children ++ [c]) σ' (h1.child this)
      revert h2
      generalize renderSlots rec name binder child ns (children ++ [c]) σ' = r
      intro h2
      match r, h2 with
      | .ok (cs, σ''), h2 => exact ⟨h2.1, by rw [h2.2]; simp; omega⟩
      | .error (.tree _), h2 => exact h2
      | .error (.templateNotFound _), _ => trivial
      | .error .outOfFuel, _ => trivial

theorem renderBody_loop {rec : RenderFn} (hrec : RecOk rec) {child node σ0} (children : List NodeId)
    (σ : Render) (h : Loop node σ0 children children.length σ) :
    Outcome (fun cs σ' => Loop node σ0 cs cs.length σ') (renderBody rec node child children σ) := by
  unfold renderBody
  split
  · rename_i visible binder _
    have h1 : Loop node σ0 children children.length (σ.field binder).2 := h.other rfl rfl
    have := hrec child _ h1.forest.clean
    simp only
    split
    · rename_i e he; rw [he] at this; exact this.error
    · rename_i c σ' he
      rw [he] at this
      have h2 := (h1.child this).mono (k' := (children ++ [c]).length) (by simp)
      exact h2.register (by simp [Pending])
  · split
    · rename_i name count binder _
      simp only
      have h1 : Loop node σ0 children (children.length + count)
          ((σ.field binder).2.register (σ.field binder).1 ⟨.repeat node children.length count, binder.pipe⟩) := by
        apply Loop.register
        · exact Loop.mono (k := children.length) (h.other rfl rfl) (by omega)
        · simp [Pending]
      have h2 : Loop node σ0 children (children.length + count)
          { ((σ.field binder).2.register (σ.field binder).1 ⟨.repeat node children.length count, binder.pipe⟩) with
            locals := (((σ.field binder).2.register (σ.field binder).1
              ⟨.repeat node children.length count, binder.pipe⟩)).locals.del name } := h1.other rfl rfl
      have h3 := renderSlots_loop hrec (name := name) (binder := binder) (child := child)
        (List.range count) children _ h2
      split
      · rename_i e he; rw [he] at h3; exact h3.error
      · rename_i cs σ' he
        rw [he] at h3
        have hl : cs.length = children.length + count := by simpa using h3.2
        exact Loop.mono (k := children.length + count) (h3.1.other rfl rfl) (by omega)
    · have := hrec child _ h.forest.clean
      split
      · rename_i e he; rw [he] at this; exact this.error
      · rename_i c σ' he
        rw [he] at this
        exact (h.child this).mono (by simp)

theorem renderChild_loop {env : RenderEnv} {rec : RenderFn} (hrec : RecOk rec) {child node σ0}
    (children : List NodeId) (σ : Render) (h : Loop node σ0 children children.length σ) :
    Outcome (fun cs σ' => Loop node σ0 cs cs.length σ') (renderChild env rec node child children σ) := by
  unfold renderChild
  split
  · rename_i e he
    unfold resolveChild at he
    split at he
    · split at he
      · injection he with he; subst he; trivial
      · simp at he
    · simp at he
  · rename_i child' he
    simp only
    obtain ⟨a1, a2, -⟩ := renderAliases_frame child'.bindings (fun _ => none) σ
    have h1 : Loop node σ0 children children.length (renderAliases child'.bindings (fun _ => none) σ).2 :=
      h.other a1 a2
    have h2 := renderBody_loop hrec (child := child') children _ h1
    split
    · rename_i e he; rw [he] at h2; exact h2
    · rename_i cs σ' he
      rw [he] at h2
      exact Loop.other h2 rfl rfl

theorem renderChildren_loop {env : RenderEnv} {rec : RenderFn} (hrec : RecOk rec) {node σ0}
    (hs : List Html) (children : List NodeId) (σ : Render) (h : Loop node σ0 children children.length σ) :
    Outcome (fun cs σ' => Loop node σ0 cs cs.length σ') (renderChildren env rec node hs children σ) := by
  induction hs generalizing children σ with
  | nil => exact h
  | cons c hs ih =>
    simp only [renderChildren]
    have h1 := renderChild_loop (env := env) hrec (child := c) children σ h
    split
    · rename_i e he; rw [he] at h1; exact h1
    · rename_i cs σ' he
      rw [he] at h1
      exact ih cs σ' h1

theorem clean_newLeaf {t : Tree} (h : t.Clean) : t.newLeaf.2.Clean :=
  fun m hm => h m (Nat.le_of_succ_le hm)

theorem renderContent_loop {env : RenderEnv} {rec : RenderFn} (hrec : RecOk rec) {node} {e : Element}
    (hs : List Html) (σ : Render) (hc : σ.tree.Clean) :
    Outcome (fun cs σ' => Loop node σ cs cs.length σ' ∧ (e.tag = "img" → cs ≠ [] ∧ σ'.regs = σ.regs))
      (renderContent env rec node e hs σ) := by
  unfold renderContent
  split
  · refine ⟨⟨?_, [], by simp [renderBgImage], by simp⟩, ?_⟩
    · exact forest_leaf hc _ rfl rfl (by simp)
    · intro _; simp [renderBgImage]
  · rename_i hi
    have h0 : Loop node σ [] 0 σ := ⟨.refl hc, [], by simp, by simp⟩
    split
    · exact ⟨h0, fun h => absurd h hi⟩
    · have := renderChildren_loop (env := env) hrec (node := node) hs [] σ h0
      revert this
      generalize renderChildren env rec node hs [] σ = r
      intro this
      match r, this with
      | .ok (cs, σ''), h2 => exact ⟨h2, fun h => absurd h hi⟩
      | .error (.tree _), h2 => exact h2
      | .error (.templateNotFound _), _ => trivial
      | .error .outOfFuel, _ => trivial

theorem renderText_grew (env : RenderEnv) (spans : List TextSpan) (σ : Render) (hc : σ.tree.Clean) :
    Grew σ (renderText env spans σ).2 (renderText env spans σ).1 := by
  have h := renderSpans_frame (fun i => .text σ.tree.newLeaf.1 i) env.translate spans 0
    { σ with tree := σ.tree.newLeaf.2 }
  obtain ⟨h1, h2, h3, h4, h5⟩ := h
  have hf : Forest σ.tree.next σ.tree (renderText env spans σ).2.tree [σ.tree.next] := by
    simp only [renderText, h1]
    exact forest_leaf hc _ rfl rfl (by simp)
  refine ⟨rfl, hf, _, h5, ?_⟩
  intro r hr
  obtain ⟨j, b, hj, rfl⟩ := spanRegs_mem hr
  refine ⟨?_, Nat.le_refl _, ?_⟩
  · refine ⟨_, _, upd_same _ _ _, rfl, ?_⟩
    simp only [h4]
    have := (List.getElem?_eq_some_iff.1 hj).1
    omega
  · simp only [renderText, h1]; exact Nat.lt_succ_self _

theorem renderElement_grew {env : RenderEnv} {rec : RenderFn} (hrec : RecOk rec) (h : Html) (σ : Render)
    (hc : σ.tree.Clean) : Outcome (fun n σ' => Grew σ σ' n) (renderElement env rec h σ) := by
  unfold renderElement
  simp only
  have hb := renderBindings_step env σ.tree.newLeaf.1 h.bindings
    ({ node := σ.tree.newLeaf.1, tag := h.tag }, { σ with tree := σ.tree.newLeaf.2 })
  generalize h.bindings.foldl (renderBinding env σ.tree.newLeaf.1)
    ({ node := σ.tree.newLeaf.1, tag := h.tag }, { σ with tree := σ.tree.newLeaf.2 }) = s at hb
  have ht : s.2.tree = σ.tree.newLeaf.2 := hb.tree
  have hl := renderContent_loop (env := env) hrec (node := σ.tree.newLeaf.1) (e := s.1) h.children s.2
    (by rw [ht]; exact clean_newLeaf hc)
  split
  · rename_i e he; rw [he] at hl; exact hl.error
  · rename_i cs σ' he
    rw [he] at hl
    obtain ⟨⟨hf, added, he2, hadd⟩, himg⟩ := hl
    rw [ht] at hf hadd
    obtain ⟨t2, hok⟩ := close_ok (e := { s.1 with children := cs }) hc hf
    have hok' : (σ'.tree.setCtx σ.tree.newLeaf.1 { s.1 with children := cs }).setChildren
        σ.tree.newLeaf.1 cs = .ok t2 := hok
    rw [hok']
    simp only
    obtain ⟨hF, hctx, hnext, hother⟩ := forest_close (e := s.1) hc hf (by rw [hb.sameNode]; rfl)
      (fun hi => (himg hi).1) hok
    obtain ⟨own, eown, hown⟩ := hb.regs
    refine ⟨rfl, hF, own ++ added, by simp only; rw [he2, eown, List.append_assoc], ?_⟩
    intro r hr
    have hlt : σ.tree.next < t2.next := by rw [hnext]; exact hf.le
    rcases List.mem_append.1 hr with hr | hr
    · have := hown r hr
      unfold OwnBinding at this
      unfold Fine BindOk Binding.node
      cases hp : r.2.params <;> simp only [hp] at this ⊢
      · obtain ⟨rfl, ha⟩ := this
        exact ⟨⟨_, hctx, ha⟩, Nat.le_refl _, hlt⟩
      · obtain ⟨rfl, ha⟩ := this
        exact ⟨⟨_, hctx, ha⟩, Nat.le_refl _, hlt⟩
    · rcases hadd r hr with ⟨x1, x2, x3⟩ | hpend
      · have hne : r.2.node ≠ σ.tree.next := Nat.ne_of_gt x2
        exact ⟨x1.congr (hother _ hne).1, Nat.le_of_lt x2, by rw [hnext]; exact x3⟩
      · have hni : s.1.tag ≠ "img" := by
          intro hi
          have := (himg hi).2
          rw [he2] at this
          have : added = [] := by simpa using this
          rw [this] at hr; simp at hr
        unfold Pending at hpend
        unfold Fine BindOk Binding.node
        cases hp : r.2.params <;> simp only [hp] at hpend ⊢
        · obtain ⟨rfl, hcs⟩ := hpend
          exact ⟨⟨_, hctx, hcs, hni⟩, Nat.le_refl _, hlt⟩
        · obtain ⟨rfl, hcs⟩ := hpend
          exact ⟨⟨_, hctx, hcs, hni⟩, Nat.le_refl _, hlt⟩

/-- Rendering any node builds a new tree on top of what exists and registers fine bindings; the only
errors are those of the template. -/
theorem renderNode_grew (env : RenderEnv) (fuel : Nat) : RecOk (renderNode env fuel) := by
  induction fuel with
  | zero => intro h σ _; trivial
  | succ fuel ih =>
    intro h σ hc
    simp only [renderNode]
    split
    · rename_i spans _
      exact renderText_grew env spans σ hc
    · exact renderElement_grew ih h σ hc

end Verif
