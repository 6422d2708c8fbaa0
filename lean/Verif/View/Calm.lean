import Verif.View.WholeLemmas
import Verif.Spec.Whole
/-!
# What is kept true of inline styles, animators and transitions (lemmas for C74, C77, C84, C85)
-/
namespace Verif

/-- What is kept true of elements: of inline styles, animators and transitions. -/
structure Manner where
  /-- Inline styles may be bound. -/
  free : Prop
  block : List Declaration → Prop
  animator : Animator → Prop
  transition : Transition → Prop
  none : block []

/-- Only what is said of animators and transitions. -/
def Manner.loose (G : Manner) : Manner := { G with free := True, block := fun _ => True, none := trivial }

/-- Besides, inline styles are not bound. -/
def Manner.strict (G : Manner) : Manner := { G with free := False }

/-- An inline style, animators and transitions of a manner. -/
structure Element.Calm (G : Manner) (e : Element) : Prop where
  bound : G.free ∨ e.attrsBindings "style" = Option.none
  style : G.block e.style
  animators : ∀ a ∈ e.animators, G.animator a
  transitions : ∀ t ∈ e.transitions, G.transition t

theorem Element.Calm.fresh {G : Manner} {e : Element} (h1 : e.attrsBindings "style" = Option.none) (h2 : e.style = []) (h3 : e.animators = []) (h4 : e.transitions = []) :
    e.Calm G := ⟨.inr h1, by rw [h2]; exact G.none, by rw [h3]; simp, by rw [h4]; simp⟩

def Tree.Calm (G : Manner) (t : Tree) : Prop := ∀ n e, t.ctx n = some e → e.Calm G

variable {G : Manner}

theorem Tree.Calm.setCtx {t : Tree} (h : t.Calm G) {n : NodeId} {e : Element} (he : e.Calm G) : (t.setCtx n e).Calm G := by
  intro m x hx
  by_cases hm : m = n
  · subst hm
    simp only [Tree.setCtx, upd_same, Option.some.injEq] at hx
    subst hx; exact he
  · simp only [Tree.setCtx, upd_other _ _ hm] at hx
    exact h m x hx

theorem Tree.Calm.ctx {t t' : Tree} (h : t.Calm G) (hc : t'.ctx = t.ctx) : t'.Calm G := by
  intro m x hx; rw [hc] at hx; exact h m x hx

/-! ## Rendering -/

/-- What a binding may do to the inline style. -/
def CalmBinding (inline : String → Option (List Declaration)) (G : Manner) (b : ElementBinding) : Prop :=
  match b with
  | .none key value => key = "style" → ∀ ds, inline value = some ds → G.block ds
  | .attribute key _ => G.free ∨ key ≠ "style"
  | _ => True

def CalmHtml (inline : String → Option (List Declaration)) (G : Manner) (h : Html) : Prop :=
  ∀ b ∈ h.bindings, CalmBinding inline G b

theorem renderBinding_calm {env : RenderEnv} {node : NodeId} {s : Element × Render} {b : ElementBinding} (hb : CalmBinding env.inline G b)
    (he : s.1.Calm G) : (renderBinding env node s b).1.Calm G ∧ (renderBinding env node s b).2.tree = s.2.tree := by
  obtain ⟨e, σ⟩ := s
  have he : e.Calm G := he
  cases b with
  | none key value =>
    simp only [renderBinding]
    refine ⟨?_, ?_⟩
    · split
      · rename_i hk
        subst hk
        refine ⟨he.bound, ?_, he.animators, he.transitions⟩
        simp only
        cases hi : env.inline value with
        | none => exact he.style
        | some ds => exact hb rfl ds hi
      · exact ⟨he.bound, he.style, he.animators, he.transitions⟩
    · split <;> rfl
  | tag key b => exact ⟨⟨he.bound, he.style, he.animators, he.transitions⟩, rfl⟩
  | «attribute» key spans =>
    have hbound : ∀ x, G.free ∨ (e.attrsBindings.set key x) "style" = Option.none := fun x => by
      rcases hb with hb | hk
      · exact .inl hb
      · refine he.bound.imp id fun h => ?_
        simp only [SMap.set, if_neg (Ne.symm hk)]; exact h
    have hs := fun sp => (renderSpans_frame (fun i => .attribute node key i) id sp 0 σ).1
    match spans, hs spans with
    | [.string value], _ => exact ⟨⟨he.bound, he.style, he.animators, he.transitions⟩, rfl⟩
    | [], h => exact ⟨⟨hbound _, he.style, he.animators, he.transitions⟩, h⟩
    | [.binder b], h => exact ⟨⟨hbound _, he.style, he.animators, he.transitions⟩, h⟩
    | .string a :: b :: l, h => exact ⟨⟨hbound _, he.style, he.animators, he.transitions⟩, h⟩
    | .binder a :: b :: l, h => exact ⟨⟨hbound _, he.style, he.animators, he.transitions⟩, h⟩
  | callback event arguments =>
    exact ⟨⟨he.bound, he.style, he.animators, he.transitions⟩, (renderArguments_frame arguments σ).1⟩
  | «alias» _ _ => exact ⟨he, rfl⟩
  | «repeat» _ _ _ => exact ⟨he, rfl⟩
  | visibility _ _ => exact ⟨he, rfl⟩

theorem renderBindings_calm {env : RenderEnv} {node : NodeId} (bs : List ElementBinding) {s : Element × Render} (hb : ∀ b ∈ bs, CalmBinding env.inline G b)
    (he : s.1.Calm G) : (bs.foldl (renderBinding env node) s).1.Calm G ∧ (bs.foldl (renderBinding env node) s).2.tree = s.2.tree := by
  induction bs generalizing s with
  | nil => exact ⟨he, rfl⟩
  | cons b bs ih =>
    obtain ⟨h1, h2⟩ := renderBinding_calm (env := env) (node := node) (hb b (by simp)) he
    obtain ⟨h3, h4⟩ := ih (s := renderBinding env node s b) (fun b hb' => hb b (by simp [hb'])) h1
    exact ⟨h3, h4.trans h2⟩

/-- What rendering a node does. -/
def RecCalm (G : Manner) (Q : Html → Prop) (rec : RenderFn) : Prop :=
  ∀ h σ n σ', Q h → rec h σ = .ok (n, σ') → σ.tree.Calm G → σ'.tree.Calm G

theorem renderSlots_calm {Q : Html → Prop} {rec : RenderFn} (hrec : RecCalm G Q rec) {child : Html} (hQ : Q child) {name : String} {b : Binder}
    (ns : List Nat) : ∀ (cs : List NodeId) (σ : Render) {cs' σ'}, renderSlots rec name b child ns cs σ = .ok (cs', σ') → σ.tree.Calm G → σ'.tree.Calm G := by
  induction ns with
  | nil => intro cs σ cs' σ' h hc; simp only [renderSlots, Except.ok.injEq, Prod.mk.injEq] at h; rw [← h.2]; exact hc
  | cons n ns ih =>
    intro cs σ cs' σ' h hc
    simp only [renderSlots] at h
    split at h
    · cases h
    · rename_i c σ1 he
      exact ih _ _ h (hrec _ _ _ _ hQ he hc)

theorem renderBody_calm {Q : Html → Prop} {rec : RenderFn} (hrec : RecCalm G Q rec) {child : Html} (hQ : Q child) {node : NodeId} (cs : List NodeId)
    (σ : Render) {cs' σ'} (h : renderBody rec node child cs σ = .ok (cs', σ')) (hc : σ.tree.Calm G) : σ'.tree.Calm G := by
  unfold renderBody at h
  split at h
  · simp only at h
    split at h
    · cases h
    · rename_i c σ1 he
      simp only [Except.ok.injEq, Prod.mk.injEq] at h
      obtain ⟨-, rfl⟩ := h
      have := hrec _ _ _ _ hQ he hc
      exact this
  · split at h
    · simp only at h
      split at h
      · cases h
      · rename_i cs1 σ1 he
        simp only [Except.ok.injEq, Prod.mk.injEq] at h
        obtain ⟨-, rfl⟩ := h
        have := renderSlots_calm hrec hQ _ _ _ he hc
        exact this
    · split at h
      · cases h
      · rename_i c σ1 he
        simp only [Except.ok.injEq, Prod.mk.injEq] at h
        obtain ⟨-, rfl⟩ := h
        exact hrec _ _ _ _ hQ he hc

theorem asLink_bindings {c : Html} {id : String} {bs : List ElementBinding} (h : c.asLink = some (id, bs)) : ∀ b ∈ bs, b ∈ c.bindings := by
  rw [asLink_spec, Option.map_eq_some_iff] at h
  obtain ⟨id', -, h⟩ := h
  simp only [Prod.mk.injEq] at h
  rw [← h.2]
  intro b hb
  exact (List.mem_filter.1 hb).1

theorem resolve_calm {env : RenderEnv} {c c' : Html} {inline} (hr : resolveChild env c = .ok c') (hc : CalmHtml inline G c)
    (ht : ∀ id t, env.templates id = some t → CalmHtml inline G t) : CalmHtml inline G c' := by
  unfold resolveChild at hr
  split at hr
  · rename_i id bs hl
    split at hr
    · cases hr
    · rename_i t htt
      injection hr with hr; subst hr
      intro b hb
      rcases List.mem_append.1 hb with hb | hb
      · exact hc b (asLink_bindings hl b hb)
      · exact ht id t htt b hb
  · injection hr with hr; subst hr; exact hc

/-- A node that may be rendered. -/
def CalmNode (env : RenderEnv) (G : Manner) (h : Html) : Prop :=
  CalmHtml env.inline G h ∧ EveryNode env (CalmHtml env.inline G) h

theorem renderChild_calm {env : RenderEnv} {rec : RenderFn} (hrec : RecCalm G (CalmNode env G) rec) {h child : Html} (hmem : child ∈ h.children)
    (hE : EveryNode env (CalmHtml env.inline G) h) {node : NodeId} (cs : List NodeId) (σ : Render) {cs' σ'}
    (hok : renderChild env rec node child cs σ = .ok (cs', σ')) (hc : σ.tree.Calm G) : σ'.tree.Calm G := by
  unfold renderChild at hok
  split at hok
  · cases hok
  · rename_i c hcr
    simp only at hok
    split at hok
    · cases hok
    · rename_i cs1 σ1 he
      simp only [Except.ok.injEq, Prod.mk.injEq] at hok
      obtain ⟨-, rfl⟩ := hok
      have hQ : CalmNode env G c := ⟨resolve_calm hcr (hE.1 _ (.child hmem)) (fun id t ht => (hE.2 id t ht).1), resolve_below hmem hcr hE⟩
      have hal : (renderAliases c.bindings (fun _ => none) σ).2.tree = σ.tree := (renderAliases_frame _ _ _).1
      have := renderBody_calm hrec hQ cs _ he (hc.ctx (by rw [hal]))
      exact this

theorem renderChildren_calm {env : RenderEnv} {rec : RenderFn} (hrec : RecCalm G (CalmNode env G) rec) {h : Html}
    (hE : EveryNode env (CalmHtml env.inline G) h) {node : NodeId} (l : List Html) (hl : ∀ c ∈ l, c ∈ h.children) :
    ∀ (cs : List NodeId) (σ : Render) {cs' σ'}, renderChildren env rec node l cs σ = .ok (cs', σ') → σ.tree.Calm G → σ'.tree.Calm G := by
  induction l with
  | nil => intro cs σ cs' σ' hok hc; simp only [renderChildren, Except.ok.injEq, Prod.mk.injEq] at hok; rw [← hok.2]; exact hc
  | cons c l ih =>
    intro cs σ cs' σ' hok hc
    simp only [renderChildren] at hok
    split at hok
    · cases hok
    · rename_i cs1 σ1 he
      exact ih (fun d hd => hl d (by simp [hd])) cs1 σ1 hok (renderChild_calm hrec (hl c (by simp)) hE cs σ he hc)

theorem newLeaf_calm {t : Tree} (h : t.Calm G) : t.newLeaf.2.Calm G := h.ctx rfl

theorem renderNode_calm (env : RenderEnv) (fuel : Nat) : RecCalm G (CalmNode env G) (renderNode env fuel) := by
  induction fuel with
  | zero => intro h σ n σ' _ hok; simp [renderNode] at hok
  | succ fuel ih =>
    intro h σ n σ' hE hok hc
    simp only [renderNode] at hok
    split at hok
    · rename_i spans ht
      simp only [Except.ok.injEq] at hok
      have e2 : (renderText env spans σ).2 = σ' := by rw [hok]
      rw [← e2]
      have hf := (renderSpans_frame (fun i => .text σ.tree.newLeaf.1 i) env.translate spans 0 { σ with tree := σ.tree.newLeaf.2 }).1
      refine Tree.Calm.setCtx (hc.ctx ?_) (.fresh rfl rfl rfl rfl)
      rw [hf]; rfl
    · unfold renderElement at hok
      simp only at hok
      obtain ⟨hs1, hs2⟩ := renderBindings_calm (env := env) (node := σ.tree.newLeaf.1) (G := G) h.bindings
        (s := ({ node := σ.tree.newLeaf.1, tag := h.tag }, { σ with tree := σ.tree.newLeaf.2 })) hE.1 (.fresh rfl rfl rfl rfl)
      generalize h.bindings.foldl (renderBinding env σ.tree.newLeaf.1)
        ({ node := σ.tree.newLeaf.1, tag := h.tag }, { σ with tree := σ.tree.newLeaf.2 }) = s at hs1 hs2 hok
      have hst : s.2.tree.Calm G := by rw [hs2]; exact newLeaf_calm hc
      split at hok
      · cases hok
      · rename_i cs σ1 he
        split at hok
        · cases hok
        · rename_i t he2
          simp only [Except.ok.injEq, Prod.mk.injEq] at hok
          obtain ⟨-, rfl⟩ := hok
          have h1 : σ1.tree.Calm G := by
            unfold renderContent at he
            split at he
            · simp only [Except.ok.injEq, Prod.mk.injEq] at he
              obtain ⟨-, rfl⟩ := he
              exact Tree.Calm.setCtx (newLeaf_calm hst) (.fresh rfl rfl rfl rfl)
            · split at he
              · simp only [Except.ok.injEq, Prod.mk.injEq] at he
                obtain ⟨-, rfl⟩ := he
                exact hst
              · exact renderChildren_calm ih hE.2 h.children (fun _ => id) [] s.2 he hst
          refine (Tree.Calm.setCtx h1 ?_).ctx (setChildren_ctx he2)
          exact ⟨hs1.bound, hs1.style, hs1.animators, hs1.transitions⟩

theorem renderView_calm {env : RenderEnv} {fuel : Nat} {h : Html} {root body : NodeId} {σ : Render} (hE : CalmNode env G h)
    (hok : renderView env fuel h = .ok (root, body, σ)) : σ.tree.Calm G := by
  unfold renderView at hok
  simp only at hok
  split at hok
  · cases hok
  · rename_i b σ1 he
    split at hok
    · cases hok
    · rename_i t ht
      simp only [Except.ok.injEq, Prod.mk.injEq] at hok
      obtain ⟨-, -, rfl⟩ := hok
      have h1 : σ1.tree.Calm G := by
        refine renderNode_calm env fuel _ _ _ _ hE he ?_
        refine Tree.Calm.setCtx (fun n e he => ?_) (.fresh rfl rfl rfl rfl)
        cases he
      refine h1.ctx ?_
      unfold Tree.addChild at ht
      split at ht
      · simp only [Except.ok.injEq] at ht; subst ht; rfl
      · cases ht

/-! ## Updating -/

theorem updateImgSrc_calm {t t' : Tree} {img : NodeId} {src : String} (h : t.Calm G) (hu : updateImgSrc t img src = .ok t') : t'.Calm G := by
  unfold updateImgSrc at hu
  simp only [bind, Except.bind] at hu
  split at hu
  · cases hu
  · rename_i c _
    split at hu
    · cases hu
    · injection hu with hu; subst hu
      intro m x hx
      unfold Tree.modify at hx
      by_cases hm : m = c
      · subst hm
        simp only [upd_same, Option.map_eq_some_iff] at hx
        obtain ⟨y, hy, rfl⟩ := hx
        have := h m y hy
        exact ⟨this.bound, this.style, this.animators, this.transitions⟩
      · simp only [upd_other _ _ hm] at hx
        exact h m x hx

theorem bindReact_calm {inline} {s s' : Stage} {n : NodeId} {key : String} {i : Nat} {x : String} (hG : G.free → ∀ b, G.block b) (h : s.tree.Calm G)
    (hu : bindReact inline s n key i x = .ok s') : s'.tree.Calm G := by
  unfold bindReact Tree.elem at hu
  simp only [bind, Except.bind] at hu
  split at hu
  · cases hu
  · rename_i e he
    split at he
    · rename_i e1 he1
      injection he with he; subst he
      have hc := h n e1 he1
      split at hu
      · cases hu
      · rename_i attr ha
        have hE : Element.Calm G (if key = "style" then { e1 with attrsBindings := e1.attrsBindings.set key (attr.set i x), attrs := e1.attrs.set key (attr.set i x).toString, style := (inline (attr.set i x).toString).getD e1.style }
            else { e1 with attrsBindings := e1.attrsBindings.set key (attr.set i x), attrs := e1.attrs.set key (attr.set i x).toString }) := by
          split
          · rename_i hk
            subst hk
            rcases hc.bound with hb | hb
            · exact ⟨.inl hb, hG hb _, hc.animators, hc.transitions⟩
            · rw [hb] at ha; cases ha
          · rename_i hk
            refine ⟨hc.bound.imp id fun hb => ?_, hc.style, hc.animators, hc.transitions⟩
            simp only [SMap.set, if_neg (Ne.symm hk)]
            exact hb
        generalize (if key = "style" then { e1 with attrsBindings := e1.attrsBindings.set key (attr.set i x), attrs := e1.attrs.set key (attr.set i x).toString, style := (inline (attr.set i x).toString).getD e1.style }
            else { e1 with attrsBindings := e1.attrsBindings.set key (attr.set i x), attrs := e1.attrs.set key (attr.set i x).toString }) = E at hE hu
        have h1 := h.setCtx (n := n) hE
        split at hu
        · split at hu
          · cases hu
          · rename_i t ht
            injection hu with hu; subst hu
            exact updateImgSrc_calm h1 ht
        · injection hu with hu; subst hu; exact h1
    · cases he

theorem updateTree_calm {inline} {s s' : Stage} {root body : NodeId} (hG : G.free → ∀ b, G.block b) (hw : s.tree.Wf root body) {r : Reaction} (hr : ReactionOk s.tree root body r)
    (hu : updateTree inline s r = .ok s') (h : s.tree.Calm G) : s'.tree.Calm G ∧ s'.tree.kids root = s.tree.kids root := by
  cases r with
  | type m i x =>
    obtain ⟨em, hem, ht⟩ := hr
    obtain ⟨tx, htx⟩ := Option.isSome_iff_exists.1 ht
    simp only [updateTree, hem, htx, Except.ok.injEq] at hu
    subst hu
    have := h m em hem
    exact ⟨h.setCtx ⟨this.bound, this.style, this.animators, this.transitions⟩, rfl⟩
  | reattach p m v =>
    obtain ⟨K, par', h1, -⟩ := reattach_effect hw hr
    simp only [updateTree, h1, bind, Except.bind, Except.ok.injEq] at hu
    subst hu
    exact ⟨h.ctx rfl, upd_other _ _ (Ne.symm hr.1)⟩
  | «repeat» p i k j =>
    obtain ⟨par', h1, -⟩ := repeat_effect hw hr
    simp only [updateTree, h1, bind, Except.bind, Except.ok.injEq] at hu
    subst hu
    exact ⟨h.ctx rfl, upd_other _ _ (Ne.symm hr.1)⟩
  | tag m k b =>
    obtain ⟨em, hem⟩ := Option.isSome_iff_exists.1 hr
    simp only [updateTree, Tree.elem, hem, bind, Except.bind, Except.ok.injEq] at hu
    subst hu
    have := h m em hem
    exact ⟨h.setCtx ⟨this.bound, this.style, this.animators, this.transitions⟩, rfl⟩
  | bind m k i x =>
    obtain ⟨hmr, em, hem, ha⟩ := hr
    obtain ⟨att, hatt⟩ := Option.isSome_iff_exists.1 ha
    obtain ⟨s1, h1, -, h2, -⟩ := bindReact_ok (inline := inline) (span := i) (text := x) hw hmr hem hatt
    rw [updateTree, h1] at hu
    injection hu with hu; subst hu
    exact ⟨bindReact_calm hG h h1, by rw [h2]⟩

theorem updateTrees_calm {inline} {root body : NodeId} (hG : G.free → ∀ b, G.block b) (rs : List Reaction) {s s' : Stage} (hw : s.tree.Wf root body) (hrs : ∀ r ∈ rs, ReactionOk s.tree root body r)
    (hu : updateTrees inline s rs = .ok s') (h : s.tree.Calm G) : s'.tree.Calm G ∧ s'.tree.kids root = s.tree.kids root := by
  induction rs generalizing s with
  | nil => simp only [updateTrees, Except.ok.injEq] at hu; subst hu; exact ⟨h, rfl⟩
  | cons r rs ih =>
    simp only [updateTrees, bind, Except.bind] at hu
    split at hu
    · cases hu
    · rename_i s1 h1
      obtain ⟨c1, c2⟩ := updateTree_calm hG hw (hrs r (by simp)) h1 h
      obtain ⟨s1', a1, a2, a3⟩ := C16_tree_stays_tree (inline := inline) s [r] hw (by simpa using hrs r (by simp))
      simp only [updateTrees, bind, Except.bind, h1, Except.ok.injEq] at a1
      subst a1
      obtain ⟨d1, d2⟩ := ih a2 (fun x hx => a3 x (hrs x (by simp [hx]))) hu c1
      exact ⟨d1, d2.trans c2⟩

/-! ## Styling, placing, input -/

theorem Tree.Calm.related {t t' : Tree} (h : t.Calm G) (hr : Tree.Related (fun e e' => e.Calm G → e'.Calm G) t t') : t'.Calm G := by
  intro n e he
  cases hc : t.ctx n with
  | none => rw [hr.gone n hc] at he; cases he
  | some x =>
    obtain ⟨e', h1, h2⟩ := hr.there n x hc
    rw [h1] at he; injection he with he; subst he
    exact h2 (h n x hc)

theorem stateOnly_calm {t t' : Tree} (h : t.Calm G) (hr : StateOnly t t') : t'.Calm G :=
  h.related (Tree.Related.mono (fun e e' hx hc => by rw [hx]; exact ⟨hc.bound, hc.style, hc.animators, hc.transitions⟩) hr)

theorem forEach_keeps {σ : Type} {P : σ → Prop} {f : σ → NodeId → Except Trouble σ} (hf : ∀ s c s', f s c = .ok s' → P s → P s') (cs : List NodeId)
    {s s' : σ} (h : forEach f cs s = .ok s') (hp : P s) : P s' :=
  forEach_induct (R := fun s s' => P s → P s') (fun _ h => h) (fun _ _ _ h g x => g (h x)) hf cs h hp

theorem placeTree_calm {boxes : NodeId → Layout} (depth : Nat) : ∀ {n : NodeId} {location : Rat × Rat} {opacity : Rat}
    {clipping : Option Layout} {t t' : Tree}, placeTree boxes depth n location opacity clipping t = .ok t' → t.Calm G → t'.Calm G := by
  induction depth with
  | zero => intro n l o c t t' h; cases h
  | succ depth ih =>
    intro n location opacity clipping t t' h hc
    rw [placeTree] at h
    cases he : t.ctx n with
    | none => rw [he] at h; cases h
    | some e =>
      rw [he] at h
      simp only at h
      have := hc n e he
      refine forEach_keeps (P := fun t => t.Calm G) (fun s c s' hs => ih hs) _ h (hc.setCtx ?_)
      exact ⟨this.bound, this.style, this.animators, this.transitions⟩

end Verif
