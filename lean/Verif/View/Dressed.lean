import Verif.Spec.Dressed
import Verif.View.Pictures
import Verif.View.Mirror
/-!
# Inline styles and the `style` attribute (lemmas for C90)
-/
namespace Verif

variable {inline : String → Option (List Declaration)} {p : Platform} {pending : String → Prop}

theorem Element.Dressed.fresh {e : Element} (h1 : e.style = []) (h2 : e.attrs "style" = none) : e.Dressed inline pending :=
  ⟨fun text b h => (by rw [h2] at h; cases h), fun _ => h1⟩

/-- What counts. -/
theorem Element.Dressed.congr {e e' : Element} (h : e.Dressed inline pending) (h1 : e'.style = e.style) (h2 : e'.attrs "style" = e.attrs "style") : e'.Dressed inline pending := by
  unfold Element.Dressed; rw [h1, h2]; exact h

/-- A text that cannot be read leaves the style as it was. -/
theorem Element.Dressed.read {e e' : Element} {text : String} (h1 : e'.attrs "style" = some text) (h2 : e'.style = (inline text).getD e.style) : e'.Dressed inline pending := by
  refine ⟨fun t b h _ hb => ?_, fun h => ?_⟩
  · rw [h1] at h; injection h with h; subst h
    rw [h2, hb]; rfl
  · rw [h1] at h; cases h

def Tree.Dressed (inline : String → Option (List Declaration)) (pending : String → Prop) (t : Tree) : Prop := ∀ n e, t.ctx n = some e → e.Dressed inline pending

theorem Tree.Dressed.setCtx {t : Tree} (h : t.Dressed inline pending) {n : NodeId} {e : Element} (he : e.Dressed inline pending) : (t.setCtx n e).Dressed inline pending := by
  intro m x hx
  by_cases hm : m = n
  · subst hm
    simp only [Tree.setCtx, upd_same, Option.some.injEq] at hx
    subst hx; exact he
  · simp only [Tree.setCtx, upd_other _ _ hm] at hx
    exact h m x hx

theorem Tree.Dressed.ctx {t t' : Tree} (h : t.Dressed inline pending) (hc : t'.ctx = t.ctx) : t'.Dressed inline pending := by
  intro m x hx; rw [hc] at hx; exact h m x hx

/-! ## Rendering -/

theorem unboundText_eq (spans : List TextSpan) : unboundText spans = String.join (spans.map (spanSource id)) := by
  unfold unboundText
  congr 1

theorem renderBinding_dressed {env : RenderEnv} {node : NodeId} {s : Element × Render} {b : ElementBinding}
    (hb : ∀ spans, b = .attribute "style" spans → pending (unboundText spans))
    (he : s.1.Dressed env.inline pending) : (renderBinding env node s b).1.Dressed env.inline pending ∧ (renderBinding env node s b).2.tree = s.2.tree := by
  obtain ⟨e, σ⟩ := s
  have he : e.Dressed env.inline pending := he
  cases b with
  | none key value =>
    simp only [renderBinding]
    refine ⟨?_, ?_⟩
    · split
      · rename_i hk
        subst hk
        exact .read (e := e) (text := value) (by simp [SMap.set_same]) rfl
      · rename_i hk
        exact he.congr rfl (by simp [SMap.set_other _ _ (Ne.symm hk)])
    · split <;> rfl
  | tag key b => exact ⟨he.congr rfl rfl, rfl⟩
  | «attribute» key spans =>
    have hs := fun sp => (renderSpans_frame (fun i => .attribute node key i) id sp 0 σ).1
    have hd : ∀ (t : TextContent) (hints : StyleHints) (bs : SMap TextContent), t.toString = unboundText spans →
        Element.Dressed env.inline pending { e with hints := hints, attrs := e.attrs.set key t.toString, attrsBindings := bs } := by
      intro t hints bs ht
      by_cases hk : key = "style"
      · subst hk
        have ha : ({ e with hints := hints, attrs := e.attrs.set "style" t.toString, attrsBindings := bs } : Element).attrs "style" = some (unboundText spans) := by
          simp [SMap.set_same, ht]
        refine ⟨fun text b h hp => ?_, fun h => ?_⟩
        · rw [ha] at h; injection h with h; subst h
          exact absurd (hb spans rfl) hp
        · rw [ha] at h; cases h
      · exact he.congr rfl (by simp [SMap.set_other _ _ (Ne.symm hk)])
    have hsrc : ∀ sp, (TextContent.mk (renderSpans (fun i => .attribute node key i) id sp 0 σ).1).toString = unboundText sp := by
      intro sp
      rw [renderSpans_source, unboundText_eq]; rfl
    match spans, hs spans, hd, hsrc spans with
    | [.string value], _, hd, _ => exact ⟨hd ⟨[value]⟩ e.hints e.attrsBindings rfl, rfl⟩
    | [], h, hd, ht => exact ⟨hd _ _ _ ht, h⟩
    | [.binder b], h, hd, ht => exact ⟨hd _ _ _ ht, h⟩
    | .string a :: b :: l, h, hd, ht => exact ⟨hd _ _ _ ht, h⟩
    | .binder a :: b :: l, h, hd, ht => exact ⟨hd _ _ _ ht, h⟩
  | callback event arguments => exact ⟨he.congr rfl rfl, (renderArguments_frame arguments σ).1⟩
  | «alias» _ _ => exact ⟨he, rfl⟩
  | «repeat» _ _ _ => exact ⟨he, rfl⟩
  | visibility _ _ => exact ⟨he, rfl⟩

theorem renderBindings_dressed {env : RenderEnv} {node : NodeId} (bs : List ElementBinding) {s : Element × Render}
    (hb : ∀ spans, .attribute "style" spans ∈ bs → pending (unboundText spans))
    (he : s.1.Dressed env.inline pending) : (bs.foldl (renderBinding env node) s).1.Dressed env.inline pending ∧ (bs.foldl (renderBinding env node) s).2.tree = s.2.tree := by
  induction bs generalizing s with
  | nil => exact ⟨he, rfl⟩
  | cons b bs ih =>
    obtain ⟨h1, h2⟩ := renderBinding_dressed (env := env) (node := node) (b := b) (fun sp h => hb sp (by simp [h])) he
    obtain ⟨h3, h4⟩ := ih (s := renderBinding env node s b) (fun sp h => hb sp (by simp [h])) h1
    exact ⟨h3, h4.trans h2⟩

/-- What rendering a node does. -/
def RecDressed (inline : String → Option (List Declaration)) (pending : String → Prop) (Q : Html → Prop) (rec : RenderFn) : Prop :=
  ∀ h σ n σ', Q h → rec h σ = .ok (n, σ') → σ.tree.Dressed inline pending → σ'.tree.Dressed inline pending

theorem renderSlots_dressed {Q : Html → Prop} {rec : RenderFn} (hrec : RecDressed inline pending Q rec) {child : Html} (hQ : Q child) {name : String} {b : Binder}
    (ns : List Nat) : ∀ (cs : List NodeId) (σ : Render) {cs' σ'}, renderSlots rec name b child ns cs σ = .ok (cs', σ') → σ.tree.Dressed inline pending → σ'.tree.Dressed inline pending := by
  induction ns with
  | nil => intro cs σ cs' σ' h hc; simp only [renderSlots, Except.ok.injEq, Prod.mk.injEq] at h; rw [← h.2]; exact hc
  | cons n ns ih =>
    intro cs σ cs' σ' h hc
    simp only [renderSlots] at h
    split at h
    · cases h
    · rename_i c σ1 he
      exact ih _ _ h (hrec _ _ _ _ hQ he hc)

theorem renderBody_dressed {Q : Html → Prop} {rec : RenderFn} (hrec : RecDressed inline pending Q rec) {child : Html} (hQ : Q child) {node : NodeId} (cs : List NodeId)
    (σ : Render) {cs' σ'} (h : renderBody rec node child cs σ = .ok (cs', σ')) (hc : σ.tree.Dressed inline pending) : σ'.tree.Dressed inline pending := by
  unfold renderBody at h
  split at h
  · simp only at h
    split at h
    · cases h
    · rename_i c σ1 he
      simp only [Except.ok.injEq, Prod.mk.injEq] at h
      obtain ⟨-, rfl⟩ := h
      have := hrec _ _ _ _ hQ he hc
      exact this
  · split at h
    · simp only at h
      split at h
      · cases h
      · rename_i cs1 σ1 he
        simp only [Except.ok.injEq, Prod.mk.injEq] at h
        obtain ⟨-, rfl⟩ := h
        have := renderSlots_dressed hrec hQ _ _ _ he hc
        exact this
    · split at h
      · cases h
      · rename_i c σ1 he
        simp only [Except.ok.injEq, Prod.mk.injEq] at h
        obtain ⟨-, rfl⟩ := h
        exact hrec _ _ _ _ hQ he hc

theorem resolve_dressed {env : RenderEnv} {c c' : Html} (hr : resolveChild env c = .ok c') (hc : Html.PendingStyle pending c)
    (ht : ∀ id t, env.templates id = some t → Html.PendingStyle pending t) : Html.PendingStyle pending c' := by
  unfold resolveChild at hr
  split at hr
  · rename_i id bs hl
    split at hr
    · cases hr
    · rename_i t htt
      injection hr with hr; subst hr
      intro b hb
      rcases List.mem_append.1 hb with hb | hb
      · exact hc b (asLink_bindings hl _ hb)
      · exact ht id t htt b hb
  · injection hr with hr; subst hr; exact hc

/-- A node that may be rendered. -/
def DressedNode (env : RenderEnv) (pending : String → Prop) (h : Html) : Prop :=
  Html.PendingStyle pending h ∧ EveryNode env (Html.PendingStyle pending) h

theorem renderChild_dressed {env : RenderEnv} {rec : RenderFn} (hrec : RecDressed env.inline pending (DressedNode env pending) rec) {h child : Html} (hmem : child ∈ h.children)
    (hE : EveryNode env (Html.PendingStyle pending) h) {node : NodeId} (cs : List NodeId) (σ : Render) {cs' σ'}
    (hok : renderChild env rec node child cs σ = .ok (cs', σ')) (hc : σ.tree.Dressed env.inline pending) : σ'.tree.Dressed env.inline pending := by
  unfold renderChild at hok
  split at hok
  · cases hok
  · rename_i c hcr
    simp only at hok
    split at hok
    · cases hok
    · rename_i cs1 σ1 he
      simp only [Except.ok.injEq, Prod.mk.injEq] at hok
      obtain ⟨-, rfl⟩ := hok
      have hQ : DressedNode env pending c := ⟨resolve_dressed hcr (hE.1 _ (.child hmem)) (fun id t ht => (hE.2 id t ht).1), resolve_below hmem hcr hE⟩
      have hal : (renderAliases c.bindings (fun _ => none) σ).2.tree = σ.tree := (renderAliases_frame _ _ _).1
      have := renderBody_dressed hrec hQ cs _ he (hc.ctx (by rw [hal]))
      exact this

theorem renderChildren_dressed {env : RenderEnv} {rec : RenderFn} (hrec : RecDressed env.inline pending (DressedNode env pending) rec) {h : Html}
    (hE : EveryNode env (Html.PendingStyle pending) h) {node : NodeId} (l : List Html) (hl : ∀ c ∈ l, c ∈ h.children) :
    ∀ (cs : List NodeId) (σ : Render) {cs' σ'}, renderChildren env rec node l cs σ = .ok (cs', σ') → σ.tree.Dressed env.inline pending → σ'.tree.Dressed env.inline pending := by
  induction l with
  | nil => intro cs σ cs' σ' hok hc; simp only [renderChildren, Except.ok.injEq, Prod.mk.injEq] at hok; rw [← hok.2]; exact hc
  | cons c l ih =>
    intro cs σ cs' σ' hok hc
    simp only [renderChildren] at hok
    split at hok
    · cases hok
    · rename_i cs1 σ1 he
      exact ih (fun d hd => hl d (by simp [hd])) cs1 σ1 hok (renderChild_dressed hrec (hl c (by simp)) hE cs σ he hc)

theorem newLeaf_dressed {t : Tree} (h : t.Dressed inline pending) : t.newLeaf.2.Dressed inline pending := h.ctx rfl

theorem renderNode_dressed (env : RenderEnv) (fuel : Nat) : RecDressed env.inline pending (DressedNode env pending) (renderNode env fuel) := by
  induction fuel with
  | zero => intro h σ n σ' _ hok; simp [renderNode] at hok
  | succ fuel ih =>
    intro h σ n σ' hE hok hc
    simp only [renderNode] at hok
    split at hok
    · rename_i spans ht
      simp only [Except.ok.injEq] at hok
      have e2 : (renderText env spans σ).2 = σ' := by rw [hok]
      rw [← e2]
      have hf := (renderSpans_frame (fun i => .text σ.tree.newLeaf.1 i) env.translate spans 0 { σ with tree := σ.tree.newLeaf.2 }).1
      refine Tree.Dressed.setCtx (hc.ctx ?_) (.fresh rfl rfl)
      rw [hf]; rfl
    · unfold renderElement at hok
      simp only at hok
      obtain ⟨hs1, hs2⟩ := renderBindings_dressed (env := env) (node := σ.tree.newLeaf.1) h.bindings
        (s := ({ node := σ.tree.newLeaf.1, tag := h.tag }, { σ with tree := σ.tree.newLeaf.2 })) hE.1 (.fresh rfl rfl)
      generalize h.bindings.foldl (renderBinding env σ.tree.newLeaf.1)
        ({ node := σ.tree.newLeaf.1, tag := h.tag }, { σ with tree := σ.tree.newLeaf.2 }) = s at hs1 hs2 hok
      have hst : s.2.tree.Dressed env.inline pending := by rw [hs2]; exact newLeaf_dressed hc
      split at hok
      · cases hok
      · rename_i cs σ1 he
        split at hok
        · cases hok
        · rename_i t he2
          simp only [Except.ok.injEq, Prod.mk.injEq] at hok
          obtain ⟨-, rfl⟩ := hok
          have h1 : σ1.tree.Dressed env.inline pending := by
            unfold renderContent at he
            split at he
            · simp only [Except.ok.injEq, Prod.mk.injEq] at he
              obtain ⟨-, rfl⟩ := he
              exact Tree.Dressed.setCtx (newLeaf_dressed hst) (.fresh rfl rfl)
            · split at he
              · simp only [Except.ok.injEq, Prod.mk.injEq] at he
                obtain ⟨-, rfl⟩ := he
                exact hst
              · exact renderChildren_dressed ih hE.2 h.children (fun _ => id) [] s.2 he hst
          refine (Tree.Dressed.setCtx h1 ?_).ctx (setChildren_ctx he2)
          exact hs1

theorem renderView_dressed {env : RenderEnv} {fuel : Nat} {h : Html} {root body : NodeId} {σ : Render} (hE : DressedNode env pending h)
    (hok : renderView env fuel h = .ok (root, body, σ)) : σ.tree.Dressed env.inline pending := by
  unfold renderView at hok
  simp only at hok
  split at hok
  · cases hok
  · rename_i b σ1 he
    split at hok
    · cases hok
    · rename_i t ht
      simp only [Except.ok.injEq, Prod.mk.injEq] at hok
      obtain ⟨-, -, rfl⟩ := hok
      have h1 : σ1.tree.Dressed env.inline pending := by
        refine renderNode_dressed env fuel _ _ _ _ hE he ?_
        refine Tree.Dressed.setCtx (fun n e he => ?_) (.fresh rfl rfl)
        cases he
      refine h1.ctx ?_
      unfold Tree.addChild at ht
      split at ht
      · simp only [Except.ok.injEq] at ht; subst ht; rfl
      · cases ht

/-! ## Updating -/

theorem updateImgSrc_dressed {t t' : Tree} {img : NodeId} {src : String} (h : t.Dressed inline pending) (hu : updateImgSrc t img src = .ok t') : t'.Dressed inline pending := by
  unfold updateImgSrc at hu
  simp only [bind, Except.bind] at hu
  split at hu
  · cases hu
  · rename_i c _
    split at hu
    · cases hu
    · injection hu with hu; subst hu
      intro m x hx
      unfold Tree.modify at hx
      by_cases hm : m = c
      · subst hm
        simp only [upd_same, Option.map_eq_some_iff] at hx
        obtain ⟨y, hy, rfl⟩ := hx
        exact (h m y hy).congr rfl rfl
      · simp only [upd_other _ _ hm] at hx
        exact h m x hx

theorem bindReact_dressed {s s' : Stage} {n : NodeId} {key : String} {i : Nat} {x : String} (h : s.tree.Dressed inline pending)
    (hu : bindReact inline s n key i x = .ok s') : s'.tree.Dressed inline pending := by
  unfold bindReact Tree.elem at hu
  simp only [bind, Except.bind] at hu
  split at hu
  · cases hu
  · rename_i e he
    split at he
    · rename_i e1 he1
      injection he with he; subst he
      have hc := h n e1 he1
      split at hu
      · cases hu
      · rename_i attr ha
        have hE : Element.Dressed inline pending (if key = "style" then { e1 with attrsBindings := e1.attrsBindings.set key (attr.set i x), attrs := e1.attrs.set key (attr.set i x).toString, style := (inline (attr.set i x).toString).getD e1.style }
            else { e1 with attrsBindings := e1.attrsBindings.set key (attr.set i x), attrs := e1.attrs.set key (attr.set i x).toString }) := by
          split
          · rename_i hk
            subst hk
            exact .read (e := e1) (text := (attr.set i x).toString) (by simp [SMap.set_same]) rfl
          · rename_i hk
            exact hc.congr rfl (by simp [SMap.set_other _ _ (Ne.symm hk)])
        generalize (if key = "style" then { e1 with attrsBindings := e1.attrsBindings.set key (attr.set i x), attrs := e1.attrs.set key (attr.set i x).toString, style := (inline (attr.set i x).toString).getD e1.style }
            else { e1 with attrsBindings := e1.attrsBindings.set key (attr.set i x), attrs := e1.attrs.set key (attr.set i x).toString }) = E at hE hu
        have h1 := h.setCtx (n := n) hE
        split at hu
        · split at hu
          · cases hu
          · rename_i t ht
            injection hu with hu; subst hu
            exact updateImgSrc_dressed h1 ht
        · injection hu with hu; subst hu; exact h1
    · cases he

theorem updateTree_dressed {s s' : Stage} {root body : NodeId} (hw : s.tree.Wf root body) {r : Reaction} (hr : ReactionOk s.tree root body r)
    (hu : updateTree inline s r = .ok s') (hn : ∀ n b, r ≠ .tag n "style" b) (h : s.tree.Dressed inline pending) : s'.tree.Dressed inline pending := by
  cases r with
  | type m i x =>
    obtain ⟨em, hem, ht⟩ := hr
    obtain ⟨tx, htx⟩ := Option.isSome_iff_exists.1 ht
    simp only [updateTree, hem, htx, Except.ok.injEq] at hu
    subst hu
    exact h.setCtx ((h m em hem).congr rfl rfl)
  | reattach p m v =>
    obtain ⟨K, par', h1, -⟩ := reattach_effect hw hr
    simp only [updateTree, h1, bind, Except.bind, Except.ok.injEq] at hu
    subst hu
    exact h.ctx rfl
  | «repeat» p i k j =>
    obtain ⟨par', h1, -⟩ := repeat_effect hw hr
    simp only [updateTree, h1, bind, Except.bind, Except.ok.injEq] at hu
    subst hu
    exact h.ctx rfl
  | tag m k b =>
    have hk : k ≠ "style" := fun hk => hn m b (by rw [hk])
    obtain ⟨em, hem⟩ := Option.isSome_iff_exists.1 hr
    simp only [updateTree, Tree.elem, hem, bind, Except.bind, Except.ok.injEq] at hu
    subst hu
    refine h.setCtx ((h m em hem).congr rfl ?_)
    show (if b = true then em.attrs.set k k else em.attrs.del k) "style" = _
    split
    · exact SMap.set_other _ _ (Ne.symm hk)
    · exact SMap.del_other _ (Ne.symm hk)
  | bind m k i x => exact bindReact_dressed h hu

theorem updateTrees_dressed {root body : NodeId} (rs : List Reaction) {s s' : Stage} (hw : s.tree.Wf root body) (hrs : ∀ r ∈ rs, ReactionOk s.tree root body r)
    (hu : updateTrees inline s rs = .ok s') (hn : ∀ r ∈ rs, ∀ n b, r ≠ .tag n "style" b) (h : s.tree.Dressed inline pending) : s'.tree.Dressed inline pending := by
  induction rs generalizing s with
  | nil => simp only [updateTrees, Except.ok.injEq] at hu; subst hu; exact h
  | cons r rs ih =>
    simp only [updateTrees, bind, Except.bind] at hu
    split at hu
    · cases hu
    · rename_i s1 h1
      have c1 := updateTree_dressed hw (hrs r (by simp)) h1 (hn r (by simp)) h
      obtain ⟨s1', a1, a2, a3⟩ := C16_tree_stays_tree (inline := inline) s [r] hw (by simpa using hrs r (by simp))
      simp only [updateTrees, bind, Except.bind, h1, Except.ok.injEq] at a1
      subst a1
      exact ih a2 (fun x hx => a3 x (hrs x (by simp [hx]))) hu (fun x hx => hn x (by simp [hx])) c1

/-! ## Programs -/

/-- The program has no binding of the tag `key`. -/
def View.NoTags (key : String) (v : View) : Prop := ∀ path b, b ∈ v.vm.bindings path → ∀ n, b.params ≠ .tag n key

/-- What is kept true of the inline styles of a program. -/
structure DressedApp (p : Platform) (pending : String → Prop) (fuel : Nat) (document : Html) (a : App) : Prop where
  living : Living p fuel document a
  tags : a.screen.view.NoTags "style"
  dressed : a.screen.view.stage.tree.Dressed p.inline pending

theorem DressedApp.opened {fuel : Nat} {document : Html} {css : Css} {a : App} (hn : NoTag p "style" document) (hd : PendingStyles p pending document)
    (h : openApp p fuel document css = .ok a) : DressedApp p pending fuel document a := by
  obtain ⟨σ, ho⟩ := openApp_opened h
  have hv := renderView_ok ho.rendered
  have ht := renderView_untagged hn ho.rendered
  refine ⟨Living.opened h, ?_, ?_⟩
  · have hview := ho.view
    unfold openView at hview
    rw [collect_doc] at hview
    have hren : renderView ⟨templateFor document.children, p.translate, p.inline⟩ fuel (docBody document) = .ok (a.screen.view.root, a.screen.view.body, σ) := ho.rendered
    simp only [hren] at hview
    split at hview
    · cases hview
    · rename_i vm hvm
      split at hview
      · cases hview
      · injection hview with hview
        unfold View.NoTags
        rw [← hview]
        intro path b hb n
        refine ht (path, b) (mem_lookupRegs.1 ?_) n
        unfold ViewModel.create at hvm
        rw [Option.map_eq_some_iff] at hvm
        obtain ⟨d, -, rfl⟩ := hvm
        exact hb
  · refine updateTrees_dressed (inline := p.inline) _ (s := ⟨σ.tree, σ.staticId⟩) hv.wf (defaultReactions_ok ho.rendered) ho.stage ?_
      (renderView_dressed (env := docEnv p.translate p.inline document) hd ho.rendered)
    intro r hr n b
    unfold defaultReactions at hr
    rw [List.mem_filterMap] at hr
    obtain ⟨x, -, hx⟩ := hr
    split at hx
    · injection hx with hx; subst hx; exact fun h => by cases h
    · cases hx

theorem Living.dressed {fuel : Nat} {document : Html} {a : App} (hl : Living p fuel document a) {value : Json} {v : View}
    (hu : a.screen.view.update p.inline value = .ok v) (ht : a.screen.view.NoTags "style") (hk : a.screen.view.stage.tree.Dressed p.inline pending) :
    v.stage.tree.Dressed p.inline pending ∧ v.NoTags "style" := by
  obtain ⟨v0, hr, h⟩ := (session_ok hl.session).twin
  obtain ⟨regs, hg⟩ := reached_good hr
  unfold View.update at hu
  cases hb : a.screen.view.vm.bind value with
  | none => rw [hb] at hu; simp at hu
  | some q =>
    obtain ⟨vm, rs⟩ := q
    rw [hb] at hu
    simp only at hu
    have hbb := (bind_bindings hb).1
    rw [h.vm] at hb
    obtain ⟨stage, a1, a2, a3, a4⟩ := viewGood_update (inline := p.inline) hg value hb
    obtain ⟨stage1, b1, b2, b3⟩ := updateTrees_form rs h.tree h.identified a1
    rw [b1] at hu
    simp only [Except.ok.injEq] at hu
    subst hu
    refine ⟨updateTrees_dressed rs (h.tree.wf hg.wf) (fun r hr => h.tree.reactionOk (a4 r hr)) b1 ?_ hk, fun path b hb n hn => ht path b (hbb ▸ hb) n hn⟩
    intro r hr n y hy
    obtain ⟨rg, c1, x, rfl⟩ := bind_reactions hb hg.bindings hr
    refine ht rg.1 rg.2 ?_ n (react_tag hy).1
    rw [h.vm, hg.bindings]
    exact mem_lookupRegs.2 c1

theorem DressedApp.updated {fuel fuel' : Nat} {document : Html} {a a' : App} (h : DressedApp p pending fuel document a) {order : FrameOrder} {input : Input} {value : Json} {out : Output}
    (hu : a.update p fuel' order input value = .ok (a', out)) : DressedApp p pending fuel document a' := by
  have hl := h.living.updated hu
  obtain ⟨v, styled, tree, t', ui, g1, g2, g3, g4, g5⟩ := update_parts hu
  obtain ⟨k1, k2⟩ := h.living.dressed g1 h.tags h.dressed
  have wf := (h.living.bound g1).1
  have hst : Restyled v.stage.tree styled.tree := styleView_restyled (s := ⟨v.stage.tree, _⟩) wf g2
  have hpl : Restyled styled.tree tree := placeTree_restyled _ g3
  have hso := handleOutput_states (session_ok h.living.session) g1 (hst.trans hpl) g4
  have hsty := SameStyled.related_trans (placeTree_styled _ g3) (stateOnly_styled hso)
  have hrel : CtxRel (fun e e' : Element => e'.style = e.style ∧ e'.attrs = e.attrs) v.stage.tree t' := by
    refine CtxRel.trans (fun _ _ _ h g => ?_) hst.ctxRel hsty.ctxRel
    have g' := g
    unfold SameStyled at g'
    refine ⟨?_, ?_⟩
    · rw [g']; exact h.1.style
    · rw [g']; exact h.1.attrs
  subst g5
  refine ⟨hl, k2, fun n e he => ?_⟩
  obtain ⟨e0, h0, h1, h2⟩ := hrel.back he
  exact (k1 n e0 h0).congr h1 (by rw [h2])

theorem dressed_run {fuel fuel' : Nat} {document : Html} (fs : List Frame) {a a' : App} {outs : List Output} (h : DressedApp p pending fuel document a)
    (hr : a.run p fuel' fs = .ok (a', outs)) : DressedApp p pending fuel document a' := by
  induction fs generalizing a outs with
  | nil => simp only [App.run, Except.ok.injEq, Prod.mk.injEq] at hr; obtain ⟨rfl, -⟩ := hr; exact h
  | cons f fs ih =>
    obtain ⟨a1, out, rest, h1, h2, -⟩ := run_cons hr
    exact ih (h.updated h1) h2

end Verif
