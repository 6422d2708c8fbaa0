import Verif.View.RenderLocals
import Verif.View.Stands
import Verif.View.Resolve
import Verif.Props.Live
/-!
# C23-C27, C61: what opening a document produces

`docEnv` are the templates of a document with the translator and the inline style parser, `docBody` is its
body.  `mentions` (`Verif.Spec.Scope`) reads the paths off a template by lexical scoping, `Mirrors`
(`Verif.Spec.Mirror`) relates a template to a tree.
-/
namespace Verif
open Json

variable {translate : String → String} {inline : String → Option (List Declaration)} {tr : Transformers}

/-! ## C23 -/

/-- C23 (part): rendering a subtree leaves the local names exactly as they were, if no element has the
same alias twice.  Missing: elements with the same alias twice, see `C23_duplicate_alias_leaks`. -/
theorem C23_locals_restored_partial (env : RenderEnv) (depth : Nat) (h : Html) (σ σ' : Render) (n : NodeId)
    (hd : EveryNode env (DistinctAliases env) h) (hok : renderNode env depth h σ = .ok (n, σ')) :
    σ'.locals = σ.locals := renderNode_locals env depth h σ n σ' hd hok

/-- C23 (part): a path has bindings after opening a document exactly when some expression of the template
denotes it under lexical scoping. -/
theorem C23_lexical_partial {fuel document} {v : View} (ho : openView translate inline tr fuel document = .ok v)
    (hd : EveryNode (docEnv translate inline document)
      (fun c => DistinctAliases (docEnv translate inline document) c ∧ LoopNameFresh c) (docBody document))
    (path : String) :
    v.vm.bindings path ≠ [] ↔
      path ∈ boundPaths (mentions (docEnv translate inline document) fuel (fun _ => none) (docBody document)) := by
  obtain ⟨σ, hr, hb, -, -⟩ := openView_parts ho
  obtain ⟨σ0, σ1, hl, -, hr0, -, -, hn, -, hregs, -⟩ := renderView_parts hr
  obtain ⟨-, -, hu⟩ := renderNode_scoped _ (fun c h => h) fuel _ _ _ _ hd hn
  rw [hr0, hl] at hu
  simp only [List.map_nil, List.nil_append] at hu
  rw [hb, hregs, ← hu, List.mem_map]
  have aux : lookupRegs σ1.regs path ≠ [] ↔ ∃ b, b ∈ lookupRegs σ1.regs path := by
    cases lookupRegs σ1.regs path with
    | nil => simp
    | cons b l => simp only [ne_eq, reduceCtorEq, not_false_eq_true, true_iff]; exact ⟨b, by simp⟩
  rw [aux]
  constructor
  · rintro ⟨b, h⟩; exact ⟨_, mem_lookupRegs.1 h, rfl⟩
  · rintro ⟨⟨p, b⟩, h, rfl⟩; exact ⟨b, mem_lookupRegs.2 h⟩

/-! ## C24, C27 -/

/-- C24 and C27 (part): the tree of an opened view mirrors the template: one node per template node,
`count` nodes for a repeat, the template root for a link; tags, attributes, texts and listeners are those
of the template; the loop variable of slot `n` of a repeat over `A` denotes `A/n`, and every other name
what lexical scoping says.  Missing: an alias twice on one element, and a loop variable with the name its
own array expression starts with (`C24_shadowed_array`). -/
theorem mirrors_aux {fuel document} {v : View} (ho : openView translate inline tr fuel document = .ok v)
    (hd : EveryNode (docEnv translate inline document)
      (fun c => DistinctAliases (docEnv translate inline document) c ∧ LoopNameFresh c) (docBody document)) :
    ∃ regs, v.vm.bindings = lookupRegs regs ∧
      Mirrors (docEnv translate inline document) v.stage.tree.ctx regs fuel (fun _ => none) (docBody document) v.body := by
  obtain ⟨σ, hr, hb, -, hctx, -⟩ := openView_parts ho
  obtain ⟨σ0, σ1, hl, -, hr0, hc0, -, hn, -, hregs, hctx1, -⟩ := renderView_parts hr
  obtain ⟨-, -, -, hm⟩ := renderNode_mirror _ (fun c h => h) fuel _ _ _ _ hd hc0 (by intro r h; rw [hr0] at h; simp at h) hn
  refine ⟨σ1.regs, by rw [hb, hregs], ?_⟩
  have := hm σ1 (Later.refl _ _)
  rw [hl] at this
  rw [hctx, hctx1]; exact this

/-- C27, with names: if names are used soundly, the tree also has the bindings and listeners of lexical
scoping (`C23`, `C24`). -/
theorem C27_mirrors_scoped {fuel document} {v : View}
    (ho : openView translate inline tr fuel document = .ok v)
    (hd : EveryNode (docEnv translate inline document)
      (fun c => DistinctAliases (docEnv translate inline document) c ∧ LoopNameFresh c) (docBody document)) :
    ∃ regs, v.vm.bindings = lookupRegs regs ∧
      Mirrors (docEnv translate inline document) v.stage.tree.ctx regs fuel (fun _ => none) (docBody document) v.body :=
  mirrors_aux ho hd

/-- C27: the tree of an opened view mirrors the template, whatever the document and its names: each node
stands for a template node (same tag, text and attributes), its template children stand, in order, for the
children of that template node: `count` nodes for a repeat and one for any other child, a link being
replaced by its template. -/
theorem C27_stands {fuel document} {v : View} (ho : openView translate inline tr fuel document = .ok v) :
    Stands translate (templateFor document.children) v.stage.tree.ctx fuel (docBody document) v.body := by
  obtain ⟨σ, hr, hb, -, hctx, -⟩ := openView_parts ho
  obtain ⟨σ0, σ1, hl, -, -, hc0, -, hn, -, hregs, hctx1, -⟩ := renderView_parts hr
  obtain ⟨-, -, hm⟩ := renderNode_stands _ fuel _ _ _ _ hc0 hn
  have := hm σ1 (Ext.refl _)
  rw [hctx, hctx1]; exact this

/-- C27: whatever the document, right after rendering every node has its own element with its own id, the
children of a node are exactly its template children, each child is younger than its parent, is listed
once, and belongs to one parent only. -/
theorem C27_fresh_tree {env : RenderEnv} {fuel h root body} {σ : Render}
    (hok : renderView env fuel h = .ok (root, body, σ)) :
    (∀ n, n < σ.tree.next → ∃ e, σ.tree.ctx n = some e ∧ e.node = n) ∧
    (∀ n, n ≠ root → σ.tree.kids n = (match σ.tree.ctx n with | some e => e.children | none => [])) ∧
    σ.tree.kids root = [body] ∧
    (∀ p c, c ∈ σ.tree.kids p → p < c ∧ c < σ.tree.next ∧ σ.tree.par c = some p) ∧
    (∀ p, (σ.tree.kids p).Nodup) ∧
    (∀ p q c, c ∈ σ.tree.kids p → c ∈ σ.tree.kids q → p = q) := by
  have hv := renderView_ok hok
  refine ⟨hv.nodes, fun n hn => ?_, ?_, fun p c hc => ?_, hv.wf.nodup, fun p q c h1 h2 => ?_⟩
  · rw [hv.allShown n hn, Tree.slots, if_neg hn]; rfl
  · obtain ⟨σ0, σ1, h⟩ := renderView_parts hok
    have hbr : σ.tree.par body = some root := by
      unfold renderView at hok
      simp only at hok
      split at hok
      · simp at hok
      · split at hok
        · simp at hok
        · rename_i t hadd
          simp only [Except.ok.injEq, Prod.mk.injEq] at hok
          obtain ⟨rfl, rfl, rfl⟩ := hok
          unfold Tree.addChild at hadd
          split at hadd
          · injection hadd with hadd; subst hadd; simp
          · simp at hadd
    have hm : body ∈ σ.tree.kids root := (hv.wf.link root body).2 hbr
    have hsub : ∀ c ∈ σ.tree.kids root, c = body := by
      intro c hc
      have := hv.wf.sub root c hc
      simpa [Tree.slots] using this
    have hnd := hv.wf.nodup root
    revert hm hsub hnd
    generalize σ.tree.kids root = l
    intro hm hsub hnd
    match l, hm, hsub, hnd with
    | [x], _, hsub, _ => rw [hsub x (by simp)]
    | x :: y :: l, _, hsub, hnd =>
      have h1 := hsub x (by simp)
      have h2 := hsub y (by simp)
      subst h1; subst h2; simp at hnd
  · obtain ⟨h1, h2, -⟩ := hv.wf.slotsYounger p c (hv.wf.sub p c hc)
    exact ⟨h1, h2, (hv.wf.link p c).1 hc⟩
  · have h1 := (hv.wf.link p c).1 h1
    have h2 := (hv.wf.link q c).1 h2
    rw [h1] at h2; injection h2

/-- Where the nodes of a repeated template child are among the children of their parent. -/
theorem mirrorsChildren_repeat {env below ρ n own} (pre : List Html) (c : Html) (post : List Html) (start : Nat)
    (nodes : List NodeId) {c' name count b} (hm : MirrorsChildren env below ρ n start (pre ++ c :: post) nodes own)
    (hr : resolveChild env c = .ok c') (hv : c'.asVisibility = none) (hrep : c'.asRepeat = some (name, count, b)) :
    ∃ before group after, nodes = before ++ group ++ after ∧ group.length = count ∧
      (b.denotes (aliasScope ρ c'.bindings).1, ⟨.repeat n (start + before.length) count, b.pipe⟩) ∈ own ∧
      ∀ (k : Nat) m, group[k]? = some m →
          below ((aliasScope ρ c'.bindings).1.set name
            (b.denotes (aliasScope ρ c'.bindings).1 ++ "/" ++ toString k)) c' m := by
  induction pre generalizing start nodes own with
  | nil =>
    obtain ⟨group, rest, o, o', rfl, rfl, ⟨d, hd, h⟩, -⟩ := hm
    rw [hr] at hd; injection hd with hd; subst hd
    rw [hv, hrep] at h
    obtain ⟨h1, h2, h3⟩ := h
    exact ⟨[], group, rest, by simp, h1, by simp [h2], h3⟩
  | cons x pre ih =>
    obtain ⟨group, rest, o, o', rfl, rfl, -, hrest⟩ := hm
    obtain ⟨before, g, after, rfl, h1, h2, h3⟩ := ih _ _ hrest
    refine ⟨group ++ before, g, after, by simp, h1, ?_, h3⟩
    rw [List.length_append, ← Nat.add_assoc]; exact List.mem_append_right _ h2

/-- C24 (part): in an opened view, if a node `n` stands for a template element `h` in scope `ρ` and `c` is
a repeated child of `h` over the array path `A` (as seen with the aliases of `c`), then `n` has `count`
consecutive template children for `c`, and in the `k`-th of them the loop variable denotes `A/k`, for every
`k`.  Missing: see `C24_shadowed_array`. -/
theorem C24_loop_variable_partial {fuel document} {v : View}
    (ho : openView translate inline tr fuel document = .ok v)
    (hd : EveryNode (docEnv translate inline document)
      (fun c => DistinctAliases (docEnv translate inline document) c ∧ LoopNameFresh c) (docBody document)) :
    ∃ regs, v.vm.bindings = lookupRegs regs ∧
      Mirrors (docEnv translate inline document) v.stage.tree.ctx regs fuel (fun _ => none) (docBody document) v.body ∧
      ∀ depth ρ h n, Mirrors (docEnv translate inline document) v.stage.tree.ctx regs (depth + 1) ρ h n →
        h.text = none → h.tag ≠ "img" → h.tag ∉ voidTags →
        ∀ pre c post, h.children = pre ++ c :: post →
        ∀ c', linkMeaning (templateFor document.children) c = .ok c' → c'.asVisibility = none →
        ∀ name count b, c'.asRepeat = some (name, count, b) →
        ∃ e before group after, v.stage.tree.ctx n = some e ∧ e.children = before ++ group ++ after ∧
          group.length = count ∧
          ∀ (k : Nat) m, group[k]? = some m →
            ∃ ρ', ρ' name = some (b.denotes (aliasScope ρ c'.bindings).1 ++ "/" ++ toString k) ∧
              (∀ x, x ≠ name → ρ' x = (aliasScope ρ c'.bindings).1 x) ∧
              Mirrors (docEnv translate inline document) v.stage.tree.ctx regs depth ρ' c' m := by
  obtain ⟨regs, hb, hm⟩ := mirrors_aux ho hd
  refine ⟨regs, hb, hm, ?_⟩
  intro depth ρ h n hmn ht hi hv pre c post hc c' hlink hvis name count b hrep
  obtain ⟨e, he, -, hrest⟩ := hmn
  rw [ht] at hrest
  obtain ⟨-, -, -, -, -, -, own, -, -, hch⟩ := hrest
  rw [if_neg hi, if_neg hv, hc] at hch
  have hres : resolveChild (docEnv translate inline document) c = .ok c' := by
    rw [resolveChild_spec]; exact hlink
  obtain ⟨before, group, after, h1, h2, -, h4⟩ := mirrorsChildren_repeat pre c post 0 _ hch hres hvis hrep
  refine ⟨e, before, group, after, he, h1, h2, fun k m hk => ?_⟩
  exact ⟨_, SMap.set_same _ _ _, fun x hx => SMap.set_other _ _ hx, h4 k m hk⟩

/-! ## C25 -/

/-- C25 (part): after opening a document whose paths can exist together, every path of a binding and every
path of a callback argument of any element resolves in the bound model.  Missing: paths that use the same
value both by a number and by a name, numbers with leading zeros, and the path `this`
(`C25_mixed_use`, `C25_leading_zero`, `C25_this`). -/
theorem C25_paths_resolve_partial {fuel document} {v : View}
    (ho : openView translate inline tr fuel document = .ok v)
    (hd : EveryNode (docEnv translate inline document)
      (fun c => DistinctAliases (docEnv translate inline document) c ∧ LoopNameFresh c) (docBody document))
    (hc : Consistent (mentionedPaths
      (mentions (docEnv translate inline document) fuel (fun _ => none) (docBody document)))) :
    (∀ p ∈ mentionedPaths (mentions (docEnv translate inline document) fuel (fun _ => none) (docBody document)),
      (v.vm.model.pointer p).isSome) ∧
    (∀ n e event handler p pipe, v.stage.tree.ctx n = some e → e.listeners event = some handler →
      .binder p pipe ∈ handler.arguments → (v.vm.model.pointer p).isSome) := by
  obtain ⟨σ, hr, hb, hm, hctx, -⟩ := openView_parts ho
  obtain ⟨σ0, σ1, hl, hs0, -, -, -, hn, hs1, -, hctx1, -, hlis⟩ := renderView_parts hr
  obtain ⟨-, hu, -⟩ := renderNode_scoped _ (fun c h => h) fuel _ _ _ _ hd hn
  rw [hl] at hu
  have h1 : ∀ p ∈ mentionedPaths (mentions (docEnv translate inline document) fuel (fun _ => none) (docBody document)),
      (v.vm.model.pointer p).isSome := by
    intro p hp
    refine pointer_of_strict (mentions_slashed _ _ _ _ (by intro x q h; simp at h) p hp) (hc.plain p hp) ?_
    rw [hm, hs1, hu]
    exact defineAll_strict _ hc [] _ rfl _ (by simp) p hp
  refine ⟨h1, fun n e event handler p pipe hne hev hp => h1 p ?_⟩
  have hargs0 : ArgsIn σ0 [] := by
    intro m e hm ev hd hv
    rw [hlis m e hm ev] at hv; simp at hv
  have := renderNode_args _ (fun c h => h) fuel _ _ _ _ [] hd hn hargs0
  rw [hl] at this
  simpa using this n e (by rw [← hctx1, ← hctx]; exact hne) event handler hev p pipe hp

/-- C25: after fitting updates the last of which is `w`, a path that denotes something in `w` resolves in
the bound model, to the visible part of it. -/
theorem C25_update_resolves {fuel document s vs w v0 v}
    (h : FittingView translate inline tr fuel document s (vs ++ [w]) v0 v)
    {p : List Tok} {sh : Shape} {x : Json} (hx : s.read w p = some (sh, x))
    (hi : ∀ i, Tok.idx i ∈ p → i < 2 ^ 64) (ht : ∀ k, Tok.key k ∈ p → '~' ∉ k.toList ∧ SlashFree k) :
    v.vm.model.pointer (ptr p) = some (project sh x) := by
  have hm : v.vm.model = project s w := by
    obtain ⟨σ, -, hf⟩ := fitting_follows h
    rw [hf.model]
    simp [modelAfter]
  rw [hm]
  exact pointer_read s w p h.shapeOk hi ht hx

/-! ## C26 -/

/-- C26: if no template refers to itself, directly or through others, there is a nesting depth with which
opening the document does not run out of depth, and with any greater depth the result is the same: the
recursion of the renderer is finite. -/
theorem C26_rendering_terminates (document : Html) (hno : NoSelfReference (templateFor document.children)) :
    ∃ n, ∀ fuel, n ≤ fuel → openView translate inline tr fuel document ≠ .error .outOfFuel ∧
      openView translate inline tr fuel document = openView translate inline tr n document := by
  have hfin : {id | ((docEnv translate inline document).templates id).isSome}.Finite := by
    have := collect_finite document.children
    rw [collect_doc] at this
    exact this
  obtain ⟨n, hn⟩ := body_renders hfin hno (docBody document)
  refine ⟨n, fun fuel hle => ⟨fun he => ?_, ?_⟩⟩
  · rw [openView_error (by simp)] at he
    exact hn fuel hle _ (he _ rfl)
  · unfold openView
    rw [collect_doc]
    simp only
    have : renderView ⟨templateFor document.children, translate, inline⟩ fuel (docBody document)
        = renderView ⟨templateFor document.children, translate, inline⟩ n (docBody document) := by
      unfold renderView
      simp only
      have := renderNode_mono_le (docEnv translate inline document) hle (docBody document) _ (hn n (Nat.le_refl _)
        { tree := (Tree.setCtx Tree.empty.newLeaf.2 Tree.empty.newLeaf.1 { node := Tree.empty.newLeaf.1 }) })
      rw [show (⟨templateFor document.children, translate, inline⟩ : RenderEnv) = docEnv translate inline document from rfl]
      rw [this]
    rw [this]

/-! ## C61 -/

/-- C61: what is rendered in the place of a child is its meaning: the child itself, or for a link the
template with the bindings of the link, without the `href`, in front; a link to an unknown template is an
error. -/
theorem C61_link_meaning (env : RenderEnv) (rec : RenderFn) (node : NodeId) (c : Html) (cs : List NodeId) (σ : Render) :
    match linkMeaning env.templates c with
    | .error e => renderChild env rec node c cs σ = .error e
    | .ok c' => c'.target = none → renderChild env rec node c cs σ = renderChild env rec node c' cs σ := by
  split
  · rename_i e he
    unfold renderChild
    rw [resolveChild_spec, he]
  · rename_i c' hc
    intro ht
    unfold renderChild
    have : resolveChild env c' = .ok c' := by
      rw [resolveChild_spec]; unfold linkMeaning; rw [ht]
    rw [this, resolveChild_spec, hc]

/-- C61: opening reports a template as not found only if it is not defined before the body and the body
or a template has a link to it. -/
theorem C61_reported_template {fuel document id}
    (h : openView translate inline tr fuel document = .error (.templateNotFound id)) :
    templateFor document.children id = none ∧
    ∃ c, ((docBody document).Below c ∨ ∃ i t, templateFor document.children i = some t ∧ t.Below c) ∧
      c.target = some id := by
  rw [openView_error (by simp)] at h
  exact renderNode_reports _ _ _ _ _ (h _ rfl)

/-- C61: only the definitions of templates before the first body, and that body, count. -/
theorem C61_document_meaning (fuel : Nat) (d d' : Html)
    (ht : templateFor d.children = templateFor d'.children) (hb : docBody d = docBody d') :
    openView translate inline tr fuel d = openView translate inline tr fuel d' := by
  unfold openView
  rw [collect_doc, collect_doc, ht, hb]

/-! ## Concrete documents -/

/-- A document with a template, an alias, a condition, a repeat and a callback:
`<template id="t"><li><p>{it.name}</p></li></template>
<body><ul><link href="#t" +it="{y}" *y="2 {xs}"/></ul><b ?="{on}" ^onclick="Go {on}"/></body>`.
An alias is resolved before the loop variable exists, so it sees `y` as a field. -/
def tplDoc : Html := .mk "" [] none [
  .mk "template" [.none "id" "t"] none [.mk "li" [] none [.mk "p" [] none
    [.mk "" [] (some [.string "- ", .binder ⟨"y", ["name"], []⟩, .binder ⟨"it", ["z"], []⟩]) []]]],
  .mk "body" [] none [
    .mk "ul" [] none [.mk "link" [.none "href" "#t", .alias "it" (path1 "w"), .repeat "y" 2 (path1 "xs")] none []],
    .mk "b" [.visibility true (path1 "on"), .callback "onclick" [.keyword "Go", .binder (path1 "on")]] none []]]

def tplOpen : Except RenderFail View := openView id (fun _ => none) (fun _ => none) 9 tplDoc

/-- The nodes of a document as a list, to a depth. -/
def Html.nodes : Nat → Html → List Html
  | 0, _ => []
  | d + 1, h => h.children.flatMap fun c => c :: Html.nodes d c

def Html.depth : Html → Nat
  | .mk _ _ _ cs => (cs.map Html.depth).foldl max 0 + 1

theorem foldl_max_le (l : List Nat) (a : Nat) : a ≤ l.foldl max a ∧ ∀ x ∈ l, x ≤ l.foldl max a := by
  induction l generalizing a with
  | nil => simp
  | cons b l ih =>
    obtain ⟨h1, h2⟩ := ih (max a b)
    simp only [List.foldl_cons, List.mem_cons, forall_eq_or_imp]
    exact ⟨by omega, by omega, h2⟩

theorem below_nodes {h c : Html} (hb : h.Below c) : ∀ d, h.depth ≤ d → c ∈ h.nodes d := by
  induction hb with
  | child hm =>
    rename_i h c
    intro d hd
    cases d with
    | zero => cases h; simp [Html.depth] at hd
    | succ d => simp only [Html.nodes, List.mem_flatMap]; exact ⟨c, hm, by simp⟩
  | step hm _ ih =>
    rename_i h c e _
    intro d hd
    cases d with
    | zero => cases h; simp [Html.depth] at hd
    | succ d =>
      simp only [Html.nodes, List.mem_flatMap]
      refine ⟨c, hm, List.mem_cons_of_mem _ (ih d ?_)⟩
      cases h with
      | mk t bs tx cs =>
        simp only [Html.depth] at hd
        have := (foldl_max_le (cs.map Html.depth) 0).2 c.depth (List.mem_map.2 ⟨c, hm, rfl⟩)
        omega

/-- A finite check of `EveryNode` for a document. -/
theorem everyNode_of {P : Html → Prop} {document : Html} (n : Nat) (hd : (docBody document).depth ≤ n)
    (hb : ∀ c ∈ (docBody document).nodes n, P c)
    (ht : ∀ t ∈ ((beforeBody document.children).filterMap Html.definition).map Prod.snd,
      t.depth ≤ n ∧ P t ∧ ∀ c ∈ t.nodes n, P c) :
    EveryNode (docEnv translate inline document) P (docBody document) := by
  refine ⟨fun d hd' => hb d (below_nodes hd' _ hd), fun id t h => ?_⟩
  have hm : t ∈ ((beforeBody document.children).filterMap Html.definition).map Prod.snd := by
    have h : templateFor document.children id = some t := h
    unfold templateFor at h
    obtain ⟨l1, l2, he, -⟩ := List.lookup_eq_some_iff.1 h
    have : (id, t) ∈ ((beforeBody document.children).filterMap Html.definition).reverse := by rw [he]; simp
    rw [List.mem_reverse] at this
    exact List.mem_map.2 ⟨_, this, rfl⟩
  exact ⟨(ht t hm).2.1, fun d hd => (ht t hm).2.2 d (below_nodes hd _ (ht t hm).1)⟩

/-- The template of `tplDoc`. -/
def tplRoot : Html := .mk "li" [] none [.mk "p" [] none
  [.mk "" [] (some [.string "- ", .binder ⟨"y", ["name"], []⟩, .binder ⟨"it", ["z"], []⟩]) []]]

/-- The conditions of the theorems above hold for `tplDoc`. -/
theorem tplDoc_conditions : EveryNode (docEnv id (fun _ => none) tplDoc)
    (fun c => DistinctAliases (docEnv id (fun _ => none) tplDoc) c ∧ LoopNameFresh c) (docBody tplDoc) := by
  have key : ∀ c : Html, c.tag ≠ "link" → (aliasNames c.bindings).Nodup → LoopNameFresh c →
      DistinctAliases (docEnv id (fun _ => none) tplDoc) c ∧ LoopNameFresh c :=
    fun c h2 h1 h3 => ⟨⟨h1, fun _ _ h => absurd h h2⟩, h3⟩
  have hbody : docBody tplDoc = .mk "body" [] none [
    .mk "ul" [] none [.mk "link" [.none "href" "#t", .alias "it" (path1 "w"), .repeat "y" 2 (path1 "xs")] none []],
    .mk "b" [.visibility true (path1 "on"), .callback "onclick" [.keyword "Go", .binder (path1 "on")]] none []] := rfl
  have htpl : ((beforeBody tplDoc.children).filterMap Html.definition).map Prod.snd = [tplRoot] := rfl
  apply everyNode_of 4
  · rw [hbody]; simp [Html.depth]
  · rw [hbody]
    intro c hc
    simp only [Html.nodes, Html.children, List.flatMap_cons, List.flatMap_nil, List.append_nil, List.cons_append,
      List.nil_append, List.mem_cons, List.not_mem_nil, or_false] at hc
    rcases hc with rfl | rfl | rfl
    · exact key _ (by decide) (by decide) (by simp [LoopNameFresh, Html.bindings])
    · refine ⟨⟨by decide, ?_⟩, by
        intro n k b h
        simp only [Html.bindings, List.mem_cons, reduceCtorEq, ElementBinding.repeat.injEq, List.not_mem_nil, or_false,
          false_or] at h
        obtain ⟨rfl, -, rfl⟩ := h
        decide⟩
      intro i t _ hm ht
      simp only [Html.bindings, List.mem_cons, ElementBinding.none.injEq, true_and, reduceCtorEq, List.not_mem_nil,
        or_false] at hm
      subst hm
      have this : templateFor tplDoc.children "#t" = some tplRoot := rfl
      have ht : templateFor tplDoc.children "#t" = some t := ht
      rw [this] at ht
      injection ht with ht; subst ht
      decide
    · exact key _ (by decide) (by decide) (by simp [LoopNameFresh, Html.bindings])
  · rw [htpl]
    simp only [List.mem_singleton, forall_eq]
    refine ⟨by simp [tplRoot, Html.depth], key _ (by decide) (by decide) (by simp [LoopNameFresh, Html.bindings, tplRoot]), ?_⟩
    intro c hc
    simp only [tplRoot, Html.nodes, Html.children, List.flatMap_cons, List.flatMap_nil, List.append_nil,
      List.mem_cons, List.not_mem_nil, or_false] at hc
    rcases hc with rfl | rfl <;> exact key _ (by decide) (by decide) (by simp [LoopNameFresh, Html.bindings])

/-- `tplDoc` opens, and what the theorems above say about it: the template is rendered twice, its texts
are bound to the items of `xs` and to a field of the alias, both condition and callback are in place. -/
example : ∃ v, tplOpen = .ok v ∧
    v.vm.bindings "/xs/0/name" = [⟨.text 5 1, []⟩] ∧ v.vm.bindings "/xs/1/name" = [⟨.text 8 1, []⟩] ∧
    v.vm.bindings "/w/z" = [⟨.text 5 2, []⟩, ⟨.text 8 2, []⟩] ∧ v.vm.bindings "/on" = [⟨.visibility 1 9 true, []⟩] ∧
    v.vm.bindings "/xs" = [⟨.repeat 2 0 2, []⟩] ∧ v.stage.tree.kids 2 = [3, 6] := by
  have h : (match tplOpen with
    | .ok v => decide (v.vm.bindings "/xs/0/name" = [⟨.text 5 1, []⟩] ∧ v.vm.bindings "/xs/1/name" = [⟨.text 8 1, []⟩] ∧
      v.vm.bindings "/w/z" = [⟨.text 5 2, []⟩, ⟨.text 8 2, []⟩] ∧ v.vm.bindings "/on" = [⟨.visibility 1 9 true, []⟩] ∧
      v.vm.bindings "/xs" = [⟨.repeat 2 0 2, []⟩] ∧ v.stage.tree.kids 2 = [3, 6])
    | _ => false) = true := by decide +kernel
  split at h
  · rename_i v hv; exact ⟨v, hv, by simpa using h⟩
  · simp at h

/-- The paths of `tplDoc`. -/
theorem tplDoc_paths : mentionedPaths (mentions (docEnv id (fun _ => none) tplDoc) 9 (fun _ => none) (docBody tplDoc))
    = ["/w", "/xs", "/xs/0", "/xs/0/name", "/w/z", "/xs/1", "/xs/1/name", "/w/z", "/on", "/on"] := by
  decide +kernel

/-- A finite check of `Consistent`. -/
def consistentCheck (paths : List (List String)) : Bool :=
  paths.all (fun p => p.all fun t => !t.toList.contains '~' &&
    match parseU64 t with | some i => t == toString i | none => true) &&
  paths.all (fun p => paths.all fun q => (List.range p.length).all fun i =>
    p.take i != q.take i || (match p[i]?, q[i]? with
      | some t, some t' => (parseU64 t).isSome == (parseU64 t').isSome
      | _, _ => true))

theorem consistent_of {paths : List String} (h : consistentCheck (paths.map tokens) = true)
    (h2 : "/this" ∉ paths) : Consistent paths := by
  simp only [consistentCheck, Bool.and_eq_true, List.all_eq_true, List.mem_map, forall_exists_index, and_imp,
    forall_apply_eq_imp_iff₂] at h
  obtain ⟨h1, h3⟩ := h
  refine ⟨fun p hp t ht => ?_, fun p hp q hq pre t t' x y e1 e2 => ?_, fun p hp e => h2 (e ▸ hp)⟩
  · obtain ⟨a, b⟩ := h1 p hp t ht
    refine ⟨by simpa using a, fun i hi => ?_⟩
    rw [hi] at b
    simpa using b
  · have := h3 p hp q hq pre.length (by rw [List.mem_range, e1]; simp)
    rw [e1, e2] at this
    simpa using this

/-- The paths of `tplDoc` can exist together. -/
theorem tplDoc_consistent : Consistent
    (mentionedPaths (mentions (docEnv id (fun _ => none) tplDoc) 9 (fun _ => none) (docBody tplDoc))) := by
  rw [tplDoc_paths]
  exact consistent_of (by decide +kernel) (by simp)

/-- No template of `tplDoc` refers to itself. -/
theorem tplDoc_noSelf : NoSelfReference (templateFor tplDoc.children) := by
  have step : ∀ a b, ¬ Refers (templateFor tplDoc.children) a b := by
    rintro a b ⟨t, ht, c, hc, hl⟩
    have hm : t ∈ ((beforeBody tplDoc.children).filterMap Html.definition).map Prod.snd := by
      unfold templateFor at ht
      obtain ⟨l1, l2, he, -⟩ := List.lookup_eq_some_iff.1 ht
      have : (a, t) ∈ ((beforeBody tplDoc.children).filterMap Html.definition).reverse := by rw [he]; simp
      rw [List.mem_reverse] at this
      exact List.mem_map.2 ⟨_, this, rfl⟩
    have : ((beforeBody tplDoc.children).filterMap Html.definition).map Prod.snd = [tplRoot] := rfl
    rw [this, List.mem_singleton] at hm
    subst hm
    have hc := below_nodes hc 4 (by simp [tplRoot, Html.depth])
    simp only [tplRoot, Html.nodes, Html.children, List.flatMap_cons, List.flatMap_nil, List.append_nil,
      List.mem_cons, List.not_mem_nil, or_false] at hc
    rcases hc with rfl | rfl <;> simp [Html.target, Html.tag] at hl
  intro a h
  cases h with
  | single h => exact step _ _ h
  | tail _ h => exact step _ _ h

/-! ## Findings -/

/-- Opening a literal document and looking at it. -/
def opensWith (doc : Html) (P : View → Bool) : Bool :=
  match openView id (fun _ => none) (fun _ => none) 9 doc with
  | .ok v => P v
  | _ => false

theorem opensWith_sound {doc : Html} {P : View → Bool} (h : opensWith doc P = true) :
    ∃ v, openView id (fun _ => none) (fun _ => none) 9 doc = .ok v ∧ P v = true := by
  unfold opensWith at h
  split at h
  · rename_i v hv; exact ⟨v, hv, h⟩
  · simp at h

/-- Finding for C23: after `<a +x="{p}" +x="{q}"/>` the name `x` still denotes `/p` in the sibling
`{x}`. -/
theorem C23_duplicate_alias_leaks : ∃ v, openView id (fun _ => none) (fun _ => none) 9
      (.mk "" [] none [.mk "body" [] none [.mk "a" [.alias "x" (path1 "p"), .alias "x" (path1 "q")] none [],
        .mk "" [] (some [.binder (path1 "x")]) []]]) = .ok v ∧
    v.vm.bindings "/p" = [⟨.text 3 0, []⟩] ∧ v.vm.bindings "/x" = [] := by
  obtain ⟨v, h1, h2⟩ := opensWith_sound (doc := .mk "" [] none [.mk "body" [] none
    [.mk "a" [.alias "x" (path1 "p"), .alias "x" (path1 "q")] none [], .mk "" [] (some [.binder (path1 "x")]) []]])
    (P := fun v => decide (v.vm.bindings "/p" = [⟨.text 3 0, []⟩] ∧ v.vm.bindings "/x" = [])) (by decide +kernel)
  exact ⟨v, h1, by simpa using h2⟩

/-- Finding for C24: with `*x="3 {x}"` slot 1 is bound to `/x/0/1` instead of `/x/1`. -/
theorem C24_shadowed_array : ∃ v, openView id (fun _ => none) (fun _ => none) 9
      (.mk "" [] none [.mk "body" [] none [.mk "li" [.repeat "x" 3 (path1 "x")] none
        [.mk "" [] (some [.binder (path1 "x")]) []]]]) = .ok v ∧
    v.vm.bindings "/x/0/1" = [⟨.text 5 0, []⟩] ∧ v.vm.bindings "/x/1" = [] := by
  obtain ⟨v, h1, h2⟩ := opensWith_sound (doc := .mk "" [] none [.mk "body" [] none
    [.mk "li" [.repeat "x" 3 (path1 "x")] none [.mk "" [] (some [.binder (path1 "x")]) []]]])
    (P := fun v => decide (v.vm.bindings "/x/0/1" = [⟨.text 5 0, []⟩] ∧ v.vm.bindings "/x/1" = [])) (by decide +kernel)
  exact ⟨v, h1, by simpa using h2⟩

/-- A body with one callback per expression. -/
def callbacks (bs : List Binder) : Html := .mk "" [] none [.mk "body" [] none
  (bs.map fun b => .mk "b" [.callback "onclick" [.keyword "Go", .binder b]] none [])]

/-- Finding for C25: with `{a.x}` and `{a.0}` in one document the argument `a.x` does not exist in the
bound model. -/
theorem C25_mixed_use : ∃ v, openView id (fun _ => none) (fun _ => none) 9
      (callbacks [⟨"a", ["x"], []⟩, ⟨"a", ["0"], []⟩]) = .ok v ∧ v.vm.model.pointer "/a/x" = none := by
  obtain ⟨v, h1, h2⟩ := opensWith_sound (doc := callbacks [⟨"a", ["x"], []⟩, ⟨"a", ["0"], []⟩])
    (P := fun v => decide (v.vm.model.pointer "/a/x" = none)) (by decide +kernel)
  exact ⟨v, h1, by simpa using h2⟩

/-- Finding for C25: the argument `{a.007}` does not exist in the bound model. -/
theorem C25_leading_zero : ∃ v, openView id (fun _ => none) (fun _ => none) 9
      (callbacks [⟨"a", ["007"], []⟩]) = .ok v ∧ v.vm.model.pointer "/a/007" = none := by
  obtain ⟨v, h1, h2⟩ := opensWith_sound (doc := callbacks [⟨"a", ["007"], []⟩])
    (P := fun v => decide (v.vm.model.pointer "/a/007" = none)) (by decide +kernel)
  exact ⟨v, h1, by simpa using h2⟩

/-- Finding for C25: the argument `{this}` does not exist in the bound model. -/
theorem C25_this : ∃ v, openView id (fun _ => none) (fun _ => none) 9
      (callbacks [path1 "this"]) = .ok v ∧ v.vm.model.pointer "/this" = none := by
  obtain ⟨v, h1, h2⟩ := opensWith_sound (doc := callbacks [path1 "this"])
    (P := fun v => decide (v.vm.model.pointer "/this" = none)) (by decide +kernel)
  exact ⟨v, h1, by simpa using h2⟩

/-- `<template id="t"><div><link href="#t"/></div></template><body><link href="#t"/></body>` -/
def selfDoc : Html := .mk "" [] none [
  .mk "template" [.none "id" "t"] none [.mk "div" [] none [.mk "link" [.none "href" "#t"] none []]],
  .mk "body" [] none [.mk "link" [.none "href" "#t"] none []]]

/-- Finding for C26: a template that refers to itself exceeds every nesting depth: the renderer never
returns. -/
theorem C26_self_reference_diverges (fuel : Nat) :
    openView translate inline tr fuel selfDoc = .error .outOfFuel := by
  rw [openView_error (by simp)]
  intro σ0 _
  have htpl : (docEnv translate inline selfDoc).templates "#t"
      = some (.mk "div" [] none [.mk "link" [.none "href" "#t"] none []]) := rfl
  have hbody : docBody selfDoc = .mk "body" [] none [.mk "link" [.none "href" "#t"] none []] := rfl
  rw [hbody]
  generalize docEnv translate inline selfDoc = env at htpl
  have hres : resolveChild env (.mk "link" [.none "href" "#t"] none [])
      = .ok (.mk "div" [] none [.mk "link" [.none "href" "#t"] none []]) := by
    rw [resolveChild_spec]
    unfold linkMeaning
    have : Html.target (.mk "link" [.none "href" "#t"] none []) = some "#t" := rfl
    rw [this]
    simp only
    rw [htpl]
    rfl
  have key : ∀ fuel tag σ, tag ≠ "img" → tag ∉ voidTags →
      renderNode env fuel (.mk tag [] none [.mk "link" [.none "href" "#t"] none []]) σ = .error .outOfFuel := by
    intro fuel
    induction fuel with
    | zero => intros; rfl
    | succ fuel ih =>
      intro tag σ h1 h2
      simp only [renderNode, Html.text, renderElement, Html.bindings, List.foldl_nil, Html.tag, renderContent,
        if_neg h1, if_neg h2, Html.children, renderChildren, renderChild, hres, renderAliases, renderBody,
        Html.asVisibility, Html.asRepeat, List.findSome?_nil]
      rw [ih "div" _ (by decide) (by decide)]
  exact key fuel "body" σ0 (by decide) (by decide)

end Verif
