import Verif.View.Blank
import Verif.Props.Tree
import Verif.Props.Bind
/-!
# Histories of a rendered view (lemmas for C16, C18-C20)
-/
namespace Verif
open Json

variable {inline : String → Option (List Declaration)}

/-- Invariant of a view over its registered bindings. -/
structure ViewGood (regs : List (String × Binding)) (v : View) : Prop where
  wf : v.stage.tree.Wf v.root v.body
  bindings : v.vm.bindings = lookupRegs regs
  reactions : ∀ r ∈ regs, ∀ x, ReactionOk v.stage.tree v.root v.body (r.2.react x)
  texts : ∀ r ∈ regs, ∀ n i, r.2.params = .text n i →
    ∃ e tx, v.stage.tree.ctx n = some e ∧ e.text = some tx ∧ i < tx.spans.length

theorem mem_lookupRegs {regs : List (String × Binding)} {path : String} {b : Binding} :
    b ∈ lookupRegs regs path ↔ (path, b) ∈ regs := by
  simp only [lookupRegs, List.mem_map, List.mem_filter, decide_eq_true_eq]
  constructor
  · rintro ⟨⟨p, b'⟩, ⟨h1, rfl⟩, rfl⟩; exact h1
  · intro h; exact ⟨(path, b), ⟨h, rfl⟩, rfl⟩

theorem reactAt_mem {regs : List (String × Binding)} {tr : Transformers} {note : String × Json} {r : Reaction}
    (h : r ∈ reactAt (lookupRegs regs) tr note) :
    ∃ b, (note.1, b) ∈ regs ∧ r = b.react (applyPipe tr b.pipe note.2) := by
  simp only [reactAt, List.mem_map] at h
  obtain ⟨b, hb, rfl⟩ := h
  exact ⟨b, mem_lookupRegs.1 hb, rfl⟩

/-- Applicable reactions keep the invariant. -/
theorem viewGood_step {regs : List (String × Binding)} {v : View} (h : ViewGood regs v) (vm : ViewModel)
    (hvm : vm.bindings = v.vm.bindings) (rs : List Reaction)
    (hrs : ∀ r ∈ rs, ReactionOk v.stage.tree v.root v.body r) :
    ∃ stage, updateTrees inline v.stage rs = .ok stage ∧
      ViewGood regs { v with vm := vm, stage := stage } := by
  obtain ⟨s', h1, h2, h3⟩ := C16_tree_stays_tree (inline := inline) v.stage rs h.wf hrs
  refine ⟨s', h1, h2, hvm.trans h.bindings, fun r hr x => h3 _ (h.reactions r hr x), ?_⟩
  intro r hr n i hp
  obtain ⟨e, tx, e1, e2, e3⟩ := h.texts r hr n i hp
  obtain ⟨s2, e', tx', g1, g2, g3, g4⟩ := C17_spans_independent (inline := inline) v.stage rs h.wf hrs e1 e2
  rw [h1] at g1; injection g1 with g1; subst g1
  refine ⟨e', tx', g2, g3, ?_⟩
  have := g4 i
  by_cases hlt : i < tx'.spans.length
  · exact hlt
  · rw [List.getElem?_eq_none (Nat.le_of_not_lt hlt), List.getElem?_eq_getElem e3] at this
    simp at this

theorem bind_bindings {vm vm' : ViewModel} {x : Json} {rs} (h : vm.bind x = some (vm', rs)) :
    vm'.bindings = vm.bindings ∧ vm'.defaults = vm.defaults ∧ vm'.transformers = vm.transformers := by
  unfold ViewModel.bind at h
  rw [Option.map_eq_some_iff] at h
  obtain ⟨b, -, e⟩ := h
  simp only [Prod.mk.injEq] at e
  rw [← e.1]; exact ⟨rfl, rfl, rfl⟩

theorem bind_reactions {vm vm' : ViewModel} {x : Json} {rs} (h : vm.bind x = some (vm', rs))
    {regs : List (String × Binding)} (hb : vm.bindings = lookupRegs regs) {r : Reaction} (hr : r ∈ rs) :
    ∃ rg ∈ regs, ∃ y, r = rg.2.react y := by
  unfold ViewModel.bind at h
  rw [Option.map_eq_some_iff] at h
  obtain ⟨b, -, e⟩ := h
  simp only [Prod.mk.injEq] at e
  rw [← e.2, List.mem_flatMap] at hr
  obtain ⟨note, -, hr⟩ := hr
  rw [hb] at hr
  obtain ⟨b', h1, h2⟩ := reactAt_mem hr
  exact ⟨_, h1, _, h2⟩

/-- An update of a good view fails only if binding panics. -/
theorem viewGood_update {regs : List (String × Binding)} {v : View} (h : ViewGood regs v) (x : Json)
    {vm rs} (hb : v.vm.bind x = some (vm, rs)) :
    ∃ stage, updateTrees inline v.stage rs = .ok stage ∧
      v.update inline x = .ok { v with vm := vm, stage := stage } ∧
      ViewGood regs { v with vm := vm, stage := stage } ∧
      (∀ r ∈ rs, ReactionOk v.stage.tree v.root v.body r) := by
  have hrs : ∀ r ∈ rs, ReactionOk v.stage.tree v.root v.body r := by
    intro r hr
    obtain ⟨rg, h1, y, rfl⟩ := bind_reactions hb h.bindings hr
    exact h.reactions rg h1 y
  obtain ⟨stage, h1, h2⟩ := viewGood_step (inline := inline) h vm (bind_bindings hb).1 rs hrs
  refine ⟨stage, h1, ?_, h2, hrs⟩
  unfold View.update
  rw [hb]
  simp only [h1]

theorem mem_insertBinding {r x : String × Binding} {l : List (String × Binding)} :
    x ∈ insertBinding r l ↔ x = r ∨ x ∈ l := by
  induction l with
  | nil => simp [insertBinding]
  | cons y l ih =>
    unfold insertBinding
    split
    · simp
    · simp only [List.mem_cons, ih]
      constructor
      · rintro (h | h | h) <;> simp [h]
      · rintro (h | h | h) <;> simp [h]

theorem mem_foldl_insertBinding {x : String × Binding} (regs l : List (String × Binding)) :
    x ∈ regs.foldl (fun l r => insertBinding r l) l ↔ x ∈ regs ∨ x ∈ l := by
  induction regs generalizing l with
  | nil => simp
  | cons r regs ih =>
    rw [List.foldl_cons, ih, mem_insertBinding, List.mem_cons]
    constructor
    · rintro (h | h | h) <;> simp [h]
    · rintro ((h | h) | h) <;> simp [h]

theorem mem_orderedBindings {regs : List (String × Binding)} {b : Binding} :
    b ∈ orderedBindings regs ↔ ∃ p, (p, b) ∈ regs := by
  simp [orderedBindings, List.mem_map, mem_foldl_insertBinding]

/-- What opening a document gives. -/
structure Opened (v : View) (σ : Render) (tr : Transformers) : Prop where
  good : ViewGood σ.regs v
  unique : ViewUnique σ v.root v.body
  model : v.vm.model = σ.schema
  transformers : v.vm.transformers = tr
  created : ViewModel.create (lookupRegs σ.regs) σ.schema tr = some v.vm
  blank : Blank σ.schema
  defaults : BlankDefaults v.vm.defaults
  slots : ∀ p, v.stage.tree.slots v.root v.body p = σ.tree.slots v.root v.body p
  hidden : ∀ r ∈ σ.regs, ∀ p c b, r.2.params = .visibility p c b → c ∉ v.stage.tree.kids p
  notRoot : ∀ r ∈ σ.regs, r.2.node ≠ v.root

theorem showAll_default {slots : List NodeId} {p c : NodeId} {f : NodeId → Bool} (rs : List Reaction)
    (h1 : ∀ r ∈ rs, (∃ q n, r = .reattach q n false)) (h2 : .reattach p c false ∈ rs ∨ f c = false) :
    showAll slots p f rs c = false := by
  unfold showAll
  induction rs generalizing f with
  | nil => simpa using h2
  | cons r rs ih =>
    rw [List.foldl_cons]
    apply ih (fun r hr => h1 r (by simp [hr]))
    obtain ⟨q, n, rfl⟩ := h1 r (by simp)
    simp only [showStep]
    rcases h2 with h2 | h2
    · rcases List.mem_cons.1 h2 with h2 | h2
      · simp only [Reaction.reattach.injEq] at h2
        obtain ⟨rfl, rfl, -⟩ := h2
        right; simp
      · exact .inl h2
    · right; rw [h2]; simp

theorem openView_cases (translate : String → String) (tr : Transformers) (fuel : Nat) (document : Html) :
    (∃ v σ root body, openView translate inline tr fuel document = .ok v ∧
      renderView ⟨(collect document.children (fun _ => none)).1, translate, inline⟩ fuel
        (collect document.children (fun _ => none)).2 = .ok (root, body, σ) ∧ Opened v σ tr) ∨
    openView translate inline tr fuel document = .error .outOfFuel ∨
    ∃ id, openView translate inline tr fuel document = .error (.templateNotFound id) := by
  unfold openView
  simp only
  generalize (⟨(collect document.children (fun _ => none)).1, translate, inline⟩ : RenderEnv) = env
  generalize (collect document.children (fun _ => none)).2 = body0
  cases hr : renderView env fuel body0 with
  | error e =>
    cases e with
    | outOfFuel => simp
    | templateNotFound id => simp
    | tree f =>
      exfalso
      unfold renderView at hr
      simp only at hr
      generalize hσ0 : ({ tree := (Tree.setCtx Tree.empty.newLeaf.2 Tree.empty.newLeaf.1 { node := Tree.empty.newLeaf.1 }) } : Render) = σ0 at hr
      have hc0 : σ0.tree.Clean := by
        subst hσ0
        intro m hm
        exact ⟨upd_other _ _ (Nat.ne_of_gt hm), rfl, rfl⟩
      have hn0 : σ0.tree.next = 1 := by subst hσ0; rfl
      have hg := renderNode_grew env fuel body0 σ0 hc0
      split at hr
      · rename_i e he
        injection hr with hr; subst hr
        rw [he] at hg; exact hg
      · rename_i b σ1 he
        rw [he] at hg
        have hlt := (hg.forest.top b (by simp))
        rw [hn0] at hlt
        unfold Tree.addChild at hr
        rw [if_pos (show Tree.empty.newLeaf.1 < σ1.tree.next ∧ b < σ1.tree.next from
          ⟨Nat.lt_of_lt_of_le Nat.zero_lt_one (Nat.le_of_lt (Nat.lt_of_le_of_lt hlt.1 hlt.2.1)), hlt.2.1⟩)] at hr
        simp at hr
  | ok res =>
    obtain ⟨root, body, σ⟩ := res
    simp only
    left
    have hv := renderView_ok hr
    have hb := renderView_blank hr
    obtain ⟨d, hd1, hd2⟩ := memorize_blank "" σ.schema (fun _ => none) hb (by intro k x h; simp at h)
    have hcreate : ViewModel.create (lookupRegs σ.regs) σ.schema tr
        = some ⟨lookupRegs σ.regs, σ.schema, d, tr⟩ := by
      unfold ViewModel.create; rw [hd1]; rfl
    rw [hcreate]
    simp only
    have hok : ∀ r ∈ σ.regs, ∀ x, ReactionOk σ.tree root body (r.2.react x) :=
      fun r hr x => bindOk_reactionOk (hv.bindings r hr).1 (hv.bindings r hr).2 x
    have hrs : ∀ r ∈ defaultReactions (orderedBindings σ.regs), ReactionOk σ.tree root body r := by
      intro r hr
      unfold defaultReactions at hr
      rw [List.mem_filterMap] at hr
      obtain ⟨b, hb, hk⟩ := hr
      obtain ⟨p, hp⟩ := mem_orderedBindings.1 hb
      cases hpar : b.params with
      | visibility q n vis =>
        rw [hpar] at hk
        simp only [Option.some.injEq] at hk
        subst hk
        have h1 := (hv.bindings _ hp).1
        have h2 := (hv.bindings _ hp).2
        have := bindOk_reactionOk (root := root) (body := body) h1 h2 (.bool (!vis))
        simp only [Binding.react, hpar] at this
        cases vis <;> simpa [Json.evalBoolean] using this
      | _ => rw [hpar] at hk; simp at hk
    have hgood0 : ViewGood σ.regs ⟨⟨lookupRegs σ.regs, σ.schema, d, tr⟩, ⟨σ.tree, σ.staticId⟩, root, body⟩ := by
      refine ⟨hv.wf, rfl, hok, ?_⟩
      intro r hr n i hp
      have := (hv.bindings r hr).1
      unfold BindOk at this
      rw [hp] at this
      exact this
    obtain ⟨stage, h1, h2⟩ := viewGood_step (inline := inline) hgood0 ⟨lookupRegs σ.regs, σ.schema, d, tr⟩ rfl _ hrs
    simp only at h1
    rw [h1]
    obtain ⟨s', k1, -, k3, k4⟩ := updateTrees_steps (inline := inline)
      (defaultReactions (orderedBindings σ.regs)) ⟨σ.tree, σ.staticId⟩ hv.wf hrs
    rw [h1] at k1; injection k1 with k1; subst k1
    have hu := renderView_unique hr
    refine ⟨_, σ, root, body, rfl, rfl, h2, hu, rfl, rfl, hcreate, hb, hd2, fun p => k3.slots root body p, ?_,
      fun r hr => (hv.bindings r hr).2⟩
    intro r hrm p c b hp hc
    have hne := (hv.bindings r hrm).2
    rw [vis_node hp] at hne
    have := ((k4 p hne c).1 hc).2
    rw [showAll_default] at this
    · simp at this
    · intro r hr
      unfold defaultReactions at hr
      rw [List.mem_filterMap] at hr
      obtain ⟨b, hb, hk⟩ := hr
      cases hpar : b.params with
      | visibility q n vis =>
        rw [hpar] at hk
        simp only [Option.some.injEq] at hk
        exact ⟨q, n, hk.symm⟩
      | _ => rw [hpar] at hk; simp at hk
    · left
      unfold defaultReactions
      rw [List.mem_filterMap]
      exact ⟨r.2, mem_orderedBindings.2 ⟨r.1, hrm⟩, by rw [hp]⟩

end Verif
