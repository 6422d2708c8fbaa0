import Verif.Spec.Documents
import Verif.View.Templates
import Verif.View.OpenParts
import Verif.View.Useless
/-!
# Lemmas about documents that mean the same (C106, C107)
-/
namespace Verif

variable {p : Platform}

/-- A relation of nodes that is kept by everything rendering looks at. -/
structure DocAlike (env env' : RenderEnv) (R : Html → Html → Prop) : Prop where
  translate : env'.translate = env.translate
  inline : env'.inline = env.inline
  tag : ∀ {h h'}, R h h' → h'.tag = h.tag
  bindings : ∀ {h h'}, R h h' → h'.bindings = h.bindings
  text : ∀ {h h'}, R h h' → h'.text = h.text
  children : ∀ {h h'}, R h h' → h.tag ≠ "img" → h.tag ∉ voidTags →
    List.Forall₂ (fun c c' => ExRel R (resolveChild env c) (resolveChild env' c')) h.children h'.children

variable {env env' : RenderEnv} {R : Html → Html → Prop}

theorem renderSlots_docs {rec rec' : RenderFn} {name : String} {binder : Binder} {c c' : Html} (h : ∀ σ, rec c σ = rec' c' σ) (ns : List Nat) :
    ∀ (children : List NodeId) (σ : Render), renderSlots rec name binder c ns children σ = renderSlots rec' name binder c' ns children σ := by
  induction ns with
  | nil => intros; rfl
  | cons n ns ih => intro children σ; simp only [renderSlots, h, ih]

theorem renderBody_docs {rec rec' : RenderFn} {c c' : Html} (h : ∀ σ, rec c σ = rec' c' σ) (hb : c'.bindings = c.bindings) (node : NodeId)
    (children : List NodeId) (σ : Render) : renderBody rec node c children σ = renderBody rec' node c' children σ := by
  have hv : c'.asVisibility = c.asVisibility := by unfold Html.asVisibility; rw [hb]
  have hr : c'.asRepeat = c.asRepeat := by unfold Html.asRepeat; rw [hb]
  unfold renderBody
  simp only [hv, hr, h, renderSlots_docs h]

theorem renderChild_docs (hR : DocAlike env env' R) {rec rec' : RenderFn} (h : ∀ d d', R d d' → ∀ σ, rec d σ = rec' d' σ) {c c' : Html}
    (hc : ExRel R (resolveChild env c) (resolveChild env' c')) (node : NodeId) (children : List NodeId) (σ : Render) :
    renderChild env rec node c children σ = renderChild env' rec' node c' children σ := by
  unfold renderChild
  revert hc
  generalize resolveChild env c = A
  generalize resolveChild env' c' = B
  intro hc
  cases hc with
  | error e => rfl
  | ok hd =>
    simp only [hR.bindings hd, renderBody_docs (h _ _ hd) (hR.bindings hd)]

theorem renderChildren_docs (hR : DocAlike env env' R) {rec rec' : RenderFn} (h : ∀ d d', R d d' → ∀ σ, rec d σ = rec' d' σ) {l l' : List Html}
    (hl : List.Forall₂ (fun c c' => ExRel R (resolveChild env c) (resolveChild env' c')) l l') (node : NodeId) :
    ∀ (children : List NodeId) (σ : Render), renderChildren env rec node l children σ = renderChildren env' rec' node l' children σ := by
  induction hl with
  | nil => intros; rfl
  | cons hc _ ih => intro children σ; simp only [renderChildren, renderChild_docs hR h hc, ih]

theorem renderBinding_docs (hR : DocAlike env env' R) (node : NodeId) : renderBinding env' node = renderBinding env node := by
  funext s b
  unfold renderBinding
  simp only [hR.inline]

theorem renderNode_docs (hR : DocAlike env env' R) (fuel : Nat) : ∀ {h h' : Html}, R h h' → ∀ σ, renderNode env fuel h σ = renderNode env' fuel h' σ := by
  induction fuel with
  | zero => intros; rfl
  | succ fuel ih =>
    intro h h' hh σ
    simp only [renderNode, hR.text hh]
    cases h.text with
    | some spans => simp only [renderText, hR.translate]
    | none =>
      simp only [renderElement, hR.tag hh, hR.bindings hh, renderBinding_docs hR]
      have tagFold : ∀ (bs : List ElementBinding) (s : Element × Render), (bs.foldl (renderBinding env σ.tree.newLeaf.1) s).1.tag = s.1.tag := by
        intro bs
        induction bs with
        | nil => intro s; rfl
        | cons b bs ihb =>
          intro s
          rw [List.foldl_cons, ihb]
          obtain ⟨e, σ⟩ := s
          unfold renderBinding
          cases b with
          | «attribute» key spans =>
            rcases spans with _ | ⟨x, _ | ⟨y, l⟩⟩
            · rfl
            · cases x <;> rfl
            · cases x <;> rfl
          | none key value => simp only; split <;> rfl
          | _ => rfl
      have hcontent : ∀ (s : Element × Render), s.1.tag = h.tag → renderContent env (renderNode env fuel) σ.tree.newLeaf.1 s.1 h.children s.2 =
          renderContent env' (renderNode env' fuel) σ.tree.newLeaf.1 s.1 h'.children s.2 := by
        intro s hs
        unfold renderContent
        rw [hs]
        split
        · rfl
        · rename_i h1
          split
          · rfl
          · rename_i h2
            exact renderChildren_docs hR (fun d d' hd σ => ih hd σ) (hR.children hh h1 h2) _ _ _
      rw [hcontent _ (tagFold _ _)]

theorem renderView_docs (hR : DocAlike env env' R) {h h' : Html} (hh : R h h') (fuel : Nat) : renderView env fuel h = renderView env' fuel h' := by
  unfold renderView
  simp only [renderNode_docs hR fuel hh]

/-- Documents that are alike open alike. -/
theorem openApp_docs {document document' : Html} (hR : DocAlike (docEnv p.translate p.inline document) (docEnv p.translate p.inline document') R)
    (hh : R (docBody document) (docBody document')) (fuel : Nat) (css : Css) : openApp p fuel document' css = openApp p fuel document css := by
  have := renderView_docs hR hh fuel
  unfold docEnv at this
  unfold openApp
  simp only [collect_doc, this]

/-! ## Templates nobody needs -/

theorem Html.Below.up {h c d : Html} (h1 : c ∈ h.children) (h2 : c.Below d) : h.Below d := .step h1 h2

theorem Html.Needs.up {ts : SMap Html} {h c : Html} (hc : c ∈ h.children) {id : String} (hn : c.Needs ts id) : h.Needs ts id := by
  induction hn with
  | link h1 h2 => exact .link (.step hc h1) h2
  | through _ h2 ih => exact .through ih h2

theorem Html.Needs.template {ts : SMap Html} {h : Html} {a : String} (ha : h.Needs ts a) {t d : Html} (ht : ts a = some t) (hd : d.children = t.children)
    {id : String} (hn : d.Needs ts id) : h.Needs ts id := by
  induction hn with
  | @link c id h1 h2 =>
    refine .through ha ⟨t, ht, c, ?_, h2⟩
    cases h1 with
    | child h => exact .child (by rw [← hd]; exact h)
    | step h g => exact .step (by rw [← hd]; exact h) g
  | through _ h2 ih => exact .through ih h2

/-- The same node with templates that agree where it needs them. -/
def AgreeOn (ts ts' : SMap Html) (h h' : Html) : Prop := h' = h ∧ ∀ id, h.Needs ts id → ts' id = ts id

theorem agree_alike (ht : env'.translate = env.translate) (hi : env'.inline = env.inline) : DocAlike env env' (AgreeOn env.templates env'.templates) where
  translate := ht
  inline := hi
  tag h := by rw [h.1]
  bindings h := by rw [h.1]
  text h := by rw [h.1]
  children := by
    rintro h h' ⟨rfl, hn⟩ _ _
    have : ∀ l : List Html, (∀ c ∈ l, c ∈ h'.children) → List.Forall₂ (fun c c' => ExRel (AgreeOn env.templates env'.templates) (resolveChild env c) (resolveChild env' c')) l l := by
      intro l
      induction l with
      | nil => intro _; exact .nil
      | cons c l ih =>
        intro hl
        have hc := hl c List.mem_cons_self
        refine .cons ?_ (ih fun d hd => hl d (List.mem_cons_of_mem _ hd))
        rw [resolveChild_spec, resolveChild_spec]
        unfold linkMeaning
        cases hct : c.target with
        | none => exact .ok ⟨rfl, fun id hid => hn id (hid.up hc)⟩
        | some a =>
          have ha : h'.Needs env.templates a := .link (.child hc) hct
          simp only [hn a ha]
          cases hta : env.templates a with
          | none => exact .error _
          | some t => exact .ok ⟨rfl, fun id hid => hn id (ha.template hta (d := .mk _ _ _ t.children) rfl hid)⟩
    exact this _ fun _ h => h

theorem openApp_agree {document document' : Html} (hb : docBody document' = docBody document)
    (ht : ∀ id, (docBody document).Needs (templateFor document.children) id → templateFor document'.children id = templateFor document.children id)
    (fuel : Nat) (css : Css) : openApp p fuel document' css = openApp p fuel document css :=
  openApp_docs (agree_alike (env := docEnv p.translate p.inline document) (env' := docEnv p.translate p.inline document') rfl rfl) ⟨hb, ht⟩ fuel css

/-! ## Links replaced by what they stand for -/

theorem target_congr {c c' : Html} (h1 : c'.tag = c.tag) (h2 : c'.bindings = c.bindings) : c'.target = c.target := by
  unfold Html.target; rw [h1, h2]

theorem inlined_parts {ts : SMap Html} {h h' : Html} (hh : h.Inlined ts h') : h'.tag = h.tag ∧ h'.bindings = h.bindings ∧ h'.text = h.text ∧
    (h.tag ∈ childless ∨ Html.InlinedAll ts h.children h'.children) := by
  cases hh with
  | mk h => exact ⟨rfl, rfl, rfl, .inr h⟩
  | childless h => exact ⟨rfl, rfl, rfl, .inl h⟩

theorem inlined_rebuild {ts : SMap Html} {t t' : Html} (h : t.Inlined ts t') (bs : List ElementBinding) :
    (Html.mk t.tag (bs ++ t.bindings) t.text t.children).Inlined ts (.mk t'.tag (bs ++ t'.bindings) t'.text t'.children) := by
  cases h with
  | mk h => exact .mk h
  | childless h => exact .childless h

theorem inlined_children {ts : SMap Html} (he : env.templates = ts) (ht : ∀ id, Option.Rel (Html.Inlined ts) (ts id) (env'.templates id)) {l : List Html} :
    ∀ {l' : List Html}, Html.InlinedAll ts l l' → List.Forall₂ (fun c c' => ExRel (Html.Inlined ts) (resolveChild env c) (resolveChild env' c')) l l' := by
  induction l with
  | nil => intro l' h; cases h; exact .nil
  | cons c l ih =>
    intro l' h
    cases h with
    | same h1 h2 =>
      refine .cons ?_ (ih h2)
      obtain ⟨g1, g2, g3, _⟩ := inlined_parts h1
      rw [resolveChild_spec, resolveChild_spec, he]
      unfold linkMeaning
      rw [target_congr g1 g2, g2]
      cases c.target with
      | none => exact .ok h1
      | some id =>
        have := ht id
        simp only
        revert this
        generalize ts id = A
        generalize env'.templates id = B
        intro this
        cases this with
        | none => exact .error _
        | some h => exact .ok (inlined_rebuild h _)
    | link h1 h2 h3 h4 =>
      refine .cons ?_ (ih h4)
      obtain ⟨g1, g2, g3, _⟩ := inlined_parts h3
      rw [resolveChild_spec, resolveChild_spec, he, h1]
      unfold linkMeaning
      rw [target_congr g1 g2, h2]
      exact .ok h3

theorem inlined_alike (ht : env'.translate = env.translate) (hi : env'.inline = env.inline)
    (hs : ∀ id, Option.Rel (Html.Inlined env.templates) (env.templates id) (env'.templates id)) : DocAlike env env' (Html.Inlined env.templates) where
  translate := ht
  inline := hi
  tag h := (inlined_parts h).1
  bindings h := (inlined_parts h).2.1
  text h := (inlined_parts h).2.2.1
  children := by
    intro h h' hh h1 h2
    rcases (inlined_parts hh).2.2.2 with h3 | h3
    · exact absurd h3 (by
        have : childless = "img" :: voidTags := rfl
        rw [this, List.mem_cons]
        exact fun h => h.elim h1 h2)
    · exact inlined_children rfl hs h3

end Verif
