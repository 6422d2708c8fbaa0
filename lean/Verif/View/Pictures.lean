import Verif.View.Placement
import Verif.View.Tagged
/-!
# The pictures of images (lemmas for C80)
-/
namespace Verif

variable {p : Platform}

/-- A picture of a source, wherever it is. Its attributes are never read. -/
def IsPicture (c : NodeId) (src : String) (e : Element) : Prop := SameStyled { picture c src with attrs := e.attrs } e

/-- Every image has one child, a picture of its source. -/
def Tree.Pictured (root : NodeId) (t : Tree) : Prop :=
  ∀ n e, n ≠ root → t.ctx n = some e → e.tag = "img" → ∃ c pe, e.children = [c] ∧ t.ctx c = some pe ∧ IsPicture c e.source pe

theorem IsPicture.tag {c : NodeId} {src : String} {e : Element} (h : IsPicture c src e) : e.tag = "" := by rw [h]; rfl
theorem IsPicture.text {c : NodeId} {src : String} {e : Element} (h : IsPicture c src e) : e.text = none := by rw [h]; rfl
theorem IsPicture.bound {c : NodeId} {src : String} {e : Element} (h : IsPicture c src e) (k : String) : e.attrsBindings k = none := by rw [h]; rfl

/-! ## Rendering -/

theorem pictured_fresh {root : NodeId} {t : Tree} (h : t.Pictured root) {n : NodeId} (hn : t.ctx n = none) {e : Element}
    (he : e.tag = "img" → ∃ c pe, c ≠ n ∧ e.children = [c] ∧ t.ctx c = some pe ∧ IsPicture c e.source pe) : (t.setCtx n e).Pictured root := by
  intro m x hm hx hi
  by_cases hmn : m = n
  · subst hmn
    simp only [Tree.setCtx, upd_same, Option.some.injEq] at hx
    subst hx
    obtain ⟨c, pe, h1, h2, h3, h4⟩ := he hi
    exact ⟨c, pe, h2, by simp only [Tree.setCtx, upd_other _ _ h1]; exact h3, h4⟩
  · simp only [Tree.setCtx, upd_other _ _ hmn] at hx
    obtain ⟨c, pe, h2, h3, h4⟩ := h m x hm hx hi
    have hc : c ≠ n := fun hc => by rw [hc, hn] at h3; cases h3
    exact ⟨c, pe, h2, by simp only [Tree.setCtx, upd_other _ _ hc]; exact h3, h4⟩

theorem pictured_ctx {root : NodeId} {t t' : Tree} (h : t.Pictured root) (hc : t'.ctx = t.ctx) : t'.Pictured root := by
  intro m x hm hx hi; rw [hc] at hx ⊢; exact h m x hm hx hi

theorem renderNode_pictured (root : NodeId) (env : RenderEnv) (fuel : Nat) : RecKeeps (fun t => t.Clean ∧ t.Pictured root) (renderNode env fuel) := by
  induction fuel with
  | zero => intro h σ n σ' hok; simp [renderNode] at hok
  | succ fuel ih =>
    intro h σ n σ' hok ⟨hclean, hc⟩
    have hg := renderNode_grew env (fuel + 1) h σ hclean
    rw [hok] at hg
    have hg : Grew σ σ' n := hg
    refine ⟨hg.forest.clean, ?_⟩
    simp only [renderNode] at hok
    have hnone : σ.tree.ctx σ.tree.next = none := (hclean _ (Nat.le_refl _)).1
    split at hok
    · rename_i spans ht
      simp only [Except.ok.injEq] at hok
      have e2 : (renderText env spans σ).2 = σ' := by rw [hok]
      rw [← e2]
      have hf := (renderSpans_frame (fun i => .text σ.tree.newLeaf.1 i) env.translate spans 0 { σ with tree := σ.tree.newLeaf.2 }).1
      refine pictured_fresh (pictured_ctx hc ?_) ?_ (fun hi => absurd hi (by simp))
      · rw [hf]; rfl
      · rw [hf]; exact hnone
    · unfold renderElement at hok
      simp only at hok
      have hb := renderBindings_step env σ.tree.newLeaf.1 h.bindings
        ({ node := σ.tree.newLeaf.1, tag := h.tag }, { σ with tree := σ.tree.newLeaf.2 })
      generalize h.bindings.foldl (renderBinding env σ.tree.newLeaf.1)
        ({ node := σ.tree.newLeaf.1, tag := h.tag }, { σ with tree := σ.tree.newLeaf.2 }) = s at hb hok
      have htr : s.2.tree = σ.tree.newLeaf.2 := hb.tree
      have hclean2 : s.2.tree.Clean := by rw [htr]; exact clean_newLeaf hclean
      have hst : s.2.tree.Pictured root := by rw [htr]; exact pictured_ctx hc rfl
      have hl := renderContent_loop (env := env) (renderNode_grew env fuel) (node := σ.tree.newLeaf.1) (e := s.1) h.children s.2 hclean2
      split at hok
      · cases hok
      · rename_i cs σ1 he
        rw [he] at hl
        obtain ⟨⟨hfor, -⟩, -⟩ := hl
        have hn1 : σ1.tree.ctx σ.tree.newLeaf.1 = none := by
          rw [(hfor.old σ.tree.newLeaf.1 (by rw [htr]; exact Nat.lt_succ_self _)).1, htr]
          exact hnone
        split at hok
        · cases hok
        · rename_i t he2
          simp only [Except.ok.injEq, Prod.mk.injEq] at hok
          obtain ⟨-, rfl⟩ := hok
          refine pictured_ctx (t := σ1.tree.setCtx σ.tree.newLeaf.1 { s.1 with children := cs }) ?_ (setChildren_ctx he2)
          unfold renderContent at he
          split at he
          · simp only [Except.ok.injEq, Prod.mk.injEq] at he
            obtain ⟨rfl, rfl⟩ := he
            have hne : (renderBgImage ((s.1.attrs "src").getD "") s.2).1 ≠ σ.tree.newLeaf.1 := by
              show s.2.tree.next ≠ σ.tree.next
              rw [htr]
              exact Nat.succ_ne_self _
            refine pictured_fresh ?_ hn1 (fun _ => ⟨_, picture s.2.tree.next ((s.1.attrs "src").getD ""), hne, rfl, ?_, rfl⟩)
            · refine pictured_fresh (pictured_ctx hst rfl) ?_ (fun hi => absurd hi (by simp))
              exact (hclean2 _ (Nat.le_refl _)).1
            · exact upd_same _ _ _
          · rename_i hi
            refine pictured_fresh ?_ hn1 (fun h => absurd h hi)
            split at he
            · simp only [Except.ok.injEq, Prod.mk.injEq] at he
              obtain ⟨-, rfl⟩ := he
              exact hst
            · exact (renderChildren_keeps ih h.children [] s.2 he ⟨hclean2, hst⟩).2

theorem renderView_pictured {env : RenderEnv} {fuel : Nat} {h : Html} {root body : NodeId} {σ : Render}
    (hok : renderView env fuel h = .ok (root, body, σ)) : σ.tree.Pictured root := by
  unfold renderView at hok
  simp only at hok
  split at hok
  · cases hok
  · rename_i b σ1 he
    split at hok
    · cases hok
    · rename_i t ht
      simp only [Except.ok.injEq, Prod.mk.injEq] at hok
      obtain ⟨rfl, -, rfl⟩ := hok
      have h1 := (renderNode_pictured Tree.empty.newLeaf.1 env fuel _ _ _ _ he (by
        refine ⟨fun m hm => ⟨?_, rfl, rfl⟩, pictured_fresh (fun n e _ he => by cases he) rfl (fun hi => absurd hi (by simp))⟩
        exact upd_other _ _ (Nat.ne_of_gt hm))).2
      refine pictured_ctx h1 ?_
      unfold Tree.addChild at ht
      split at ht
      · simp only [Except.ok.injEq] at ht; subst ht; rfl
      · cases ht

/-! ## Bindings -/

theorem pictured_attrs {root : NodeId} {t : Tree} (h : t.Pictured root) {n : NodeId} {e e' : Element} (he : t.ctx n = some e) (h1 : e'.tag = e.tag)
    (h2 : e'.children = e.children) (h3 : e.tag = "img" → e'.source = e.source) (h4 : ∀ c src, IsPicture c src e → IsPicture c src e') : (t.setCtx n e').Pictured root := by
  intro m x hm hx hi
  have key : ∃ x0, t.ctx m = some x0 ∧ x.tag = x0.tag ∧ x.children = x0.children ∧ (x0.tag = "img" → x.source = x0.source) := by
    by_cases hmn : m = n
    · subst hmn
      simp only [Tree.setCtx, upd_same, Option.some.injEq] at hx
      subst hx
      exact ⟨e, he, h1, h2, h3⟩
    · simp only [Tree.setCtx, upd_other _ _ hmn] at hx
      exact ⟨x, hx, rfl, rfl, fun _ => rfl⟩
  obtain ⟨x0, k1, k2, k3, k4⟩ := key
  obtain ⟨c, pe, g1, g2, g3⟩ := h m x0 hm k1 (k2 ▸ hi)
  have k4 := k4 (k2 ▸ hi)
  by_cases hcn : c = n
  · subst hcn
    rw [he] at g2; injection g2 with g2; subst g2
    exact ⟨c, e', k3.trans g1, upd_same _ _ _, k4 ▸ h4 _ _ g3⟩
  · exact ⟨c, pe, k3.trans g1, by simp only [Tree.setCtx, upd_other _ _ hcn]; exact g2, k4 ▸ g3⟩

theorem bindReact_pictured {inline} {s s' : Stage} {root body : NodeId} (hw : s.tree.Wf root body) {n : NodeId} {key : String} {i : Nat} {x : String}
    (hn : n ≠ root) (hu : bindReact inline s n key i x = .ok s') (h : s.tree.Pictured root) : s'.tree.Pictured root := by
  unfold bindReact Tree.elem at hu
  simp only [bind, Except.bind] at hu
  split at hu
  · cases hu
  · rename_i e he
    split at he
    · rename_i e1 he1
      injection he with he; subst he
      split at hu
      · cases hu
      · rename_i attr ha
        have hnp : ∀ c src, ¬ IsPicture c src e1 := fun c src hp => by rw [hp.bound] at ha; cases ha
        -- what is written to the element itself
        suffices ∀ E : Element, E.tag = e1.tag → E.children = e1.children → E.attrs = e1.attrs.set key (attr.set i x).toString →
            (match (if E.tag = "img" ∧ key = "src" then updateImgSrc (s.tree.setCtx n E) n (attr.set i x).toString else .ok (s.tree.setCtx n E)) with
              | .ok t => t.Pictured root | .error _ => True) by
          by_cases hk : key = "style"
          · simp only [if_pos hk] at hu
            have := this { e1 with attrsBindings := e1.attrsBindings.set key (attr.set i x), attrs := e1.attrs.set key (attr.set i x).toString, style := (inline (attr.set i x).toString).getD e1.style } rfl rfl rfl
            split at hu
            · rename_i hc
              rw [if_pos hc] at this
              split at hu
              · cases hu
              · rename_i t ht
                rw [ht] at this
                injection hu with hu; subst hu; exact this
            · rename_i hc
              rw [if_neg hc] at this
              injection hu with hu; subst hu; exact this
          · simp only [if_neg hk] at hu
            have := this { e1 with attrsBindings := e1.attrsBindings.set key (attr.set i x), attrs := e1.attrs.set key (attr.set i x).toString } rfl rfl rfl
            split at hu
            · rename_i hc
              rw [if_pos hc] at this
              split at hu
              · cases hu
              · rename_i t ht
                rw [ht] at this
                injection hu with hu; subst hu; exact this
            · rename_i hc
              rw [if_neg hc] at this
              injection hu with hu; subst hu; exact this
        intro E hE1 hE2 hE3
        by_cases hc : E.tag = "img" ∧ key = "src"
        · rw [if_pos hc]
          obtain ⟨hc1, rfl⟩ := hc
          have hi : e1.tag = "img" := hE1 ▸ hc1
          obtain ⟨c, pe, g1, g2, g3⟩ := h n e1 hn he1 hi
          have hk : s.tree.kids n = [c] := by rw [(hw.img n e1 he1 hi hn).2, g1]
          have hcn : c ≠ n := fun hcn => by
            subst hcn; rw [he1] at g2; injection g2 with g2; subst g2; exact hnp _ _ g3
          have hup : updateImgSrc (s.tree.setCtx n E) n (attr.set i x).toString = .ok ((s.tree.setCtx n E).modify c fun e => { e with
              backgrounds := updateAt e.backgrounds 0 {} fun b => { b with image := some (attr.set i x).toString, isSrc := true } }) := by
            unfold updateImgSrc Tree.childAt
            have hk' : (s.tree.setCtx n E).kids n = [c] := hk
            have hc' : (s.tree.setCtx n E).ctx c = some pe := by simp only [Tree.setCtx, upd_other _ _ hcn]; exact g2
            simp [hk', Tree.elem, hc', bind, Except.bind]
          rw [hup]
          intro m y hm hy hyi
          have hctx : ∀ q, ((s.tree.setCtx n E).modify c fun e => { e with
              backgrounds := updateAt e.backgrounds 0 {} fun b => { b with image := some (attr.set i x).toString, isSrc := true } }).ctx q =
              if q = c then some { pe with backgrounds := updateAt pe.backgrounds 0 {} fun b => { b with image := some (attr.set i x).toString, isSrc := true } }
              else if q = n then some E else s.tree.ctx q := by
            intro q
            unfold Tree.modify Tree.setCtx
            by_cases hqc : q = c
            · subst hqc; simp [upd_same, upd_other _ _ hcn, g2]
            · by_cases hqn : q = n
              · subst hqn; simp [upd_same, upd_other _ _ hqc, hqc]
              · simp [upd_other _ _ hqc, upd_other _ _ hqn, hqc, hqn]
          rw [hctx] at hy
          by_cases hmc : m = c
          · rw [if_pos hmc] at hy
            injection hy with hy; subst hy
            rw [show ({ pe with backgrounds := updateAt pe.backgrounds 0 {} fun b => { b with image := some (attr.set i x).toString, isSrc := true } } : Element).tag = pe.tag from rfl, g3.tag] at hyi
            exact absurd hyi (by decide)
          · rw [if_neg hmc] at hy
            by_cases hmn : m = n
            · rw [if_pos hmn] at hy
              injection hy with hy; subst hy
              refine ⟨c, _, hE2.trans g1, by rw [hctx, if_pos rfl], ?_⟩
              have hsrc : E.source = (attr.set i x).toString := by
                unfold Element.source; rw [hE3]; simp [SMap.set]
              rw [hsrc]
              unfold IsPicture SameStyled at g3 ⊢
              rw [g3]
              rfl
            · rw [if_neg hmn] at hy
              obtain ⟨c2, pe2, k1, k2, k3⟩ := h m y hm hy hyi
              have hc2n : c2 ≠ n := fun hc2 => by
                subst hc2; rw [he1] at k2; injection k2 with k2; subst k2; exact hnp _ _ k3
              have hc2c : c2 ≠ c := fun hc2 => by
                subst hc2
                refine hmn (hw.slotsUnique m n c2 ?_ ?_)
                · unfold Tree.slots; rw [if_neg hm, hy]; simp [k1]
                · unfold Tree.slots; rw [if_neg hn, he1]; simp [g1]
              exact ⟨c2, pe2, k1, by rw [hctx, if_neg hc2c, if_neg hc2n]; exact k2, k3⟩
        · rw [if_neg hc]
          refine pictured_attrs h he1 hE1 hE2 ?_ (fun c src hp => absurd hp (hnp c src))
          intro hi
          have hks : "src" ≠ key := fun hk => hc ⟨hE1.trans hi, hk.symm⟩
          unfold Element.source
          rw [hE3]
          simp [SMap.set, hks]
    · cases he

theorem updateTree_pictured {inline} {s s' : Stage} {root body : NodeId} (hw : s.tree.Wf root body) {r : Reaction} (hr : ReactionOk s.tree root body r)
    (hu : updateTree inline s r = .ok s') (hq : ∀ n b, r ≠ .tag n "src" b) (h : s.tree.Pictured root) : s'.tree.Pictured root := by
  cases r with
  | type m i x =>
    obtain ⟨em, hem, ht⟩ := hr
    obtain ⟨tx, htx⟩ := Option.isSome_iff_exists.1 ht
    simp only [updateTree, hem, htx, Except.ok.injEq] at hu
    subst hu
    exact pictured_attrs h hem rfl rfl (fun _ => rfl) (fun c src hp => by have := hp.text; rw [htx] at this; cases this)
  | reattach p m v =>
    obtain ⟨K, par', h1, -⟩ := reattach_effect hw hr
    simp only [updateTree, h1, bind, Except.bind, Except.ok.injEq] at hu
    subst hu
    exact pictured_ctx h rfl
  | «repeat» p i k j =>
    obtain ⟨par', h1, -⟩ := repeat_effect hw hr
    simp only [updateTree, h1, bind, Except.bind, Except.ok.injEq] at hu
    subst hu
    exact pictured_ctx h rfl
  | tag m k b =>
    obtain ⟨em, hem⟩ := Option.isSome_iff_exists.1 hr
    simp only [updateTree, Tree.elem, hem, bind, Except.bind, Except.ok.injEq] at hu
    subst hu
    have hk : "src" ≠ k := fun hk => hq m b (by rw [hk])
    refine pictured_attrs h hem rfl rfl (fun _ => ?_) (fun c src hp => ?_)
    · unfold Element.source
      cases b <;> simp [SMap.set, SMap.del, hk]
    · unfold IsPicture SameStyled at hp ⊢
      rw [hp]
  | bind m k i x => exact bindReact_pictured hw hr.1 hu h

theorem updateTrees_pictured {inline} {root body : NodeId} (rs : List Reaction) {s s' : Stage} (hw : s.tree.Wf root body) (hrs : ∀ r ∈ rs, ReactionOk s.tree root body r)
    (hu : updateTrees inline s rs = .ok s') (hq : ∀ r ∈ rs, ∀ n b, r ≠ .tag n "src" b) (h : s.tree.Pictured root) : s'.tree.Pictured root := by
  induction rs generalizing s with
  | nil => simp only [updateTrees, Except.ok.injEq] at hu; subst hu; exact h
  | cons r rs ih =>
    simp only [updateTrees, bind, Except.bind] at hu
    split at hu
    · cases hu
    · rename_i s1 h1
      obtain ⟨s1', a1, a2, a3⟩ := C16_tree_stays_tree (inline := inline) s [r] hw (by simpa using hrs r (by simp))
      simp only [updateTrees, bind, Except.bind, h1, Except.ok.injEq] at a1
      subst a1
      exact ih a2 (fun x hx => a3 x (hrs x (by simp [hx]))) hu (fun x hx => hq x (by simp [hx])) (updateTree_pictured hw (hrs r (by simp)) h1 (hq r (by simp)) h)

/-- No binding of a tag `src`. -/
def View.Untagged (v : View) : Prop := ∀ path b, b ∈ v.vm.bindings path → ∀ n, b.params ≠ .tag n "src"

theorem react_untagged {b : Binding} (hb : ∀ n, b.params ≠ .tag n "src") (x : Json) (n : NodeId) (y : Bool) : b.react x ≠ .tag n "src" y :=
  fun h => hb n (react_tag h).1

/-- Updating the bindings of a view that is alive. -/
theorem Living.pictured {fuel : Nat} {document : Html} {a : App} (h : Living p fuel document a) {value : Json} {v : View}
    (hu : a.screen.view.update p.inline value = .ok v) (ht : a.screen.view.Untagged) (hp : a.screen.view.stage.tree.Pictured a.screen.view.root) :
    v.stage.tree.Pictured v.root ∧ v.Untagged := by
  obtain ⟨v0, hr, h⟩ := (session_ok h.session).twin
  obtain ⟨regs, hg⟩ := reached_good hr
  unfold View.update at hu
  cases hb : a.screen.view.vm.bind value with
  | none => rw [hb] at hu; simp at hu
  | some q =>
    obtain ⟨vm, rs⟩ := q
    rw [hb] at hu
    simp only at hu
    have hbb := (bind_bindings hb).1
    rw [h.vm] at hb
    obtain ⟨stage, a1, a2, a3, a4⟩ := viewGood_update (inline := p.inline) hg value hb
    obtain ⟨stage1, b1, b2, b3⟩ := updateTrees_form rs h.tree h.identified a1
    rw [b1] at hu
    simp only [Except.ok.injEq] at hu
    subst hu
    refine ⟨h.root ▸ updateTrees_pictured rs (h.tree.wf hg.wf) (fun r hr => h.tree.reactionOk (a4 r hr)) b1 ?_ (h.root ▸ hp), fun path b hb => ht path b (hbb ▸ hb)⟩
    intro r hr n y
    obtain ⟨rg, c1, x, rfl⟩ := bind_reactions hb hg.bindings hr
    refine react_untagged (fun n => ?_) x n y
    refine ht rg.1 rg.2 ?_ n
    rw [h.vm, hg.bindings]
    exact mem_lookupRegs.2 c1

/-! ## Styling -/

theorem forEach_mem {σ : Type} {P : σ → Prop} {f : σ → NodeId → Except Trouble σ} (cs : List NodeId) (hf : ∀ s, ∀ c ∈ cs, P s → ∀ s', f s c = .ok s' → P s')
    {s s' : σ} (hp : P s) (h : forEach f cs s = .ok s') : P s' := by
  induction cs generalizing s with
  | nil => simp only [forEach, Except.ok.injEq] at h; subst h; exact hp
  | cons c cs ih =>
    simp only [forEach] at h
    split at h
    · cases h
    · rename_i s1 h1
      exact ih (fun s c hc => hf s c (List.mem_cons_of_mem _ hc)) (hf s c List.mem_cons_self hp s1 h1) h

/-- The same elements and layout styles but where styling goes. -/
def Besides (t : Tree) (body : NodeId) (s0 s : Styled) : Prop :=
  Restyled t s.tree ∧ ∀ m, ¬ Styles t body m → s.tree.ctx m = s0.tree.ctx m ∧ s.layouts m = s0.layouts m

theorem Besides.put {t : Tree} {body : NodeId} {s0 s : Styled} (h : Besides t body s0 s) {n : NodeId} (hn : Styles t body n) {e e' : Element} (he : s.tree.ctx n = some e)
    (hf : e.SameForm e') (hs : e'.state = e.state) (l : LayoutStyle) : Besides t body s0 (s.put n l e') := by
  refine ⟨h.1.trans (s.put_restyled he hf hs l), fun m hm => ?_⟩
  have hmn : m ≠ n := fun hmn => hm (hmn ▸ hn)
  obtain ⟨h1, h2⟩ := h.2 m hm
  simp only [Styled.put, Tree.setCtx, upd_other _ _ hmn]
  exact ⟨h1, h2⟩

theorem styleTree_besides {env : FrameEnv} {t : Tree} {body : NodeId} {s0 : Styled} (depth : Nat) :
    ∀ {n : NodeId} {sizes : Sizes} {vars : Variables} {s s' : Styled}, Styles t body n → styleTree env depth n sizes vars s = .ok s' → Besides t body s0 s →
      Besides t body s0 s' := by
  induction depth with
  | zero => intro n sizes vars s s' _ h; cases h
  | succ depth ih =>
    intro n sizes vars s s' hn h hb
    rw [styleTree] at h
    split at h
    case h_2 => cases h
    case h_1 parent e hp he =>
      by_cases ht : e.text.isSome
      · rw [if_pos ht] at h
        injection h with h
        subst h
        obtain ⟨f1, f2, f3⟩ := inherit_form parent e
        exact hb.put hn he f1 f2 (s.layouts n)
      · rw [if_neg ht] at h
        have ht' : e.text = none := by cases hx : e.text with | none => rfl | some _ => rw [hx] at ht; simp at ht
        split at h
        · cases h
        case h_2 l e' vars' hse =>
          obtain ⟨f1, f2, f3⟩ := styleElement_form hse
          have hb1 := hb.put hn he f1 f2 l
          by_cases hleaf : e'.tag ∈ leafTags
          · rw [if_pos hleaf] at h
            injection h with h
            subst h
            exact hb1
          · rw [if_neg hleaf] at h
            refine forEach_mem (P := Besides t body s0) _ ?_ hb1 h
            intro s1 c hc h1 s2 h2
            refine ih ?_ h2 h1
            rw [hb.1.kids] at hc
            obtain ⟨e0, he0, hR⟩ := (hb.1.ctxRel).back he
            exact .child hn he0 (hR.1.text ▸ ht') (by rw [← hR.1.tag, ← f1.tag]; exact hleaf) hc

/-- Pictures are not styled. -/
theorem picture_unstyled {t : Tree} {root body : NodeId} (hw : t.Wf root body) {n c : NodeId} {e : Element} (hn : n ≠ root) (he : t.ctx n = some e) (hi : e.tag = "img")
    (hc : c ∈ e.children) : ¬ Styles t body c := by
  have hs : c ∈ t.slots root body n := by unfold Tree.slots; rw [if_neg hn, he]; exact hc
  intro h
  cases h with
  | body => exact hn (hw.slotsUnique n root _ hs (by unfold Tree.slots; rw [if_pos rfl]; simp))
  | child h1 h2 h3 h4 h5 =>
    have := hw.slotsUnique _ _ _ (hw.sub _ _ h5) hs
    subst this
    rw [he] at h2; injection h2 with h2; subst h2
    exact h4 (by rw [hi]; decide)

/-! ## A program -/

/-- What is kept true of the images of a program. -/
structure Illustrated (p : Platform) (fuel : Nat) (document : Html) (a : App) : Prop where
  living : Living p fuel document a
  rootIs : a.screen.view.root = 0
  untagged : a.screen.view.Untagged
  pictured : a.screen.view.stage.tree.Pictured a.screen.view.root
  layouts : ∀ n e c, n ≠ a.screen.view.root → a.screen.view.stage.tree.ctx n = some e → e.tag = "img" → c ∈ e.children → a.layouts c = fillingLayout

theorem Illustrated.opened {fuel : Nat} {document : Html} {css : Css} {a : App} (hn : NoTag p "src" document) (h : openApp p fuel document css = .ok a) :
    Illustrated p fuel document a := by
  obtain ⟨σ, ho⟩ := openApp_opened h
  have hv := renderView_ok ho.rendered
  have ht := renderView_untagged hn ho.rendered
  have hreb := updateTrees_rebound (inline := p.inline) _ (s := ⟨σ.tree, σ.staticId⟩) hv.wf (defaultReactions_ok ho.rendered) ho.stage
  refine ⟨Living.opened h, hv.rootIs, ?_, ?_, ?_⟩
  · have hview := ho.view
    unfold openView at hview
    rw [collect_doc] at hview
    have hren : renderView ⟨templateFor document.children, p.translate, p.inline⟩ fuel (docBody document) = .ok (a.screen.view.root, a.screen.view.body, σ) := ho.rendered
    simp only [hren] at hview
    split at hview
    · cases hview
    · rename_i vm hvm
      split at hview
      · cases hview
      · injection hview with hview
        unfold View.Untagged
        rw [← hview]
        intro path b hb n
        refine ht (path, b) (mem_lookupRegs.1 ?_) n
        unfold ViewModel.create at hvm
        rw [Option.map_eq_some_iff] at hvm
        obtain ⟨d, -, rfl⟩ := hvm
        exact hb
  · refine updateTrees_pictured (inline := p.inline) _ (s := ⟨σ.tree, σ.staticId⟩) hv.wf (defaultReactions_ok ho.rendered) ho.stage ?_ (renderView_pictured ho.rendered)
    intro r hr n b
    unfold defaultReactions at hr
    rw [List.mem_filterMap] at hr
    obtain ⟨x, -, hx⟩ := hr
    split at hx
    · injection hx with hx; subst hx; exact fun h => by cases h
    · cases hx
  · intro n e c hne he hi hc
    obtain ⟨e0, h0, hR⟩ := hreb.back he
    have e1 : e.tag = e0.tag := by rw [hR]
    have e2 : e.children = e0.children := by rw [hR]
    have hk := hv.wf.img n e0 h0 (e1 ▸ hi) hne
    have hp := (hv.wf.link n c).1 (by rw [hk.2, ← e2]; exact hc)
    rw [ho.layouts]
    unfold freshLayouts
    have h0' : σ.tree.ctx n = some e0 := h0
    simp [hp, h0', e1 ▸ hi, fillingLayout]

theorem Illustrated.updated {fuel fuel' : Nat} {document : Html} {a a' : App} (h : Illustrated p fuel document a) {order : FrameOrder} {input : Input} {value : Json} {out : Output}
    (hu : a.update p fuel' order input value = .ok (a', out)) : Illustrated p fuel document a' := by
  have hl := h.living.updated hu
  obtain ⟨v, styled, tree, t', ui, g1, g2, g3, g4, g5⟩ := update_parts hu
  obtain ⟨p1, p2⟩ := h.living.pictured g1 h.untagged h.pictured
  have hroot := update_root g1
  have wf := (h.living.bound g1).1
  have hst : Restyled v.stage.tree styled.tree := styleView_restyled (s := ⟨v.stage.tree, _⟩) wf g2
  have hpl : Restyled styled.tree tree := placeTree_restyled _ g3
  have hso := handleOutput_states (session_ok h.living.session) g1 (hst.trans hpl) g4
  have hsty := SameStyled.related_trans (placeTree_styled _ g3) (stateOnly_styled hso)
  have hbes := styleTree_besides (t := v.stage.tree) (body := v.body) (s0 := ⟨v.stage.tree, upd a.layouts v.root (resizeRoot input.viewport (a.layouts v.root))⟩) _ .body g2
    ⟨Tree.Related.refl (fun e => ⟨⟨rfl, rfl, rfl, rfl, rfl, rfl, rfl, rfl, rfl⟩, rfl⟩) _, fun m _ => ⟨rfl, rfl⟩⟩
  have key : ∀ n x, t'.ctx n = some x → ∃ e, v.stage.tree.ctx n = some e ∧ x.tag = e.tag ∧ x.children = e.children ∧ x.source = e.source := by
    intro n x hx
    obtain ⟨e2, k1, k2⟩ := hsty.ctxRel.back hx
    obtain ⟨e1, k3, k4⟩ := hst.ctxRel.back k1
    refine ⟨e1, k3, ?_, ?_, ?_⟩
    · rw [k2]; exact k4.1.tag
    · rw [k2]; exact k4.1.children
    · unfold Element.source; rw [k2]; show (e2.attrs "src").getD "" = _; rw [k4.1.attrs]
  have hr0 : v.root = 0 := hroot.1.trans h.rootIs
  subst g5
  refine ⟨hl, hr0, p2, ?_, ?_⟩
  · intro n x hn hx hi
    obtain ⟨e, k1, k2, k3, k4⟩ := key n x hx
    obtain ⟨c, pe, q1, q2, q3⟩ := p1 n e hn k1 (k2 ▸ hi)
    have hun := picture_unstyled wf hn k1 (k2 ▸ hi) (c := c) (by rw [q1]; simp)
    have hc1 := (hbes.2 c hun).1
    have hc1 : styled.tree.ctx c = some pe := hc1.trans q2
    obtain ⟨pe', k5, k6⟩ := hsty.there c pe hc1
    refine ⟨c, pe', k3.trans q1, k5, ?_⟩
    rw [k4]
    unfold IsPicture SameStyled at q3 ⊢
    unfold SameStyled at k6
    rw [k6, q3]
  · intro n x c hn hx hi hc
    obtain ⟨e, k1, k2, k3, k4⟩ := key n x hx
    have hc' : c ∈ e.children := k3 ▸ hc
    have hun := picture_unstyled wf hn k1 (k2 ▸ hi) hc'
    have hl2 : styled.layouts c = upd a.layouts v.root (resizeRoot input.viewport (a.layouts v.root)) c := (hbes.2 c hun).2
    have hy := (wf.slotsYounger n c (by unfold Tree.slots; rw [if_neg hn, k1]; exact hc')).1
    have hcr : c ≠ v.root := fun hcr => by rw [hcr, hr0] at hy; exact absurd hy (Nat.not_lt_zero _)
    show styled.layouts c = _
    rw [hl2, upd_other _ _ hcr]
    obtain ⟨e0, r1, r2⟩ := (h.living.rebound g1).back k1
    refine h.layouts n e0 c (hroot.1 ▸ hn) r1 ?_ ?_
    · rw [← show e.tag = e0.tag by rw [r2]]; exact k2 ▸ hi
    · rw [← show e.children = e0.children by rw [r2]]; exact hc'

theorem illustrated_run {fuel fuel' : Nat} {document : Html} (fs : List Frame) {a a' : App} {outs : List Output} (h : Illustrated p fuel document a)
    (hr : a.run p fuel' fs = .ok (a', outs)) : Illustrated p fuel document a' := by
  induction fs generalizing a outs with
  | nil => simp only [App.run, Except.ok.injEq, Prod.mk.injEq] at hr; obtain ⟨rfl, -⟩ := hr; exact h
  | cons f fs ih =>
    obtain ⟨a1, out, rest, h1, h2, -⟩ := run_cons hr
    exact ih (h.updated h1) h2

end Verif
