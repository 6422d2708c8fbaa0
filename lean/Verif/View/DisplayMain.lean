import Verif.View.DisplayInit
import Verif.View.Draw
/-!
# The displayed tree is what the template shows for the last value (lemmas for C65)
-/
namespace Verif
open Json

variable {inline : String → Option (List Declaration)}

theorem allOf_iff {α : Type} {l : List (Option α)} {r : List α} : allOf l = some r ↔ l = r.map some := by
  induction l generalizing r with
  | nil => cases r <;> simp [allOf]
  | cons a l ih =>
    simp only [allOf, Option.bind_eq_some_iff, Option.map_eq_some_iff]
    constructor
    · rintro ⟨x, rfl, r', h, rfl⟩
      rw [ih.1 h]; rfl
    · intro h
      cases r with
      | nil => simp at h
      | cons x r =>
        simp only [List.map_cons, List.cons.injEq] at h
        exact ⟨x, h.1, r, ih.2 h.2, rfl⟩

theorem allOf_get {α β : Type} {f : α → Option β} {l : List α} {r : List β} (h : allOf (l.map f) = some r) :
    r.length = l.length ∧ ∀ (i : Nat) x, l[i]? = some x → ∃ y, r[i]? = some y ∧ f x = some y := by
  rw [allOf_iff] at h
  refine ⟨by simpa using (congrArg List.length h).symm, fun i x hx => ?_⟩
  have := congrArg (fun l => l[i]?) h
  simp only [List.getElem?_map, hx, Option.map_some] at this
  cases hr : r[i]? with
  | none => rw [hr] at this; simp at this
  | some y => rw [hr] at this; exact ⟨y, rfl, by simpa using this⟩

/-- A view, the values it was updated with and what is to be shown. -/
structure Ready (inline : String → Option (List Declaration)) (S : Scene) (s : Shape) (σ : Render) (fuel : Nat) (h : Html)
    (vs : List Json) (v v' : View) : Prop where
  setup : Setup S.env s σ S.tr fuel h v
  fits : ∀ u ∈ vs ++ [S.value], Fits s u
  reached : v.updates inline (vs ++ [S.value]) = .ok v'
  steady : SteadyArrays s vs S.value
  nulls : S.nulls = true → ∀ p sh, s.read S.value p = some (sh, .null) → Settled s p False (S.value :: vs.reverse)

variable {S : Scene} {s : Shape} {σ : Render} {fuel : Nat} {top : Html} {vs : List Json} {v v' : View}

theorem Ready.reverse (vs : List Json) (w : Json) : (vs ++ [w]).reverse = w :: vs.reverse := by simp

/-- A place bound to an expression shows its value. -/
theorem Ready.cell {β} (R : Ready inline S s σ fuel top vs v v') {C : Cell β} {ok} (hC : C.Sound ok v.root v.body σ.regs)
    {ρ η} (hρ : ScopeRel s S.value ρ η) {b : Binder} {params : BindingParams} {val : Json → β}
    (hb : C.Belongs σ.regs (b.denotes ρ, ⟨params, b.pipe⟩) val) (hok : ok v.stage.tree)
    (hm : Mentioned σ.schema (b.denotes ρ)) {x : Json} (hx : S.scalar η b = some x) :
    C.get v'.stage.tree = val (applyPipe S.tr b.pipe x) := by
  obtain ⟨p, h1, h2, h3⟩ := scalar_settled R.setup.shape (R.fits _ (by simp)) hρ hm R.nulls hx
  exact cell_scalar hC R.setup.follows R.fits R.reached hb hok h1 (by rw [Ready.reverse]; exact h2)
    (by rw [Ready.reverse]; exact h3)

theorem mem_binding {regs : List (String × Binding)} {r : String × Binding} (_ : r ∈ regs) {params} (h : r.2.params = params) :
    r.2.node = (Binding.mk params []).node := by
  unfold Binding.node; rw [h]

theorem Ready.spanMention {ρ : SMap String} {spans : List TextSpan} {i : Nat} {b : Binder} (h : spans[i]? = some (.binder b)) :
    b.denotes ρ ∈ mentionedPaths (spanMentions ρ spans) := by
  unfold mentionedPaths spanMentions
  rw [List.mem_filterMap]
  refine ⟨.define (b.denotes ρ), ?_, rfl⟩
  rw [List.mem_flatMap]
  exact ⟨_, List.mem_of_getElem? h, by simp⟩

/-- The text of a node. -/
theorem Ready.text (R : Ready inline S s σ fuel top vs v v') {depth ρ η h n} (hm : Mirrors S.env v.stage.tree.ctx σ.regs (depth + 1) ρ h n)
    (hρ : ScopeRel s S.value ρ η) {spans} (ht : h.text = some spans)
    (hmen : ∀ p ∈ mentionedPaths (mentions S.env (depth + 1) ρ h), Mentioned σ.schema p)
    {t : String} (hx : S.spans η S.env.translate spans = some t) :
    ∃ e tx, v'.stage.tree.ctx n = some e ∧ e.node = n ∧ e.children = [] ∧ e.text = some tx ∧ tx.toString = t := by
  obtain ⟨e, he, hnode, hrest⟩ := hm
  rw [ht] at hrest
  obtain ⟨htx, -, hch, hreg, hex⟩ := hrest
  obtain ⟨hdefs, hnodes⟩ := defs_updates R.setup.follows R.fits R.reached
  obtain ⟨e', he', hch', -, hlen, -⟩ := hdefs.ctx he
  obtain ⟨e2, h2, hn2⟩ := hnodes n e he
  rw [he'] at h2; injection h2 with h2; subst h2
  rw [htx] at hlen
  cases htx' : e'.text with
  | none => rw [htx'] at hlen; simp at hlen
  | some tx =>
  rw [htx'] at hlen
  simp only [Option.map_some, Option.some.injEq, List.length_map] at hlen
  refine ⟨e', tx, he', hn2.trans hnode, hch'.trans hch, htx', ?_⟩
  unfold Scene.spans at hx
  obtain ⟨l, hl, rfl⟩ := Option.map_eq_some_iff.1 hx
  obtain ⟨l1, l2⟩ := allOf_get hl
  unfold TextContent.toString
  congr 1
  apply List.ext_getElem?
  intro i
  by_cases hi : i < spans.length
  · have hsp : spans[i]? = some spans[i] := List.getElem?_eq_getElem hi
    obtain ⟨y, hy, hf⟩ := l2 i _ hsp
    rw [hy]
    have hspan : HasSpan n i v.stage.tree := ⟨e, _, he, htx, by simpa using hi⟩
    have hget : (textCell n i).get v'.stage.tree = tx.spans[i]? := by
      simp only [textCell, he', htx', Option.bind_some]
    have hget0 : (textCell n i).get v.stage.tree = some (spanSource S.env.translate spans[i]) := by
      simp only [textCell, he, htx, Option.bind_some, List.getElem?_map, hsp, Option.map_some]
    rw [← hget]
    have honly : ∀ r ∈ σ.regs, ∀ x y, (textCell n i).write (r.2.react x) = some y → ∃ b, spans[i]? = some (.binder b) ∧
        r = (b.denotes ρ, ⟨.text n i, b.pipe⟩) := by
      intro r hr x y hw
      have : ∃ z, r.2.react x = .type n i z := by
        simp only [textCell] at hw
        split at hw
        · rename_i m j z hz
          split at hw
          · rename_i hh; obtain ⟨rfl, rfl⟩ := hh; exact ⟨z, hz⟩
          · simp at hw
        · simp at hw
      obtain ⟨z, hz⟩ := this
      have hp := (react_text hz).1
      obtain ⟨j, b, hb, rfl⟩ := hex r hr (by unfold Binding.node; rw [hp])
      simp only [BindingParams.text.injEq] at hp
      obtain ⟨-, rfl⟩ := hp
      exact ⟨b, hb, rfl⟩
    cases hb : spans[i] with
    | string a =>
      rw [hb] at hf hget0 hsp
      obtain ⟨-, c2⟩ := cell_static (textCell_sound n i v.root v.body σ.regs) R.setup.follows R.fits R.reached
        (by
          intro r hr x
          cases hw : (textCell n i).write (r.2.react x) with
          | none => rfl
          | some y =>
            obtain ⟨b, hb', -⟩ := honly r hr x y hw
            rw [hsp] at hb'; simp at hb') hspan
      rw [c2, hget0]
      exact hf
    | binder b =>
      rw [hb] at hf hget0 hsp
      simp only [Scene.span, Option.map_eq_some_iff] at hf
      obtain ⟨x, hx1, rfl⟩ := hf
      refine R.cell (textCell_sound n i v.root v.body σ.regs) hρ (params := .text n i) (b := b)
        (val := fun x => some x.evalString) ⟨hreg i b hsp, ?_, ?_⟩ hspan (hmen _ ?_) hx1
      · intro r hr x y hw
        obtain ⟨b', hb', e⟩ := honly r hr x y hw
        rw [hsp] at hb'; injection hb' with hb'; injection hb' with hb'; subst hb'
        exact e
      · intro x
        simp [Binding.react, textCell]
      · simp only [mentions, ht]; exact Ready.spanMention hsp
  · rw [List.getElem?_eq_none (by omega), List.getElem?_eq_none (by omega)]

/-! ### attributes -/

/-- The attribute a binding is about. -/
def ElementBinding.attrName : ElementBinding → Option String
  | .none key _ => some key
  | .attribute key _ => some key
  | .tag key _ => some key
  | _ => Option.none

theorem attributeNames_eq (bs : List ElementBinding) : attributeNames bs = bs.filterMap ElementBinding.attrName := by
  unfold attributeNames
  congr 1

theorem attrName_split {bs : List ElementBinding} (hnd : (attributeNames bs).Nodup) {b : ElementBinding} (hb : b ∈ bs)
    {key : String} (hk : b.attrName = some key) :
    ∃ pre post, bs = pre ++ b :: post ∧ ∀ c, c ∈ pre ∨ c ∈ post → c.attrName ≠ some key := by
  obtain ⟨pre, post, rfl⟩ := List.append_of_mem hb
  refine ⟨pre, post, rfl, ?_⟩
  rw [attributeNames_eq, List.filterMap_append, List.filterMap_cons, hk, List.nodup_append, List.nodup_cons] at hnd
  obtain ⟨-, ⟨h1, -⟩, h2⟩ := hnd
  rintro c (hc | hc) he
  · exact h2 key (List.mem_filterMap.2 ⟨c, hc, he⟩) key (by simp) rfl
  · exact h1 (List.mem_filterMap.2 ⟨c, hc, he⟩)

theorem attrValue_other {key : String} {c : ElementBinding} (h : c.attrName ≠ some key) : attrValue key c = none := by
  cases c <;> simp_all [ElementBinding.attrName, attrValue]

theorem attrSpans_other {key : String} {c : ElementBinding} (h : c.attrName ≠ some key) : attrSpans key c = none := by
  cases c with
  | «attribute» k spans =>
    simp only [ElementBinding.attrName, ne_eq, Option.some.injEq] at h
    unfold attrSpans
    split
    · rfl
    · rename_i heq; injection heq with h1 h2; subst h1; rw [if_neg h]
    · rfl
  | _ => rfl

theorem last_split {α β} {f : α → Option β} {pre post : List α} {b : α} (h : ∀ c, c ∈ pre ∨ c ∈ post → f c = none) :
    ((pre ++ b :: post).filterMap f).getLast? = f b := by
  have h1 : pre.filterMap f = [] := List.filterMap_eq_nil_iff.2 (fun c hc => h c (.inl hc))
  have h2 : post.filterMap f = [] := List.filterMap_eq_nil_iff.2 (fun c hc => h c (.inr hc))
  rw [List.filterMap_append, List.filterMap_cons, h1, h2]
  cases f b <;> simp

theorem attr_named {S : Scene} {η : SMap Json} {c : ElementBinding} {y} (h : S.attr η c = some y) :
    ∀ a ∈ y, c.attrName = some a.1 := by
  cases c with
  | none key value => simp only [Scene.attr, Option.some.injEq] at h; subst h; simp [ElementBinding.attrName]
  | «attribute» key spans =>
    simp only [Scene.attr, Option.map_eq_some_iff] at h
    obtain ⟨t, -, rfl⟩ := h; simp [ElementBinding.attrName]
  | tag key b =>
    simp only [Scene.attr, Option.map_eq_some_iff] at h
    obtain ⟨t, -, rfl⟩ := h; simp [ElementBinding.attrName]
  | _ => simp only [Scene.attr, Option.some.injEq] at h; subst h; simp

theorem find_none {key : String} {cs : List ElementBinding} {S : Scene} {η : SMap Json} {ys : List (List (String × Option String))}
    (h : cs.map (S.attr η) = ys.map some) (hno : ∀ c ∈ cs, c.attrName ≠ some key) :
    ys.flatten.find? (fun a => a.1 = key) = none := by
  rw [List.find?_eq_none]
  intro a ha
  obtain ⟨y, hy, ha⟩ := List.mem_flatten.1 ha
  have : some y ∈ cs.map (S.attr η) := by rw [h]; exact List.mem_map.2 ⟨y, hy, rfl⟩
  obtain ⟨c, hc, e⟩ := List.mem_map.1 this
  have := attr_named e a ha
  have hne := hno c hc
  intro hk
  simp only [decide_eq_true_eq] at hk
  exact hne (by rw [this, hk])

/-- What the specification says of an attribute. -/
theorem attributeOf_none {key : String} {bs : List ElementBinding} {S : Scene} {η : SMap Json} {ys}
    (h : allOf (bs.map (S.attr η)) = some ys) (hno : ∀ c ∈ bs, c.attrName ≠ some key) : attributeOf ys.flatten key = none := by
  unfold attributeOf
  rw [find_none (allOf_iff.1 h) hno]; rfl

theorem attributeOf_split {key : String} {pre post : List ElementBinding} {b : ElementBinding} {S : Scene} {η : SMap Json} {ys}
    (h : allOf ((pre ++ b :: post).map (S.attr η)) = some ys) (hno : ∀ c, c ∈ pre ∨ c ∈ post → c.attrName ≠ some key)
    (hb : b.attrName = some key) : ∃ val, S.attr η b = some [(key, val)] ∧ attributeOf ys.flatten key = val := by
  have h' := allOf_iff.1 h
  rw [List.map_append, List.map_cons] at h'
  obtain ⟨y1, y2', rfl, e1, e2⟩ := List.append_eq_map_iff.1 h'
  obtain ⟨y, y2, rfl, e3, e4⟩ := List.map_eq_cons_iff.1 e2
  have hy : ∃ val, y = [(key, val)] := by
    cases b with
    | none k value =>
      simp only [ElementBinding.attrName, Option.some.injEq] at hb; subst hb
      simp only [Scene.attr, Option.some.injEq] at e3; exact ⟨_, e3⟩
    | «attribute» k spans =>
      simp only [ElementBinding.attrName, Option.some.injEq] at hb; subst hb
      have e3 := e3.symm
      simp only [Scene.attr, Option.map_eq_some_iff] at e3
      obtain ⟨t, -, rfl⟩ := e3; exact ⟨_, rfl⟩
    | tag k b =>
      simp only [ElementBinding.attrName, Option.some.injEq] at hb; subst hb
      have e3 := e3.symm
      simp only [Scene.attr, Option.map_eq_some_iff] at e3
      obtain ⟨t, -, rfl⟩ := e3; exact ⟨_, rfl⟩
    | _ => simp [ElementBinding.attrName] at hb
  obtain ⟨val, rfl⟩ := hy
  refine ⟨val, e3.symm, ?_⟩
  unfold attributeOf
  rw [List.flatten_append, List.flatten_cons, List.find?_append, find_none e1.symm (fun c hc => hno c (.inl hc))]
  simp

/-- The bindings of conditions and repeats. -/
def Binding.Structural (n : NodeId) (b : Binding) : Prop :=
  (∃ c want, b.params = .visibility n c want) ∨ ∃ i k, b.params = .repeat n i k

theorem own_structural {env below ρ n start cs nodes own} (h : MirrorsChildren env below ρ n start cs nodes own) :
    ∀ r ∈ own, r.2.Structural n := by
  induction cs generalizing start nodes own with
  | nil => obtain ⟨-, rfl⟩ := h; simp
  | cons c cs ih =>
    obtain ⟨group, rest, o, o', rfl, rfl, ⟨c', -, hc⟩, hrest⟩ := h
    intro r hr
    rcases List.mem_append.1 hr with hr | hr
    · split at hc
      · obtain ⟨m, -, -, rfl⟩ := hc
        rw [List.mem_singleton] at hr; subst hr
        exact .inl ⟨_, _, rfl⟩
      · obtain ⟨-, rfl, -⟩ := hc
        rw [List.mem_singleton] at hr; subst hr
        exact .inr ⟨_, _, rfl⟩
      · obtain ⟨m, -, -, rfl⟩ := hc
        simp at hr
    · exact ih hrest r hr

theorem Ready.ownMention {env : RenderEnv} {depth : Nat} {ρ : SMap String} {h : Html} (ht : h.text = none) {b : ElementBinding}
    (hb : b ∈ h.bindings) {p : String} (hp : p ∈ mentionedPaths (ownMentions ρ b)) :
    p ∈ mentionedPaths (mentions env (depth + 1) ρ h) := by
  unfold mentionedPaths at hp ⊢
  obtain ⟨m, hm, hp⟩ := List.mem_filterMap.1 hp
  refine List.mem_filterMap.2 ⟨m, ?_, hp⟩
  simp only [mentions, ht]
  exact List.mem_append_left _ (List.mem_flatMap.2 ⟨b, hb, hm⟩)

theorem single_string (spans : List TextSpan) : (∃ t, spans = [.string t]) ∨
    (∀ key, attrSpans key (.attribute key spans) = some ⟨spans.map (spanSource id)⟩) ∧
    (∀ ρ key, ownMentions ρ (.attribute key spans) = spanMentions ρ spans) := by
  match spans with
  | [.string t] => exact .inl ⟨t, rfl⟩
  | [] => exact .inr ⟨fun k => by simp [attrSpans], fun _ _ => rfl⟩
  | [.binder b] => exact .inr ⟨fun k => by simp [attrSpans], fun _ _ => rfl⟩
  | .string a :: b :: l => exact .inr ⟨fun k => by simp [attrSpans], fun _ _ => rfl⟩
  | .binder a :: b :: l => exact .inr ⟨fun k => by simp [attrSpans], fun _ _ => rfl⟩

/-- What the element itself registers. -/
structure OwnRegs (regs : List (String × Binding)) (ρ : SMap String) (n : NodeId) (bs : List ElementBinding) : Prop where
  has : ∀ b ∈ bs, OwnRegistered regs ρ n b
  only : ∀ r ∈ regs, r.2.node = n → (∃ b ∈ bs, OwnRegistration ρ n r b) ∨ r.2.Structural n

theorem attr_write {n key r x y} (h : (attrCell n key).write (Binding.react r x) = some y) : r.params = .tag n key := by
  simp only [attrCell] at h
  split at h
  · rename_i m k b hz
    split at h
    · rename_i hh; obtain ⟨rfl, rfl⟩ := hh; exact (react_tag hz).1
    · simp at h
  · simp at h

theorem OwnRegs.tag {regs ρ n bs} (h : OwnRegs regs ρ n bs) {r} (hr : r ∈ regs) {key} (hp : r.2.params = .tag n key) :
    ∃ b, .tag key b ∈ bs ∧ r = (b.denotes ρ, ⟨.tag n key, b.pipe⟩) := by
  rcases h.only r hr (by unfold Binding.node; rw [hp]) with ⟨c, hc, ho⟩ | ⟨c, w, e⟩ | ⟨i, k, e⟩
  · cases c with
    | tag k b =>
      simp only [OwnRegistration] at ho
      subst ho
      simp only [BindingParams.tag.injEq] at hp
      obtain ⟨-, rfl⟩ := hp
      exact ⟨b, hc, rfl⟩
    | «attribute» k spans =>
      obtain ⟨i, b, -, rfl⟩ := ho
      simp at hp
    | _ => exact ho.elim
  · rw [hp] at e; simp at e
  · rw [hp] at e; simp at e

theorem OwnRegs.attr {regs ρ n bs} (h : OwnRegs regs ρ n bs) {r} (hr : r ∈ regs) {key i} (hp : r.2.params = .attribute n key i) :
    ∃ spans b, .attribute key spans ∈ bs ∧ spans[i]? = some (.binder b) ∧ r = (b.denotes ρ, ⟨.attribute n key i, b.pipe⟩) := by
  rcases h.only r hr (by unfold Binding.node; rw [hp]) with ⟨c, hc, ho⟩ | ⟨c, w, e⟩ | ⟨i, k, e⟩
  · cases c with
    | tag k b =>
      simp only [OwnRegistration] at ho
      subst ho
      simp at hp
    | «attribute» k spans =>
      obtain ⟨j, b, hb, rfl⟩ := ho
      simp only [BindingParams.attribute.injEq] at hp
      obtain ⟨-, rfl, rfl⟩ := hp
      exact ⟨spans, b, hc, hb, rfl⟩
    | _ => exact ho.elim
  · rw [hp] at e; simp at e
  · rw [hp] at e; simp at e

/-- The attributes of an element. -/
theorem Ready.attrs (R : Ready inline S s σ fuel top vs v v') {ρ η n} {h : Html} {e e' : Element} (he : v.stage.tree.ctx n = some e)
    (he' : v'.stage.tree.ctx n = some e')
    (ha : ∀ key, e.attrs key = (h.bindings.filterMap (attrValue key)).getLast?)
    (hb : ∀ key, e.attrsBindings key = (h.bindings.filterMap (attrSpans key)).getLast?)
    (hown : OwnRegs σ.regs ρ n h.bindings) (hρ : ScopeRel s S.value ρ η)
    (hmen : ∀ b ∈ h.bindings, ∀ p ∈ mentionedPaths (ownMentions ρ b), Mentioned σ.schema p)
    (hnd : (attributeNames h.bindings).Nodup) {ys} (hx : allOf (h.bindings.map (S.attr η)) = some ys) :
    e'.attrs = attributeOf ys.flatten := by
  funext key
  have hsome : (v.stage.tree.ctx n).isSome := by rw [he]; rfl
  have hget : ∀ key, (attrCell n key).get v'.stage.tree = e'.attrs key := fun key => by
    simp only [attrCell, he', Option.bind_some]
  have hget0 : ∀ key, (attrCell n key).get v.stage.tree = e.attrs key := fun key => by
    simp only [attrCell, he, Option.bind_some]
  -- no binding writes: as it was
  have hstatic : (∀ r ∈ σ.regs, ∀ i, r.2.params ≠ .attribute n key i) → (∀ r ∈ σ.regs, r.2.params ≠ .tag n key) →
      e'.attrs key = e.attrs key := by
    intro h1 h2
    rw [← hget, ← hget0]
    exact (cell_static (attrCell_sound n key v.root v.body h1) R.setup.follows R.fits R.reached (by
      intro r hr x
      cases hw : (attrCell n key).write (r.2.react x) with
      | none => rfl
      | some y => exact absurd (attr_write hw) (h2 r hr)) hsome).2
  by_cases hex : ∃ b ∈ h.bindings, b.attrName = some key
  · obtain ⟨b, hbm, hbn⟩ := hex
    obtain ⟨pre, post, hsplit, hno⟩ := attrName_split hnd hbm hbn
    have huniq : ∀ c ∈ h.bindings, c.attrName = some key → c = b := by
      intro c hc hcn
      rw [hsplit] at hc
      rcases List.mem_append.1 hc with hc | hc
      · exact absurd hcn (hno c (.inl hc))
      · rcases List.mem_cons.1 hc with hc | hc
        · exact hc
        · exact absurd hcn (hno c (.inr hc))
    have h1 : e.attrs key = attrValue key b := by
      rw [ha, hsplit]; exact last_split (fun c hc => attrValue_other (hno c hc))
    have h2 : e.attrsBindings key = attrSpans key b := by
      rw [hb, hsplit]; exact last_split (fun c hc => attrSpans_other (hno c hc))
    rw [hsplit] at hx
    obtain ⟨val, hv1, hv2⟩ := attributeOf_split hx hno hbn
    rw [hv2]
    cases b with
    | none k value =>
      simp only [ElementBinding.attrName, Option.some.injEq] at hbn; subst hbn
      simp only [Scene.attr, Option.some.injEq, List.cons.injEq, Prod.mk.injEq, true_and, and_true] at hv1
      rw [hstatic, h1, ← hv1]
      · simp [attrValue]
      · intro r hr i hp
        obtain ⟨spans, b, hm, -⟩ := hown.attr hr hp
        have := huniq _ hm rfl; simp at this
      · intro r hr hp
        obtain ⟨b, hm, -⟩ := hown.tag hr hp
        have := huniq _ hm rfl; simp at this
    | tag k b =>
      simp only [ElementBinding.attrName, Option.some.injEq] at hbn; subst hbn
      simp only [Scene.attr, Option.map_eq_some_iff, List.cons.injEq, Prod.mk.injEq, true_and, and_true] at hv1
      obtain ⟨x, hx1, rfl⟩ := hv1
      rw [← hget]
      refine R.cell (attrCell_sound n k v.root v.body ?_) hρ (params := .tag n k) (b := b)
        (val := fun x => if x.evalBoolean then some k else none) ⟨hown.has _ hbm, ?_, ?_⟩ hsome ?_ hx1
      · intro r hr i hp
        obtain ⟨spans, b, hm, -⟩ := hown.attr hr hp
        have := huniq _ hm rfl; simp at this
      · intro r hr x y hw
        obtain ⟨b', hm, rfl⟩ := hown.tag hr (attr_write hw)
        have := huniq _ hm rfl
        injection this with _ this
        subst this; rfl
      · intro x
        simp [Binding.react, attrCell]
      · exact hmen _ hbm _ (by simp [ownMentions, mentionedPaths])
    | «attribute» k spans =>
      simp only [ElementBinding.attrName, Option.some.injEq] at hbn; subst hbn
      simp only [Scene.attr, Option.map_eq_some_iff, List.cons.injEq, Prod.mk.injEq, true_and, and_true] at hv1
      obtain ⟨t, ht, rfl⟩ := hv1
      have hnotag : ∀ r ∈ σ.regs, r.2.params ≠ .tag n k := by
        intro r hr hp
        obtain ⟨b, hm, -⟩ := hown.tag hr hp
        have := huniq _ hm rfl; simp at this
      have hattr : ∀ r ∈ σ.regs, ∀ i, r.2.params = .attribute n k i → ∃ b, spans[i]? = some (.binder b) ∧
          r = (b.denotes ρ, ⟨.attribute n k i, b.pipe⟩) := by
        intro r hr i hp
        obtain ⟨spans', b, hm, hi, e⟩ := hown.attr hr hp
        have := huniq _ hm rfl
        injection this with _ this
        subst this
        exact ⟨b, hi, e⟩
      rcases single_string spans with ⟨a, rfl⟩ | ⟨hsp, hmn⟩
      · rw [hstatic, h1]
        · simp only [Scene.spans, Scene.span, List.map_cons, List.map_nil, allOf, Option.bind_some, Option.map_some,
            Option.some.injEq] at ht
          simp [attrValue, spanSource, ← ht]
        · intro r hr i hp
          obtain ⟨b, hi, -⟩ := hattr r hr i hp
          cases i <;> simp at hi
        · exact hnotag
      · rw [hsp] at h2
        have hsync : InSync n k v'.stage.tree := by
          refine sync_updates R.setup.follows R.fits R.reached hnotag ⟨e, _, he, h2, ?_⟩
          rw [h1]; simp [attrValue, TextContent.toString]
        obtain ⟨e2, tx, q1, q2, q3⟩ := hsync
        rw [he'] at q1; injection q1 with q1; subst q1
        rw [q3]
        obtain ⟨hdefs, -⟩ := defs_updates R.setup.follows R.fits R.reached
        obtain ⟨e3, q4, -, -, -, hlen⟩ := hdefs.ctx he
        rw [he'] at q4; injection q4 with q4; subst q4
        have hlen := hlen k
        rw [q2, h2] at hlen
        simp only [Option.map_some, Option.some.injEq, List.length_map] at hlen
        unfold Scene.spans at ht
        obtain ⟨l, hl, rfl⟩ := Option.map_eq_some_iff.1 ht
        obtain ⟨l1, l2⟩ := allOf_get hl
        unfold TextContent.toString
        congr 2
        apply List.ext_getElem?
        intro i
        by_cases hi : i < spans.length
        · have hsp : spans[i]? = some spans[i] := List.getElem?_eq_getElem hi
          obtain ⟨y, hy, hf⟩ := l2 i _ hsp
          rw [hy]
          have hspan : HasAttrSpan n k i v.stage.tree := ⟨e, _, he, h2, by simpa using hi⟩
          have hg : (attrSpanCell n k i).get v'.stage.tree = tx.spans[i]? := by
            simp only [attrSpanCell, he', q2, Option.bind_some]
          have hg0 : (attrSpanCell n k i).get v.stage.tree = some (spanSource id spans[i]) := by
            simp only [attrSpanCell, he, h2, Option.bind_some, List.getElem?_map, hsp, Option.map_some]
          rw [← hg]
          have honly : ∀ r ∈ σ.regs, ∀ x y, (attrSpanCell n k i).write (r.2.react x) = some y →
              ∃ b, spans[i]? = some (.binder b) ∧ r = (b.denotes ρ, ⟨.attribute n k i, b.pipe⟩) := by
            intro r hr x y hw
            have : ∃ z, r.2.react x = .bind n k i z := by
              simp only [attrSpanCell] at hw
              split at hw
              · rename_i m k' j z hz
                split at hw
                · rename_i hh; obtain ⟨rfl, rfl, rfl⟩ := hh; exact ⟨z, hz⟩
                · simp at hw
              · simp at hw
            obtain ⟨z, hz⟩ := this
            exact hattr r hr i (react_attr hz).1
          cases hb' : spans[i] with
          | string a =>
            rw [hb'] at hf hg0 hsp
            obtain ⟨-, c2⟩ := cell_static (attrSpanCell_sound n k i v.root v.body σ.regs) R.setup.follows R.fits R.reached
              (by
                intro r hr x
                cases hw : (attrSpanCell n k i).write (r.2.react x) with
                | none => rfl
                | some y =>
                  obtain ⟨b, hb', -⟩ := honly r hr x y hw
                  rw [hsp] at hb'; simp at hb') hspan
            rw [c2, hg0]
            exact hf
          | binder b =>
            rw [hb'] at hf hg0 hsp
            simp only [Scene.span, Option.map_eq_some_iff] at hf
            obtain ⟨x, hx1, rfl⟩ := hf
            refine R.cell (attrSpanCell_sound n k i v.root v.body σ.regs) hρ (params := .attribute n k i) (b := b)
              (val := fun x => some x.evalString) ⟨hown.has _ hbm i b hsp, ?_, ?_⟩ hspan (hmen _ hbm _ ?_) hx1
            · intro r hr x y hw
              obtain ⟨b', hb', e⟩ := honly r hr x y hw
              rw [hsp] at hb'; injection hb' with hb'; injection hb' with hb'; subst hb'
              exact e
            · intro x
              simp [Binding.react, attrSpanCell]
            · rw [hmn]; exact Ready.spanMention hsp
        · rw [List.getElem?_eq_none (by omega), List.getElem?_eq_none (by omega)]
    | _ => simp [ElementBinding.attrName] at hbn
  · have hno : ∀ c ∈ h.bindings, c.attrName ≠ some key := fun c hc e => hex ⟨c, hc, e⟩
    rw [attributeOf_none hx hno, hstatic, ha]
    · rw [List.filterMap_eq_nil_iff.2 (fun c hc => attrValue_other (hno c hc))]; rfl
    · intro r hr i hp
      obtain ⟨spans, b, hm, -⟩ := hown.attr hr hp
      exact hno _ hm rfl
    · intro r hr hp
      obtain ⟨b, hm, -⟩ := hown.tag hr hp
      exact hno _ hm rfl

end Verif
