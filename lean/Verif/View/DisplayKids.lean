import Verif.View.DisplayMain
/-!
# Displayed children (lemmas for C65)
-/
namespace Verif
open Json

variable {inline : String → Option (List Declaration)}
variable {S : Scene} {s : Shape} {σ : Render} {fuel : Nat} {top : Html} {vs : List Json} {v v' : View}

/-- The binding of a condition or of a repeat is about the children `nodes`, which are at position `lo`. -/
def OwnIn (n : NodeId) (lo : Nat) (nodes : List NodeId) (r : String × Binding) : Prop :=
  (∃ c want, r.2.params = .visibility n c want ∧ c ∈ nodes) ∨
  (∃ i k, r.2.params = .repeat n i k ∧ lo ≤ i ∧ i + k ≤ lo + nodes.length)

theorem mirrorsChild_ownIn {env below ρ n start c group own} (h : MirrorsChild env below ρ n start c group own) :
    ∀ r ∈ own, OwnIn n start group r := by
  obtain ⟨c', -, hc⟩ := h
  intro r hr
  split at hc
  · obtain ⟨m, rfl, -, rfl⟩ := hc
    rw [List.mem_singleton] at hr; subst hr
    exact .inl ⟨_, _, rfl, by simp⟩
  · obtain ⟨h1, rfl, -⟩ := hc
    rw [List.mem_singleton] at hr; subst hr
    exact .inr ⟨_, _, rfl, Nat.le_refl _, by omega⟩
  · obtain ⟨m, -, -, rfl⟩ := hc
    simp at hr

theorem OwnIn.left {n lo a b r} (h : OwnIn n lo a r) : OwnIn n lo (a ++ b) r := by
  rcases h with ⟨c, w, h1, h2⟩ | ⟨i, k, h1, h2, h3⟩
  · exact .inl ⟨c, w, h1, by simp [h2]⟩
  · exact .inr ⟨i, k, h1, h2, by rw [List.length_append]; omega⟩

theorem OwnIn.right {n lo a b r} (h : OwnIn n (lo + a.length) b r) : OwnIn n lo (a ++ b) r := by
  rcases h with ⟨c, w, h1, h2⟩ | ⟨i, k, h1, h2, h3⟩
  · exact .inl ⟨c, w, h1, by simp [h2]⟩
  · exact .inr ⟨i, k, h1, by omega, by rw [List.length_append]; omega⟩

theorem mirrorsChildren_ownIn {env below ρ n start cs nodes own} (h : MirrorsChildren env below ρ n start cs nodes own) :
    ∀ r ∈ own, OwnIn n start nodes r := by
  induction cs generalizing start nodes own with
  | nil => obtain ⟨-, rfl⟩ := h; simp
  | cons c cs ih =>
    obtain ⟨group, rest, o, o', rfl, rfl, hc, hrest⟩ := h
    intro r hr
    rcases List.mem_append.1 hr with hr | hr
    · exact (mirrorsChild_ownIn hc r hr).left
    · exact (ih hrest r hr).right

/-- If repeats come last, the bindings keep the order of the children. -/
theorem mirrorsChildren_last {env below ρ n start cs nodes own} {S : Scene} (hS : S.env = env) {β η out}
    (h : MirrorsChildren env below ρ n start cs nodes own) (hx : S.children β η cs = some out) :
    ∃ st, start ≤ st ∧ st ≤ start + nodes.length ∧ ∀ r ∈ own,
      (∀ c want, r.2.params = .visibility n c want → c ∈ nodes.take (st - start)) ∧
      (∀ i k, r.2.params = .repeat n i k → i = st ∧ i + k = start + nodes.length) := by
  induction cs generalizing start nodes own out with
  | nil => obtain ⟨rfl, rfl⟩ := h; exact ⟨start, Nat.le_refl _, Nat.le_add_right _ _, by simp⟩
  | cons c cs ih =>
    obtain ⟨group, rest, o, o', rfl, rfl, ⟨c', hres, hc⟩, hrest⟩ := h
    simp only [Scene.children, hS, hres] at hx
    split at hx
    · simp at hx
    rename_i hlast
    obtain ⟨a, -, hx⟩ := Option.bind_eq_some_iff.1 hx
    obtain ⟨b, hx, -⟩ := Option.map_eq_some_iff.1 hx
    obtain ⟨st, s1, s2, s3⟩ := ih hrest hx
    by_cases hrep : c'.isRepeat = true
    · have hcs : cs = [] := by
        by_cases hcs : cs = []
        · exact hcs
        · exact absurd ⟨hrep, hcs⟩ hlast
      subst hcs
      obtain ⟨rfl, rfl⟩ := hrest
      unfold Html.isRepeat at hrep
      simp only [Bool.and_eq_true, Option.isNone_iff_eq_none, Option.isSome_iff_exists] at hrep
      obtain ⟨hv, ⟨name, count, bb⟩, hr⟩ := hrep
      rw [hv, hr] at hc
      obtain ⟨c1, rfl, -⟩ := hc
      refine ⟨start, Nat.le_refl _, Nat.le_add_right _ _, ?_⟩
      intro r hr
      simp only [List.append_nil, List.mem_singleton] at hr
      subst hr
      refine ⟨by simp, ?_⟩
      intro i k e
      simp only [BindingParams.repeat.injEq, true_and] at e
      obtain ⟨rfl, rfl⟩ := e
      exact ⟨rfl, by simp [c1]⟩
    · refine ⟨st, by omega, by rw [List.length_append]; omega, ?_⟩
      intro r hr
      rcases List.mem_append.1 hr with hr | hr
      · split at hc
        · obtain ⟨m, rfl, -, rfl⟩ := hc
          rw [List.mem_singleton] at hr; subst hr
          simp only [List.length_singleton] at s1
          refine ⟨?_, by simp⟩
          intro c want e
          simp only [BindingParams.visibility.injEq, true_and] at e
          rw [List.take_append]
          rw [← e.1]
          apply List.mem_append_left
          rw [List.take_of_length_le (by simp; omega)]; simp
        · rename_i hv hr'
          exfalso; apply hrep
          unfold Html.isRepeat; rw [hv, hr']; rfl
        · obtain ⟨m, -, -, rfl⟩ := hc
          simp at hr
      · obtain ⟨t1, t2⟩ := s3 r hr
        refine ⟨fun c want e => ?_, fun i k e => ?_⟩
        · rw [List.take_append]
          apply List.mem_append_right
          have := t1 c want e
          rw [show st - start - group.length = st - (start + group.length) by omega]
          exact this
        · obtain ⟨q1, q2⟩ := t2 i k e
          exact ⟨q1, by rw [q2, List.length_append]; omega⟩

theorem filter_take {α} {p : α → Bool} {l : List α} {k : Nat} (h : ∀ j x, l[j]? = some x → (p x = true ↔ j < k)) :
    l.filter p = l.take k := by
  induction l generalizing k with
  | nil => simp
  | cons a l ih =>
    have h0 := h 0 a rfl
    cases k with
    | zero =>
      rw [List.filter_cons, if_neg (by simpa using h0)]
      rw [ih (k := 0) (fun j x hx => by simpa using h (j + 1) x (by simpa using hx))]
      simp
    | succ k =>
      rw [List.filter_cons, if_pos (h0.2 (Nat.succ_pos _))]
      rw [ih (k := k) (fun j x hx => by simpa using h (j + 1) x (by simpa using hx))]
      simp

theorem settled_mono {s : Shape} {p : List Tok} {a b : Prop} (hab : a → b) {l : List Json} (h : Settled s p a l) : Settled s p b l := by
  induction l with
  | nil => exact hab h
  | cons w l ih =>
    obtain ⟨x, h1, h2⟩ := h
    exact ⟨x, h1, h2.imp id ih⟩

/-- Where a group of children is, and which bindings can be about it. -/
structure Group (σ : Render) (v : View) (n : NodeId) (before group rest : List NodeId) (own : List (String × Binding)) : Prop where
  notRoot : n ≠ v.root
  slots : v.stage.tree.slots v.root v.body n = before ++ group ++ rest
  nodup : (before ++ group ++ rest).Nodup
  mem : ∀ r ∈ own, r ∈ σ.regs
  only : ∀ r ∈ σ.regs, r.2.Structural n → r ∈ own ∨ OwnIn n 0 before r ∨ OwnIn n (before.length + group.length) rest r

/-- Other bindings do not show or hide a child. -/
theorem Group.write {n before group rest own} (G : Group σ v n before group rest own) {j : Nat} {m : NodeId}
    (hm : group[j]? = some m) {r : String × Binding} (hr : r ∈ σ.regs) {x y}
    (hw : (shownCell (before ++ group ++ rest) n m).write (r.2.react x) = some y) : r ∈ own ∧ r.2.Structural n := by
  have hj := (List.getElem?_eq_some_iff.1 hm).1
  have hidx : (before ++ group ++ rest)[before.length + j]? = some m := by
    rw [List.append_assoc, List.getElem?_append_right (by omega), Nat.add_sub_cancel_left, List.getElem?_append_left hj, hm]
  have hmb : m ∉ before ∧ m ∉ rest := by
    have hmg := List.mem_of_getElem? hm
    have := G.nodup
    rw [List.append_assoc, List.nodup_append] at this
    obtain ⟨-, h2, h3⟩ := this
    rw [List.nodup_append] at h2
    exact ⟨fun h => h3 m h m (by simp [hmg]) rfl, fun h => h2.2.2 m hmg m h rfl⟩
  have key : (∃ want, r.2.params = .visibility n m want) ∨
      (∃ i k, r.2.params = .repeat n i k ∧ m ∈ slice (before ++ group ++ rest) i (i + k)) := by
    simp only [shownCell] at hw
    split at hw
    · rename_i q c b hz
      split at hw
      · rename_i hh; obtain ⟨rfl, rfl⟩ := hh
        obtain ⟨want, h1, -⟩ := react_vis hz
        exact .inl ⟨want, h1⟩
      · simp at hw
    · rename_i q i k j' hz
      split at hw
      · rename_i hh; obtain ⟨rfl, hh⟩ := hh
        obtain ⟨k', h1, rfl⟩ := react_repeat hz
        exact .inr ⟨i, k', h1, hh⟩
      · simp at hw
    · simp at hw
  have hst : r.2.Structural n := by
    rcases key with ⟨w, h⟩ | ⟨i, k, h, -⟩
    · exact .inl ⟨_, _, h⟩
    · exact .inr ⟨_, _, h⟩
  refine ⟨?_, hst⟩
  rcases G.only r hr hst with h | h | h
  · exact h
  · exfalso
    rcases key with ⟨w, hp⟩ | ⟨i, k, hp, hsl⟩
    · rcases h with ⟨c, w', e, hc⟩ | ⟨i, k, e, -⟩
      · rw [hp] at e; simp only [BindingParams.visibility.injEq, true_and] at e
        rw [← e.1] at hc; exact hmb.1 hc
      · rw [hp] at e; simp at e
    · rcases h with ⟨c, w', e, hc⟩ | ⟨i', k', e, h1, h2⟩
      · rw [hp] at e; simp at e
      · rw [hp] at e; simp only [BindingParams.repeat.injEq, true_and] at e
        obtain ⟨rfl, rfl⟩ := e
        exact not_in_slice G.nodup hidx (.inr (by omega)) hsl
  · exfalso
    rcases key with ⟨w, hp⟩ | ⟨i, k, hp, hsl⟩
    · rcases h with ⟨c, w', e, hc⟩ | ⟨i, k, e, -⟩
      · rw [hp] at e; simp only [BindingParams.visibility.injEq, true_and] at e
        rw [← e.1] at hc; exact hmb.2 hc
      · rw [hp] at e; simp at e
    · rcases h with ⟨c, w', e, hc⟩ | ⟨i', k', e, h1, h2⟩
      · rw [hp] at e; simp at e
      · rw [hp] at e; simp only [BindingParams.repeat.injEq, true_and] at e
        obtain ⟨rfl, rfl⟩ := e
        exact not_in_slice G.nodup hidx (.inl (by omega)) hsl

theorem Group.memSlots {n before group rest own} (_ : Group σ v n before group rest own) {j : Nat} {m : NodeId}
    (hm : group[j]? = some m) : m ∈ before ++ group ++ rest := by
  have := List.mem_of_getElem? hm
  simp [this]

/-- A child with no condition and no repeat stays displayed. -/
theorem Ready.plainChild (R : Ready inline S s σ fuel top vs v v') {n before m rest}
    (G : Group σ v n before [m] rest []) : m ∈ v'.stage.tree.kids n := by
  have hm : [m][0]? = some m := rfl
  have hno : ∀ r ∈ σ.regs, ∀ x, (shownCell (before ++ [m] ++ rest) n m).write (r.2.react x) = none := by
    intro r hr x
    cases hw : (shownCell (before ++ [m] ++ rest) n m).write (r.2.react x) with
    | none => rfl
    | some y => have := (G.write hm hr hw).1; simp at this
  obtain ⟨-, c⟩ := cell_static (shownCell_sound (before ++ [m] ++ rest) n m v.root v.body σ.regs G.notRoot (G.memSlots hm))
    R.setup.follows R.fits R.reached hno G.slots
  simp only [shownCell] at c
  have h0 : m ∈ v.stage.tree.kids n := by
    refine R.setup.shown n G.notRoot m (by rw [G.slots]; exact G.memSlots hm) ?_
    intro r hr want hp
    have := hno r hr .null
    simp [Binding.react, hp, shownCell] at this
  simpa [h0] using c

/-- How many of a repeated child are displayed. -/
theorem Ready.repeatChild (R : Ready inline S s σ fuel top vs v v') {n before group rest path count sh array}
    (G : Group σ v n before group rest [(path, ⟨.repeat n before.length count, []⟩)])
    (hlen : group.length = count) (hl : Leads s S.value path sh array)
    (hmen : ∀ k < count, Mentioned σ.schema (path ++ "/" ++ toString k)) (hmp : Mentioned σ.schema path) {j : Nat} {m : NodeId}
    (hm : group[j]? = some m) : m ∈ v'.stage.tree.kids n ↔ j < (items array).length := by
  have hj := (List.getElem?_eq_some_iff.1 hm).1
  obtain ⟨item, L, rfl, hL, hcL, -⟩ := leads_array (by omega : 0 < count) R.setup.shape hl hmen
  obtain ⟨p, rfl, hfree, hread⟩ := hl
  have hidx : (before ++ group ++ rest)[before.length + j]? = some m := by
    rw [List.append_assoc, List.getElem?_append_right (by omega), Nat.add_sub_cancel_left, List.getElem?_append_left hj, hm]
  have hslice : ∀ k, k ≤ count → (m ∈ slice (before ++ group ++ rest) before.length (before.length + k) ↔ j < k) := by
    intro k hk
    constructor
    · intro h
      by_cases hjk : j < k
      · exact hjk
      · exact absurd h (not_in_slice G.nodup hidx (.inr (by omega)))
    · intro h
      unfold slice
      apply List.mem_of_getElem? (i := j)
      rw [List.getElem?_drop, List.getElem?_take, if_pos (by omega), hidx]
  have hcell := cell_array (C := shownCell (before ++ group ++ rest) n m)
    (shownCell_sound (before ++ group ++ rest) n m v.root v.body σ.regs G.notRoot (G.memSlots hm))
    R.setup.follows R.fits R.reached (g := (ptr p, ⟨.repeat n before.length count, []⟩))
    (val := fun x => decide (j < match x with | .arr l => l.length | _ => 0))
    ⟨G.mem _ (by simp), ?_, ?_⟩ rfl (len := fun k => decide (j < k)) (fun l => rfl) G.slots rfl hread ?_ (L := L) ?_ ?_
  · simp only [shownCell, decide_eq_decide] at hcell
    exact hcell
  · intro r hr x y hw
    have := (G.write hm hr hw).1
    simpa using this
  · intro x
    have hfull := (hslice count (Nat.le_refl _)).2 (by omega)
    cases x with
    | arr l =>
      simp only [Binding.react, shownCell, hfull, and_self, if_true]
      congr 2
      split
      · rw [hslice count (Nat.le_refl _), eq_iff_iff]; constructor <;> intro <;> omega
      · rename_i hle
        rw [hslice _ (by omega)]
    | _ =>
      simp only [Binding.react, shownCell, hfull, and_self, if_true, Nat.not_lt_zero, decide_false]
      congr 1
      simp [slice]
  · intro u hu
    obtain ⟨⟨sh', y⟩, hy⟩ := Option.isSome_iff_exists.1 (R.steady p item array hread u hu)
    exact ⟨y, by rw [hy, read_shape hy hread]⟩
  · rw [tokens_ptr p hfree] at hL
    rw [R.setup.model]
    have hpl := hmp.plain
    rw [tokens_ptr p hfree] at hpl
    exact prior_of_strict _ _ R.setup.shape hpl hL hread
  · have h0 : m ∈ v.stage.tree.kids n := by
      refine R.setup.shown n G.notRoot m (by rw [G.slots]; exact G.memSlots hm) ?_
      intro r hr want hp
      have := (G.write hm hr (x := .null) (y := (Json.null.evalBoolean == want)) (by simp [Binding.react, hp, shownCell])).1
      simp only [List.mem_singleton] at this
      subst this
      simp at hp
    simp only [shownCell, h0, decide_true]
    have : j < L.length := by omega
    simp [this]

/-- When a conditional child is displayed. -/
theorem Ready.conditionalChild (R : Ready inline S s σ fuel top vs v v') {ρ η n m want} {b : Binder} (hρ : ScopeRel s S.value ρ η)
    (hr : (b.denotes ρ, ⟨.visibility n m want, b.pipe⟩) ∈ σ.regs) (hm : Mentioned σ.schema (b.denotes ρ)) {x : Json}
    (hx : S.scalar η b = some x) : m ∈ v'.stage.tree.kids n ↔ (applyPipe S.tr b.pipe x).evalBoolean = want := by
  obtain ⟨p, h1, h2, h3⟩ := scalar_settled R.setup.shape (R.fits _ (by simp)) hρ hm R.nulls hx
  obtain ⟨v2, e1, e2⟩ := follows_updates (inline := inline) R.setup.follows (vs ++ [S.value]) R.fits
  rw [R.reached] at e1; injection e1 with e1; subst e1
  rw [Ready.reverse, List.append_nil] at e2
  exact e2.vis _ hr n m want rfl p h1 (settled_mono (fun h => h.elim) h2) x h3

/-- What is drawn below, for the nodes of a depth. -/
def DrawsBelow (R : Ready inline S s σ fuel top vs v v') (depth d : Nat) : Prop :=
  ∀ ρ η h n shown, Mirrors S.env v.stage.tree.ctx σ.regs depth ρ h n → ScopeRel s S.value ρ η →
    (∀ p ∈ mentionedPaths (mentions S.env depth ρ h), Mentioned σ.schema p) → n ≠ v.root →
    S.present depth η h = some shown → v'.stage.tree.draw d n = some shown

theorem mem_mentioned {a b : List Mention} (h : ∀ m ∈ a, m ∈ b) {p : String} (hp : p ∈ mentionedPaths a) : p ∈ mentionedPaths b := by
  obtain ⟨m, hm, e⟩ := List.mem_filterMap.1 hp
  exact List.mem_filterMap.2 ⟨m, h m hm, e⟩

/-- One template child. -/
theorem Ready.child (R : Ready inline S s σ fuel top vs v v') {depth d ρ η n before group rest own c}
    (hdraw : DrawsBelow R depth d) (hmir : MirrorsChild S.env (Mirrors S.env v.stage.tree.ctx σ.regs depth) ρ n before.length c group own)
    (G : Group σ v n before group rest own) (hρ : ScopeRel s S.value ρ η)
    (hmen : ∀ p ∈ mentionedPaths (childMentions S.env (mentions S.env depth) ρ c), Mentioned σ.schema p) {c' out}
    (hres : resolveChild S.env c = .ok c') (hx : S.child (S.present depth) η c' = some out) :
    allOf ((group.filter (fun m => decide (m ∈ v'.stage.tree.kids n))).map (v'.stage.tree.draw d)) = some out := by
  obtain ⟨c2, hres2, hc⟩ := hmir
  rw [hres] at hres2; injection hres2 with hres2; subst hres2
  simp only [childMentions, hres] at hmen
  unfold Scene.child at hx
  obtain ⟨η', hal, hx⟩ := Option.bind_eq_some_iff.1 hx
  have hρ' : ScopeRel s S.value (aliasScope ρ c'.bindings).1 η' := scopeRel_alias R.setup.shape _ hρ
    (fun p hp => hmen p (mem_mentioned (fun m hm => List.mem_append_left _ hm) hp)) hal
  have hroot : ∀ (j : Nat) m, group[j]? = some m → m ≠ v.root := by
    intro j m hm
    have := (R.setup.follows.good.wf.slotsYounger n m (by rw [G.slots]; exact G.memSlots hm)).1
    rw [R.setup.rootZero]; unfold NodeId at *; omega
  split at hc
  · rename_i want b hv
    simp only [hv] at hmen hx
    obtain ⟨m, rfl, hbelow, rfl⟩ := hc
    obtain ⟨x, hx1, hx2⟩ := Option.bind_eq_some_iff.1 hx
    have hshow := R.conditionalChild (n := n) (m := m) (want := want) hρ' (G.mem _ (by simp)) (hmen _ (by simp [mentionedPaths])) hx1
    by_cases hw : (applyPipe S.tr b.pipe x).evalBoolean = want
    · rw [if_pos hw] at hx2
      obtain ⟨shown, hx3, rfl⟩ := Option.map_eq_some_iff.1 hx2
      rw [List.filter_cons, if_pos (by simpa using hshow.2 hw)]
      have := hdraw _ _ _ _ _ hbelow hρ' (fun p hp => hmen p (mem_mentioned (fun m hm => by simp [hm]) hp)) (hroot 0 m rfl) hx3
      simp [allOf, this]
    · rw [if_neg hw] at hx2
      injection hx2 with hx2; subst hx2
      rw [List.filter_cons, if_neg (by simpa using fun h => hw (hshow.1 h))]
      simp [allOf]
  · rename_i name count b hv hr
    simp only [hv, hr] at hmen hx
    obtain ⟨hlen, rfl, hbelow⟩ := hc
    split at hx
    · simp at hx
    rename_i hpipe
    simp only [ne_eq, Decidable.not_not] at hpipe
    obtain ⟨array, harr, hx⟩ := Option.bind_eq_some_iff.1 hx
    rw [hpipe] at G
    have hmp : Mentioned σ.schema (b.denotes (aliasScope ρ c'.bindings).1) := hmen _ (by simp [mentionedPaths])
    obtain ⟨sh, hl⟩ := leads_value R.setup.shape hρ' hmp harr
    have hmk : ∀ k < count, ∀ m, (m = .define (b.denotes (aliasScope ρ c'.bindings).1 ++ "/" ++ toString k) ∨
        m ∈ mentions S.env depth ((aliasScope ρ c'.bindings).1.set name (b.denotes (aliasScope ρ c'.bindings).1 ++ "/" ++ toString k)) c') →
        m ∈ (aliasScope ρ c'.bindings).2 ++ (.define (b.denotes (aliasScope ρ c'.bindings).1) :: .bind (b.denotes (aliasScope ρ c'.bindings).1) ::
        (List.range count).flatMap fun n =>
          .define (b.denotes (aliasScope ρ c'.bindings).1 ++ "/" ++ toString n) ::
            mentions S.env depth ((aliasScope ρ c'.bindings).1.set name (b.denotes (aliasScope ρ c'.bindings).1 ++ "/" ++ toString n)) c') := by
      intro k hk m hm
      apply List.mem_append_right
      apply List.mem_cons_of_mem
      apply List.mem_cons_of_mem
      rw [List.mem_flatMap]
      exact ⟨k, by simpa using hk, by rcases hm with hm | hm; exacts [by rw [hm]; exact List.mem_cons_self, List.mem_cons_of_mem _ hm]⟩
    have hmk1 : ∀ k < count, Mentioned σ.schema (b.denotes (aliasScope ρ c'.bindings).1 ++ "/" ++ toString k) := by
      intro k hk
      exact hmen _ (List.mem_filterMap.2 ⟨_, hmk k hk _ (.inl rfl), rfl⟩)
    have hfil : group.filter (fun m => decide (m ∈ v'.stage.tree.kids n)) = group.take (items array).length := by
      apply filter_take
      intro j m hm
      rw [decide_eq_true_eq]
      exact R.repeatChild G hlen hl hmk1 hmp hm
    rw [hfil]
    rw [allOf_iff] at hx ⊢
    apply List.ext_getElem?
    intro i
    have hxi := congrArg (fun l => l[i]?) hx
    simp only [List.getElem?_map, List.getElem?_take] at hxi ⊢
    by_cases hi : i < count
    · by_cases hi2 : i < (items array).length
      · rw [if_pos hi, List.getElem?_eq_getElem hi2] at hxi
        rw [if_pos hi2]
        have hgi : group[i]? = some group[i] := List.getElem?_eq_getElem (by omega)
        rw [hgi]
        simp only [Option.map_some] at hxi ⊢
        obtain ⟨item, L, rfl, -, -, hitems⟩ := leads_array (by omega : 0 < count) R.setup.shape hl hmk1
        have hli := hitems i _ hi (List.getElem?_eq_getElem hi2)
        cases ho : out[i]? with
        | none => rw [ho] at hxi; simp at hxi
        | some shown =>
          rw [ho] at hxi
          simp only [Option.map_some, Option.some.injEq] at hxi
          have := hdraw _ _ _ _ _ (hbelow i _ hgi) (hρ'.set name hli)
            (fun p hp => hmen p (mem_mentioned (fun m hm => hmk i hi m (.inr hm)) hp)) (hroot i _ hgi) hxi
          simp [this]
      · rw [List.getElem?_eq_none (by omega)] at hxi
        rw [if_neg hi2]
        simpa using hxi
    · rw [if_neg hi] at hxi
      rw [List.getElem?_eq_none (by omega : group.length ≤ i)]
      simpa using hxi
  · rename_i hv hr
    simp only [hv, hr] at hmen hx
    obtain ⟨m, rfl, hbelow, rfl⟩ := hc
    obtain ⟨shown, hx2, rfl⟩ := Option.map_eq_some_iff.1 hx
    rw [List.filter_cons, if_pos (by simpa using R.plainChild G)]
    have := hdraw _ _ _ _ _ hbelow hρ' (fun p hp => hmen p (mem_mentioned (fun m hm => by simp [hm]) hp)) (hroot 0 m rfl) hx2
    simp [allOf, this]

theorem allOf_append {α : Type} {a b : List (Option α)} {x y : List α} (ha : allOf a = some x) (hb : allOf b = some y) :
    allOf (a ++ b) = some (x ++ y) := by
  rw [allOf_iff] at *
  rw [ha, hb, List.map_append]

/-- The template children one after the other. -/
theorem Ready.children (R : Ready inline S s σ fuel top vs v v') {depth d ρ η n} (hdraw : DrawsBelow R depth d) (hn : n ≠ v.root)
    (hρ : ScopeRel s S.value ρ η) (cs : List Html) (before nodes : List NodeId) (done own : List (String × Binding))
    (hmir : MirrorsChildren S.env (Mirrors S.env v.stage.tree.ctx σ.regs depth) ρ n before.length cs nodes own)
    (hslots : v.stage.tree.slots v.root v.body n = before ++ nodes)
    (hmem : ∀ r ∈ own, r ∈ σ.regs) (hdone : ∀ r ∈ done, OwnIn n 0 before r)
    (honly : ∀ r ∈ σ.regs, r.2.Structural n → r ∈ done ++ own)
    (hmen : ∀ p ∈ mentionedPaths (cs.flatMap (childMentions S.env (mentions S.env depth) ρ)), Mentioned σ.schema p) {out}
    (hx : S.children (S.present depth) η cs = some out) :
    allOf ((nodes.filter (fun m => decide (m ∈ v'.stage.tree.kids n))).map (v'.stage.tree.draw d)) = some out := by
  induction cs generalizing before nodes done own out with
  | nil =>
    obtain ⟨rfl, rfl⟩ := hmir
    simp only [Scene.children, Option.some.injEq] at hx
    subst hx; rfl
  | cons c cs ih =>
    obtain ⟨group, rest, o, o', rfl, rfl, hc, hrest⟩ := hmir
    obtain ⟨c', hres, -⟩ := id hc
    simp only [Scene.children, hres] at hx
    split at hx
    · simp at hx
    obtain ⟨a, ha, hx⟩ := Option.bind_eq_some_iff.1 hx
    obtain ⟨b, hb, rfl⟩ := Option.map_eq_some_iff.1 hx
    have hnd := R.setup.follows.good.wf.slotsNodup n
    have hrestIn := mirrorsChildren_ownIn hrest
    rw [hslots, ← List.append_assoc] at hnd
    have G : Group σ v n before group rest o := by
      refine ⟨hn, by rw [hslots, List.append_assoc], hnd, fun r hr => hmem r (by simp [hr]), ?_⟩
      intro r hr hst
      have := honly r hr hst
      simp only [List.mem_append] at this
      rcases this with h | h | h
      · exact .inr (.inl (hdone r h))
      · exact .inl h
      · exact .inr (.inr (hrestIn r h))
    rw [List.filter_append, List.map_append]
    refine allOf_append (R.child hdraw hc G hρ
      (fun p hp => hmen p (mem_mentioned (fun m hm => by rw [List.flatMap_cons]; exact List.mem_append_left _ hm) hp)) hres ha) ?_
    refine ih (before ++ group) rest (done ++ o) o' (by rw [List.length_append]; exact hrest)
      (by rw [hslots, List.append_assoc]) (fun r hr => hmem r (by simp [hr])) ?_
      (fun r hr hst => by rw [List.append_assoc]; exact honly r hr hst)
      (fun p hp => hmen p (mem_mentioned (fun m hm => by rw [List.flatMap_cons]; exact List.mem_append_right _ hm) hp)) hb
    intro r hr
    rcases List.mem_append.1 hr with hr | hr
    · exact (hdone r hr).left
    · refine OwnIn.right ?_
      rw [Nat.zero_add]
      exact mirrorsChild_ownIn hc r hr

/-- The displayed tree is what the template shows. -/
theorem Ready.draws (R : Ready inline S s σ fuel top vs v v') (depth d : Nat) (hd : depth < d) : DrawsBelow R depth d := by
  induction depth generalizing d with
  | zero => intro ρ η h n shown hm; exact hm.elim
  | succ depth ih =>
    intro ρ η h n shown hm hρ hmen hn hx
    obtain ⟨d, rfl⟩ : ∃ d', d = d' + 1 := ⟨d - 1, by omega⟩
    obtain ⟨v2, e1, hF⟩ := follows_updates (inline := inline) R.setup.follows (vs ++ [S.value]) R.fits
    rw [R.reached] at e1; injection e1 with e1; subst e1
    have hroots : v'.root = v.root ∧ v'.body = v.body := by
      refine (history_induct (P := fun _ u => u.root = v.root ∧ u.body = v.body) (vs ++ [S.value]) R.setup.follows R.fits R.reached
        ⟨rfl, rfl⟩ ?_).1
      rintro hist u w u' - - - huu ⟨r1, r2⟩
      have := update_root huu
      exact ⟨this.1.trans r1, this.2.trans r2⟩
    have hwf := hF.good.wf
    rw [hroots.1, hroots.2] at hwf
    obtain ⟨hdefs, hnodes⟩ := defs_updates R.setup.follows R.fits R.reached
    have hslot' : ∀ {e : Element} {m : NodeId}, m ≠ v.root → v'.stage.tree.ctx m = some e → v'.stage.tree.slots v.root v.body m = e.children := by
      intro e m hm he
      simp only [Tree.slots, if_neg hm, he]
    have hnokids : ∀ {e : Element} {m : NodeId}, m ≠ v.root → v'.stage.tree.ctx m = some e → e.children = [] → v'.stage.tree.kids m = [] := by
      intro e m hm he hc
      have := hslot' hm he
      rw [hc] at this
      cases hk : v'.stage.tree.kids m with
      | nil => rfl
      | cons a l =>
        have := hwf.sub m a (by rw [hk]; simp)
        rw [hslot' hm he, hc] at this; simp at this
    simp only [Scene.present] at hx
    cases ht : h.text with
    | some spans =>
      rw [ht] at hx
      obtain ⟨t, ht', rfl⟩ := Option.map_eq_some_iff.1 hx
      obtain ⟨e, tx, g1, g2, g3, g4, g5⟩ := R.text hm hρ ht hmen ht'
      simp only [Tree.draw, g1, Option.bind_some, g2, hnokids hn g1 g3, List.map_nil, allOf, g4, g5]
    | none =>
      rw [ht] at hx
      simp only at hx
      split at hx
      · simp at hx
      rename_i hnd
      simp only [Decidable.not_not] at hnd
      obtain ⟨attrs, hattrs, hx⟩ := Option.bind_eq_some_iff.1 hx
      obtain ⟨cs, hcs, rfl⟩ := Option.map_eq_some_iff.1 hx
      obtain ⟨e, he, hnode, hrest⟩ := hm
      rw [ht] at hrest
      obtain ⟨htx, htag, ha, -, hb, hown, own, hownin, honly, hch⟩ := hrest
      obtain ⟨e', he', hch', htag', hlen, -⟩ := hdefs.ctx he
      obtain ⟨e2, h2, hn2⟩ := hnodes n e he
      rw [he'] at h2; injection h2 with h2; subst h2
      have htx' : e'.text = none := by
        rw [htx] at hlen
        cases hh : e'.text with
        | none => rfl
        | some tx => rw [hh] at hlen; simp at hlen
      have hstr : ∀ r ∈ own, r.2.Structural n := by
        split at hch
        · rw [hch.1]; simp
        · split at hch
          · rw [hch.2]; simp
          · exact own_structural hch
      have hA := R.attrs he he' ha hb ⟨hown, fun r hr hrn => (honly r hr hrn).imp id (hstr r)⟩ hρ
        (fun b hb p hp => hmen p (Ready.ownMention ht hb hp)) hnd hattrs
      simp only [Tree.draw, he', Option.bind_some, hn2.trans hnode, htx', hA, htag'.trans htag]
      suffices hk : allOf ((v'.stage.tree.kids n).map (v'.stage.tree.draw d)) = some cs by rw [hk]; rfl
      have hslots : v.stage.tree.slots v.root v.body n = e.children := by simp only [Tree.slots, if_neg hn, he]
      by_cases himg : h.tag = "img"
      · rw [if_pos himg] at hch hcs
        injection hcs with hcs; subst hcs
        obtain ⟨-, c, bg, k1, k2, -, k3, k4, k5, k6, k7, k8⟩ := hch
        have hkids := (hwf.img n e' he' (by rw [htag', htag, himg]) hn).2
        rw [hkids, hch', k1]
        obtain ⟨d, rfl⟩ : ∃ d', d = d' + 1 := ⟨d - 1, by omega⟩
        obtain ⟨bg', b1, b2, b3, b4, -⟩ := hdefs.ctx k2
        obtain ⟨bg2, b5, b6⟩ := hnodes c bg k2
        rw [b1] at b5; injection b5 with b5; subst b5
        have hcroot : c ≠ v.root := by
          have := (R.setup.follows.good.wf.slotsYounger n c (by rw [hslots, k1]; simp)).1
          rw [R.setup.rootZero]; unfold NodeId at *; omega
        have hattr : bg'.attrs = fun _ => none := by
          funext key
          have := (cell_static (attrCell_sound c key v.root v.body (regs := σ.regs) (by
            intro r hr i hp; exact k8 r hr (by unfold Binding.node; rw [hp]))) R.setup.follows R.fits R.reached (by
            intro r hr x
            cases hw : (attrCell c key).write (r.2.react x) with
            | none => rfl
            | some y => exact absurd (by unfold Binding.node; rw [attr_write hw]) (k8 r hr)) (by rw [k2]; rfl)).2
          simpa only [attrCell, b1, k2, Option.bind_some, k7] using this
        have htext : bg'.text = none := by
          rw [k6] at b4
          cases hh : bg'.text with
          | none => rfl
          | some tx => rw [hh] at b4; simp at b4
        have : v'.stage.tree.draw (d + 1) c = some (.element "" (fun _ => none) []) := by
          simp only [Tree.draw, b1, Option.bind_some, b6.trans k4, hnokids hcroot b1 (b2.trans k3), List.map_nil, allOf, htext,
            hattr, b3, k5]
        simp [allOf, this]
      · rw [if_neg himg] at hch hcs
        by_cases hvoid : h.tag ∈ voidTags
        · rw [if_pos hvoid] at hch hcs
          injection hcs with hcs; subst hcs
          rw [hnokids hn he' (hch'.trans hch.1)]; rfl
        · rw [if_neg hvoid] at hch hcs
          have hmen' : ∀ p ∈ mentionedPaths (h.children.flatMap (childMentions S.env (mentions S.env depth) ρ)), Mentioned σ.schema p := by
            intro p hp
            refine hmen p (mem_mentioned (fun m hm => ?_) hp)
            simp only [mentions, ht]
            rw [if_neg (by rintro (h | h); exacts [himg h, hvoid h])]
            exact List.mem_append_right _ hm
          have honly' : ∀ r ∈ σ.regs, r.2.Structural n → r ∈ own := by
            intro r hr hst
            have hrn : r.2.node = n := by
              rcases hst with ⟨c, w, e⟩ | ⟨i, k, e⟩ <;> (unfold Binding.node; rw [e])
            rcases honly r hr hrn with ⟨b, -, hb⟩ | h
            · exfalso
              cases b with
              | tag k b =>
                simp only [OwnRegistration] at hb; subst hb
                rcases hst with ⟨c, w, e⟩ | ⟨i, k, e⟩ <;> simp at e
              | «attribute» k sp =>
                obtain ⟨i, b, -, rfl⟩ := hb
                rcases hst with ⟨c, w, e⟩ | ⟨i, k, e⟩ <;> simp at e
              | _ => exact hb.elim
            · exact h
          have hfil : v'.stage.tree.kids n = e.children.filter (fun m => decide (m ∈ v'.stage.tree.kids n)) := by
            obtain ⟨st, s1, s2, s3⟩ := mirrorsChildren_last rfl hch hcs
            have hvis : ∀ r ∈ σ.regs, ∀ c want, r.2.params = .visibility n c want →
                c ∈ (v.stage.tree.slots v.root v.body n).take st := by
              intro r hr c want hp
              rw [hslots]
              have := (s3 r (honly' r hr (.inl ⟨_, _, hp⟩))).1 c want hp
              simpa using this
            have := ordered_filter hwf (order_updates R.setup.follows R.fits R.reached (p := n) (start := st) hn
              (by
                intro r hr i k hp
                have := (s3 r (honly' r hr (.inr ⟨_, _, hp⟩))).2 i k hp
                rw [hslots]; simpa using this)
              hvis (R.setup.ordered n st hn hvis))
            rw [hslot' hn he', hch'] at this
            exact this
          rw [hfil]
          exact R.children (ih d (by omega)) hn hρ h.children [] e.children [] own (by simpa using hch) (by simpa using hslots)
            hownin (by simp) (by simpa using honly') hmen' hcs

end Verif
