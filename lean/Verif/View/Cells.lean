import Verif.View.Follow
/-!
# Places of the displayed tree and what is written to them (lemmas for C65)
-/
namespace Verif
open Json

variable {inline : String → Option (List Declaration)}

/-- A place of the tree: how to read it, and which reactions overwrite it. -/
structure Cell (β : Type) where
  get : Tree → β
  write : Reaction → Option β

/-- The reactions some bindings can cause. -/
def Caused (regs : List (String × Binding)) (r : Reaction) : Prop := ∃ g ∈ regs, ∃ x, r = g.2.react x

/-- The place changes only as `write` says, for the reactions of the bindings, while `ok` holds. -/
def Cell.Sound {β} (C : Cell β) (ok : Tree → Prop) (root body : NodeId) (regs : List (String × Binding)) : Prop :=
  ∀ (inline : String → Option (List Declaration)) (s s' : Stage) (r : Reaction), s.tree.Wf root body → ReactionOk s.tree root body r → Caused regs r →
    updateTree inline s r = .ok s' → ok s.tree → ok s'.tree ∧ C.get s'.tree = (C.write r).getD (C.get s.tree)

theorem cell_trees {β} {C : Cell β} {ok root body regs} (hC : C.Sound ok root body regs) (rs : List Reaction)
    (s s' : Stage) (h : s.tree.Wf root body) (hrs : ∀ r ∈ rs, ReactionOk s.tree root body r)
    (hc : ∀ r ∈ rs, Caused regs r) (hu : updateTrees inline s rs = .ok s') (hok : ok s.tree) :
    ok s'.tree ∧ C.get s'.tree = rs.foldl (fun a r => (C.write r).getD a) (C.get s.tree) := by
  induction rs generalizing s with
  | nil => simp only [updateTrees, Except.ok.injEq] at hu; subst hu; exact ⟨hok, rfl⟩
  | cons r rs ih =>
    obtain ⟨s1, h1, st⟩ := updateTree_step (inline := inline) h (hrs r (by simp))
    simp only [updateTrees, h1, bind, Except.bind] at hu
    obtain ⟨g1, g2⟩ := hC _ s s1 r h (hrs r (by simp)) (hc r (by simp)) h1 hok
    obtain ⟨k1, k2⟩ := ih s1 st.wf (fun r' hr' => st.same.reactionOk (hrs r' (by simp [hr'])))
      (fun r' hr' => hc r' (by simp [hr'])) hu g1
    exact ⟨k1, by rw [k2, g2, List.foldl_cons]⟩

theorem fold_written {β} (W : Reaction → Option β) (t : β) (rs : List Reaction)
    (h : ∀ r ∈ rs, ∀ y, W r = some y → y = t) (a : β) (hm : (∃ r ∈ rs, W r = some t) ∨ a = t) :
    rs.foldl (fun a r => (W r).getD a) a = t := by
  induction rs generalizing a with
  | nil => simpa using hm
  | cons r rs ih =>
    rw [List.foldl_cons]
    apply ih (fun r' hr' => h r' (by simp [hr']))
    cases hw : W r with
    | some y => right; simpa using h r (by simp) y hw
    | none =>
      rcases hm with ⟨r', hr', hw'⟩ | hm
      · rcases List.mem_cons.1 hr' with rfl | hr'
        · rw [hw] at hw'; simp at hw'
        · exact .inl ⟨r', hr', hw'⟩
      · right; simpa using hm

theorem fold_unwritten {β} (W : Reaction → Option β) (rs : List Reaction) (h : ∀ r ∈ rs, W r = none) (a : β) :
    rs.foldl (fun a r => (W r).getD a) a = a := by
  induction rs generalizing a with
  | nil => rfl
  | cons r rs ih => rw [List.foldl_cons, h r (by simp)]; exact ih (fun r' hr' => h r' (by simp [hr'])) a

/-- The notifications of an update, and the reactions to them. -/
theorem update_reactions {s : Shape} {σ : Render} {tr : Transformers} {hist : List Json} {v v' : View}
    (h : Follows s σ tr hist v) {w : Json} (hf : Fits s w) (hu : v.update inline w = .ok v') :
    ∃ rs : List Reaction, updateTrees inline v.stage rs = .ok v'.stage ∧ v'.root = v.root ∧ v'.body = v.body ∧
      (∀ r ∈ rs, ReactionOk v.stage.tree v.root v.body r) ∧
      (∀ r, r ∈ rs ↔ ∃ str x b, (str, x) ∈ notesOf v.vm.defaults s v.vm.model w "" "" ∧ (str, b) ∈ σ.regs ∧
        r = b.react (applyPipe tr b.pipe x)) := by
  have hb := bind_good h.vm hf
  generalize hN : notesOf v.vm.defaults s v.vm.model w "" "" = notes at hb
  obtain ⟨stage, u1, u2, u3, hrs⟩ := viewGood_update (inline := inline) h.good w hb
  rw [hu] at u2; injection u2 with u2; subst u2
  refine ⟨_, u1, rfl, rfl, hrs, ?_⟩
  intro r
  rw [List.mem_flatMap]
  constructor
  · rintro ⟨note, hn, hr⟩
    rw [h.good.bindings] at hr
    obtain ⟨b, hb1, hb2⟩ := reactAt_mem hr
    exact ⟨note.1, note.2, b, hn, hb1, by rw [hb2, h.transformers]⟩
  · rintro ⟨str, x, b, hn, hb1, rfl⟩
    refine ⟨(str, x), hn, ?_⟩
    simp only [reactAt, List.mem_map]
    exact ⟨b, by rw [h.good.bindings]; exact mem_lookupRegs.2 hb1, by rw [h.transformers]⟩

theorem caused_of {σ : Render} {tr : Transformers} {notes : List (String × Json)} {rs : List Reaction}
    (h : ∀ r, r ∈ rs ↔ ∃ str x b, (str, x) ∈ notes ∧ (str, b) ∈ σ.regs ∧ r = b.react (applyPipe tr b.pipe x)) :
    ∀ r ∈ rs, Caused σ.regs r := by
  intro r hr
  obtain ⟨str, x, b, -, hb, e⟩ := (h r).1 hr
  exact ⟨_, hb, _, e⟩

theorem note_unique {s : Shape} {vm : ViewModel} (hg : Good s vm) {w : Json} (hf : Fits s w) {str : String} {x y : Json}
    (hx : (str, x) ∈ notesOf vm.defaults s vm.model w "" "") (hy : (str, y) ∈ notesOf vm.defaults s vm.model w "" "") :
    x = y := by
  have hnodup := notesOf_nodup vm.defaults s vm.model w [] "" hg.ok hg.model hf hg.defaults
  rw [ptr_nil] at hnodup
  have := key_unique (f := fun n : String × Json => some n.1) (k := str)
    (by simpa [List.filterMap_eq_map] using hnodup) hx hy rfl rfl
  simpa using this

/-- The place belongs to the binding `g` alone, which writes `val` of what it receives. -/
structure Cell.Belongs {β} (C : Cell β) (regs : List (String × Binding)) (g : String × Binding) (val : Json → β) : Prop where
  mem : g ∈ regs
  only : ∀ r ∈ regs, ∀ x y, C.write (r.2.react x) = some y → r = g
  val : ∀ x, C.write (g.2.react x) = some (val x)

/-- A place after an update: written if its binding is notified, and unchanged otherwise. -/
theorem cell_update {β} {C : Cell β} {ok} {s : Shape} {σ : Render} {tr : Transformers} {hist : List Json} {v v' : View}
    (hC : C.Sound ok v.root v.body σ.regs) (h : Follows s σ tr hist v) {w : Json} (hf : Fits s w)
    (hu : v.update inline w = .ok v') {g : String × Binding} {val : Json → β} (hb : C.Belongs σ.regs g val)
    (hok : ok v.stage.tree) :
    ok v'.stage.tree ∧
    (∀ y, (g.1, y) ∈ notesOf v.vm.defaults s v.vm.model w "" "" →
      C.get v'.stage.tree = val (applyPipe tr g.2.pipe y)) ∧
    ((∀ y, (g.1, y) ∉ notesOf v.vm.defaults s v.vm.model w "" "") → C.get v'.stage.tree = C.get v.stage.tree) := by
  obtain ⟨rs, u1, -, -, u2, u3⟩ := update_reactions h hf hu
  obtain ⟨k1, k2⟩ := cell_trees hC rs _ _ h.good.wf u2 (caused_of u3) u1 hok
  have hw : ∀ r ∈ rs, ∀ y, C.write r = some y → ∃ z, (g.1, z) ∈ notesOf v.vm.defaults s v.vm.model w "" "" ∧
      y = val (applyPipe tr g.2.pipe z) := by
    intro r hr y hy
    obtain ⟨str, x, b, h1, h2, rfl⟩ := (u3 r).1 hr
    have e := hb.only _ h2 _ _ hy
    subst e
    refine ⟨x, h1, ?_⟩
    have := hb.val (applyPipe tr b.pipe x)
    simp only at this hy ⊢
    rw [this] at hy; injection hy with hy; exact hy.symm
  refine ⟨k1, fun y hy => ?_, fun hno => ?_⟩
  · rw [k2]
    apply fold_written
    · intro r hr z hz
      obtain ⟨y', hy', rfl⟩ := hw r hr z hz
      rw [note_unique h.vm hf hy' hy]
    · left
      exact ⟨_, (u3 _).2 ⟨g.1, y, g.2, hy, hb.mem, rfl⟩, hb.val _⟩
  · rw [k2]
    apply fold_unwritten
    intro r hr
    cases hz : C.write r with
    | none => rfl
    | some z => obtain ⟨y, hy, -⟩ := hw r hr z hz; exact absurd hy (hno y)

/-- Induction over the updates of a view. -/
theorem history_induct {s : Shape} {σ : Render} {tr : Transformers} {P : List Json → View → Prop} {hist : List Json}
    {v v' : View} (vs : List Json) (h : Follows s σ tr hist v) (hf : ∀ w ∈ vs, Fits s w)
    (hu : v.updates inline vs = .ok v') (h0 : P hist v)
    (hstep : ∀ hist v w v', Follows s σ tr hist v → w ∈ vs → Fits s w → v.update inline w = .ok v' → P hist v →
      P (w :: hist) v') : P (vs.reverse ++ hist) v' ∧ Follows s σ tr (vs.reverse ++ hist) v' := by
  induction vs generalizing v hist with
  | nil => simp only [View.updates, Except.ok.injEq] at hu; subst hu; exact ⟨by simpa using h0, by simpa using h⟩
  | cons w vs ih =>
    obtain ⟨v1, h1, h2⟩ := follows_update (inline := inline) h (hf w (by simp))
    simp only [View.updates, h1] at hu
    have := ih h2 (fun x hx => hf x (by simp [hx])) hu (hstep _ _ _ _ h (by simp) (hf w (by simp)) h1 h0)
      (fun hist v w v' a b => hstep hist v w v' a (by simp [b]))
    simpa using this

theorem update_root {v v' : View} {w : Json} (hu : v.update inline w = .ok v') : v'.root = v.root ∧ v'.body = v.body := by
  unfold View.update at hu
  split at hu
  · simp at hu
  · split at hu
    · simp at hu
    · injection hu with hu; subst hu; exact ⟨rfl, rfl⟩

/-- A place bound to a scalar shows its value. -/
theorem cell_scalar {β} {C : Cell β} {ok} {s : Shape} {σ : Render} {tr : Transformers} {v v' : View} {vs : List Json}
    (hC : C.Sound ok v.root v.body σ.regs) (h : Follows s σ tr [] v) (hf : ∀ w ∈ vs, Fits s w)
    (hu : v.updates inline vs = .ok v') {g : String × Binding} {val : Json → β} (hb : C.Belongs σ.regs g val)
    (hok : ok v.stage.tree) {p : List Tok} (hp : g.1 = ptr p) {x : Json} (hset : Settled s p False vs.reverse)
    (hx : current s p vs.reverse = some x) : C.get v'.stage.tree = val (applyPipe tr g.2.pipe x) := by
  have := (history_induct (P := fun hist u => (u.root = v.root ∧ u.body = v.body) ∧ ok u.stage.tree ∧
    (Settled s p False hist → ∀ x, current s p hist = some x → C.get u.stage.tree = val (applyPipe tr g.2.pipe x)))
    vs h hf hu ⟨⟨rfl, rfl⟩, hok, fun hs => hs.elim⟩ ?_).1
  · rw [List.append_nil] at this
    exact this.2.2 hset x hx
  · rintro hist u w u' hF - hw huu ⟨⟨r1, r2⟩, o1, hcur⟩
    have hr := update_root huu
    rw [← r1, ← r2] at hC
    obtain ⟨c1, c2, c3⟩ := cell_update hC hF hw huu hb o1
    refine ⟨⟨hr.1.trans r1, hr.2.trans r2⟩, c1, ?_⟩
    rintro ⟨x', hx1, hx2⟩ y hy
    have : x' = y := by simpa [current, hx1] using hy
    subst this
    rw [hp] at c2 c3
    rcases settled_step hF.vm hF.defaults hF.blank hF.model hw hx1 hx2 with hn | ⟨hno, hs, hc⟩
    · exact c2 _ hn
    · rw [c3 hno]; exact hcur hs _ hc

/-- A place with no binding stays as it was. -/
theorem cell_static {β} {C : Cell β} {ok} {s : Shape} {σ : Render} {tr : Transformers} {v v' : View} {vs : List Json}
    (hC : C.Sound ok v.root v.body σ.regs) (h : Follows s σ tr [] v) (hf : ∀ w ∈ vs, Fits s w)
    (hu : v.updates inline vs = .ok v') (hno : ∀ r ∈ σ.regs, ∀ x, C.write (r.2.react x) = none)
    (hok : ok v.stage.tree) : ok v'.stage.tree ∧ C.get v'.stage.tree = C.get v.stage.tree := by
  have := (history_induct (P := fun _ u => (u.root = v.root ∧ u.body = v.body) ∧ ok u.stage.tree ∧
    C.get u.stage.tree = C.get v.stage.tree) vs h hf hu ⟨⟨rfl, rfl⟩, hok, rfl⟩ ?_).1
  · exact this.2
  · rintro hist u w u' hF - hw huu ⟨⟨r1, r2⟩, o1, hcur⟩
    have hr := update_root huu
    rw [← r1, ← r2] at hC
    obtain ⟨rs, u1, -, -, u2, u3⟩ := update_reactions hF hw huu
    obtain ⟨k1, k2⟩ := cell_trees hC rs _ _ hF.good.wf u2 (caused_of u3) u1 o1
    refine ⟨⟨hr.1.trans r1, hr.2.trans r2⟩, k1, ?_⟩
    rw [k2, fold_unwritten _ _ _ _, hcur]
    intro r hr
    obtain ⟨str, x, b, -, hb, rfl⟩ := (u3 r).1 hr
    exact hno _ hb _

/-- A place bound to an array shows its length, if the array has been there all the time. -/
theorem cell_array {β} {C : Cell β} {ok} {s : Shape} {σ : Render} {tr : Transformers} {v v' : View} {vs : List Json} {w : Json}
    (hC : C.Sound ok v.root v.body σ.regs) (h : Follows s σ tr [] v) (hf : ∀ u ∈ vs ++ [w], Fits s u)
    (hu : v.updates inline (vs ++ [w]) = .ok v') {g : String × Binding} {val : Json → β} (hb : C.Belongs σ.regs g val)
    (hpipe : g.2.pipe = []) {len : Nat → β} (hval : ∀ l, val (.arr l) = len l.length)
    (hok : ok v.stage.tree) {p : List Tok} (hp : g.1 = ptr p) {item : Shape} {x : Json}
    (hx : s.read w p = some (.arr item, x)) (hall : ∀ u ∈ vs, ∃ y, s.read u p = some (.arr item, y))
    {L : List Json} (h0 : prior v.vm.defaults "" v.vm.model p = some (.arr L)) (hg0 : C.get v.stage.tree = len L.length) :
    C.get v'.stage.tree = len (items x).length := by
  have hall' : ∀ u ∈ vs ++ [w], ∃ y, s.read u p = some (.arr item, y) := by
    intro u hu
    rcases List.mem_append.1 hu with hu | hu
    · exact hall u hu
    · rw [List.mem_singleton] at hu; subst hu; exact ⟨x, hx⟩
  have := history_induct (P := fun _ u => (u.root = v.root ∧ u.body = v.body) ∧ ok u.stage.tree ∧
    ∃ L, prior u.vm.defaults "" u.vm.model p = some (.arr L) ∧ C.get u.stage.tree = len L.length)
    (vs ++ [w]) h hf hu ⟨⟨rfl, rfl⟩, hok, L, h0, hg0⟩ ?_
  · obtain ⟨⟨-, -, L', hL, hget⟩, hF⟩ := this
    have hm := hF.model
    simp only [List.reverse_append, List.reverse_cons, List.reverse_nil, List.nil_append, List.singleton_append,
      List.cons_append, modelAfter] at hm
    rw [hm, prior_of_read _ p s _ w x "" hx] at hL
    simp only [project, Option.some.injEq, Json.arr.injEq] at hL
    rw [hget, ← hL, List.length_map]
  · rintro hist u w' u' hF hw' hw huu ⟨⟨r1, r2⟩, o1, L, hL, hget⟩
    have hr := update_root huu
    rw [← r1, ← r2] at hC
    obtain ⟨c1, c2, c3⟩ := cell_update hC hF hw huu hb o1
    obtain ⟨y, hy⟩ := hall' w' hw'
    obtain ⟨v2, hv2, hF'⟩ := follows_update (inline := inline) hF hw
    rw [huu] at hv2; injection hv2 with hv2; subst hv2
    refine ⟨⟨hr.1.trans r1, hr.2.trans r2⟩, c1, (items y).map (project item), ?_, ?_⟩
    · rw [hF'.model]
      simp only [modelAfter]
      rw [prior_of_read _ p s _ w' y "" hy]; rfl
    · rw [List.length_map]
      have hmem := fun str x => notesOf_mem u.vm.defaults s u.vm.model w' [] "" str x hF.vm.ok hF.vm.model hw hF.vm.defaults
      rw [ptr_nil] at hmem
      by_cases hlen : L.length = (items y).length
      · rw [c3 ?_, hget, hlen]
        intro z hz
        rw [hp, hmem] at hz
        obtain ⟨q, hq, sh, raw, bf, q1, q2, q3, q4⟩ := hz
        have hpq : p = q := read_ptr_inj s w' w' p q _ _ hF.vm.ok hy q1 (by simpa using hq)
        subst hpq
        rw [hy] at q1; injection q1 with q1; injection q1 with q1 q1'; subst q1; subst q1'
        rw [hL] at q2; injection q2 with q2; subst q2
        exact q3 hlen
      · rw [c2 (.arr (items y)) ?_, hpipe]
        · simp only [applyPipe, List.foldl_nil, hval]
        · rw [hp, hmem]
          exact ⟨p, by simp, .arr item, y, .arr L, hy, hL, hlen, rfl⟩

end Verif
