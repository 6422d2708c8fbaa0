import Verif.View.Live
import Verif.Spec.Live
/-!
# Views follow their values (lemmas for C18-C20)
-/
namespace Verif
open Json

variable {inline : String → Option (List Declaration)}

theorem prior_of_read (defs : Defaults) (p : List Tok) (s sh : Shape) (v raw : Json) (ap : String)
    (hr : s.read v p = some (sh, raw)) : prior defs ap (project s v) p = some (project sh raw) := by
  induction p generalizing ap s v with
  | nil =>
    have hr' : s = sh ∧ v = raw := by cases s <;> simpa [Shape.read] using hr
    obtain ⟨rfl, rfl⟩ := hr'
    simp [prior]
  | cons t ts ih =>
    cases s with
    | leaf => cases t <;> simp [Shape.read] at hr
    | arr s =>
      cases t with
      | key k => simp [Shape.read] at hr
      | idx i =>
        simp only [Shape.read] at hr
        rw [Option.bind_eq_some_iff] at hr
        obtain ⟨w', h1, hr⟩ := hr
        simp only [project, prior, List.getElem?_map, h1, Option.map_some]
        exact ih s w' ap hr
    | obj fs =>
      cases t with
      | idx i => simp [Shape.read] at hr
      | key k =>
        simp only [Shape.read] at hr
        rw [Option.bind_eq_some_iff] at hr
        obtain ⟨s', hs', hr⟩ := hr
        simp only [project, prior, get_projectFields, hs', Option.map_some, Option.bind_some]
        exact ih s' _ _ hr

theorem blank_scalar {x : Json} (h : Blank x) (hs : Scalar x) : x = .null := by
  cases x <;> simp [Blank, Scalar] at h hs ⊢

theorem fits_read {s : Shape} {v : Json} {p : List Tok} {sh : Shape} {x : Json} (hf : Fits s v)
    (hr : s.read v p = some (sh, x)) : Fits sh x := by
  induction p generalizing s v with
  | nil =>
    have hr' : s = sh ∧ v = x := by cases s <;> simpa [Shape.read] using hr
    obtain ⟨rfl, rfl⟩ := hr'
    exact hf
  | cons t ts ih =>
    cases s with
    | leaf => cases t <;> simp [Shape.read] at hr
    | arr s =>
      cases t with
      | key k => simp [Shape.read] at hr
      | idx i =>
        simp only [Shape.read] at hr
        rw [Option.bind_eq_some_iff] at hr
        obtain ⟨w', h1, hr⟩ := hr
        simp only [Fits] at hf
        rcases hf with rfl | ⟨l, rfl, hl⟩
        · simp [items] at h1
        · exact ih (hl w' (List.mem_of_getElem? (by simpa [items] using h1))) hr
    | obj fs =>
      cases t with
      | idx i => simp [Shape.read] at hr
      | key k =>
        simp only [Shape.read] at hr
        rw [Option.bind_eq_some_iff] at hr
        obtain ⟨s', hs', hr⟩ := hr
        simp only [Fits] at hf
        refine ih ?_ hr
        have hm := field_eq hs'
        clear hs' ih hr
        have := hf.2
        induction fs with
        | nil => simp at hm
        | cons a fs ih2 =>
          obtain ⟨k', s2⟩ := a
          simp only [FitsFields] at this
          rcases List.mem_cons.1 hm with e | hm
          · injection e with e1 e2; subst e1; subst e2; exact this.1
          · exact ih2 ⟨hf.1, this.2⟩ hm this.2

/-- The bound model after a history. -/
def modelAfter (s : Shape) (m0 : Json) : List Json → Json
  | [] => m0
  | w :: _ => project s w

/-- An update notifies a settled scalar place of its value, or the place keeps the value it was settled
with. -/
theorem settled_step {s : Shape} {vm : ViewModel} (hg : Good s vm) (hd : BlankDefaults vm.defaults)
    {m0 : Json} (hb : Blank m0) {hist : List Json} (hm : vm.model = modelAfter s m0 hist) {w : Json}
    (hf : Fits s w) {p : List Tok} {x : Json} {start : Prop} (hr : s.read w p = some (.leaf, x))
    (hs : x ≠ .null ∨ Settled s p start hist) :
    (ptr p, x) ∈ notesOf vm.defaults s vm.model w "" "" ∨
    ((∀ y, (ptr p, y) ∉ notesOf vm.defaults s vm.model w "" "") ∧ Settled s p start hist ∧
      current s p hist = some x) := by
  have hmem := fun str x => notesOf_mem vm.defaults s vm.model w [] "" str x hg.ok hg.model hf hg.defaults
  rw [ptr_nil] at hmem
  have hpr := prior_defined vm.defaults p s vm.model w "" hg.ok hg.model hg.defaults hr
  obtain ⟨before, hpr⟩ := hpr
  have hsc : Scalar x := fits_read hf hr
  by_cases hne : before = x
  · right
    subst hne
    refine ⟨?_, ?_⟩
    · intro y hy
      rw [hmem] at hy
      obtain ⟨q, hq, sh, raw, bf, q1, q2, q3, q4⟩ := hy
      have hpq : p = q := read_ptr_inj s w w p q _ _ hg.ok hr q1 (by simpa using hq)
      subst hpq
      rw [hr] at q1; injection q1 with q1; injection q1 with q1 q1'; subst q1; subst q1'
      rw [hpr] at q2; injection q2 with q2; subst q2
      exact q3 rfl
    · rw [hm] at hpr
      cases hist with
      | nil =>
        simp only [modelAfter] at hpr
        have hnull := blank_scalar (prior_blank _ hd _ _ _ _ hb hpr) hsc
        subst hnull
        rcases hs with hs | hs
        · exact absurd rfl hs
        · exact ⟨hs, rfl⟩
      | cons w' ws =>
        simp only [modelAfter] at hpr
        have key : ∀ x', s.read w' p = some (.leaf, x') → x' = before := by
          intro x' hx'
          have := prior_of_read vm.defaults p s .leaf w' x' "" hx'
          rw [hpr] at this
          simp only [project, Option.some.injEq] at this
          exact this.symm
        rcases hs with hs | hs
        · rcases prior_project vm.defaults hd p s .leaf w' w before before "" hr hpr with ⟨raw, r1, r2⟩ | hbl
          · simp only [project] at r2
            subst r2
            exact ⟨⟨before, r1, .inl hs⟩, by simp [current, r1]⟩
          · exact absurd (blank_scalar hbl hsc) hs
        · refine ⟨hs, ?_⟩
          obtain ⟨x', h1, -⟩ := hs
          simp [current, h1, key x' h1]
  · left
    rw [hmem]
    exact ⟨p, by simp, .leaf, x, before, hr, hpr, hne, rfl⟩

theorem key_unique {α β} {f : α → Option β} {l : List α} (h : (l.filterMap f).Nodup) {a b : α} {k : β}
    (ha : a ∈ l) (hb : b ∈ l) (fa : f a = some k) (fb : f b = some k) : a = b := by
  induction l with
  | nil => simp at ha
  | cons c l ih =>
    rw [List.filterMap_cons] at h
    have hin : ∀ x ∈ l, f x = some k → k ∈ l.filterMap f := fun x hx hf => List.mem_filterMap.2 ⟨x, hx, hf⟩
    rcases List.mem_cons.1 ha with ea | ha' <;> rcases List.mem_cons.1 hb with eb | hb'
    · exact ea.trans eb.symm
    · subst ea; rw [fa] at h; exact absurd (hin b hb' fb) (List.nodup_cons.1 h).1
    · subst eb; rw [fb] at h; exact absurd (hin a ha' fa) (List.nodup_cons.1 h).1
    · refine ih ?_ ha' hb'
      cases hc : f c with
      | none => rw [hc] at h; exact h
      | some z => rw [hc] at h; exact (List.nodup_cons.1 h).2

theorem text_unique {σ : Render} {root body} (hu : ViewUnique σ root body) {r1 r2 : String × Binding}
    (h1 : r1 ∈ σ.regs) (h2 : r2 ∈ σ.regs) {n i} (p1 : r1.2.params = .text n i) (p2 : r2.2.params = .text n i) :
    r1 = r2 := by
  have := hu.text
  rw [List.filterMap_map] at this
  exact key_unique this h1 h2 (k := (n, i)) (by simp [Binding.textKey, p1]) (by simp [Binding.textKey, p2])

theorem vis_unique {σ : Render} {root body} (hu : ViewUnique σ root body) {r1 r2 : String × Binding}
    (h1 : r1 ∈ σ.regs) (h2 : r2 ∈ σ.regs) {c p v q u} (p1 : r1.2.params = .visibility p c v)
    (p2 : r2.2.params = .visibility q c u) : r1 = r2 := by
  have := hu.vis
  rw [List.filterMap_map] at this
  exact key_unique this h1 h2 (k := c) (by simp [Binding.visKey, p1]) (by simp [Binding.visKey, p2])

theorem lastText_other (n j old) (rs : List Reaction) (h : ∀ y, .type n j y ∉ rs) :
    lastText n j old rs = old := by
  induction rs with
  | nil => rfl
  | cons r rs ih =>
    have ih := ih (fun y hy => h y (by simp [hy]))
    cases r with
    | type m i x =>
      simp only [lastText]
      rw [if_neg]
      · exact ih
      · rintro ⟨rfl, rfl⟩; exact h x (by simp)
    | _ => exact ih

theorem lastText_written (n j) (t : String) (rs : List Reaction) (h : ∀ y, .type n j y ∈ rs → y = t) (old)
    (hm : .type n j t ∈ rs ∨ old = t) : lastText n j old rs = t := by
  induction rs generalizing old with
  | nil => simpa [lastText] using hm
  | cons r rs ih =>
    have ih := ih (fun y hy => h y (by simp [hy]))
    have hm' : .type n j t ∈ rs ∨ r = .type n j t ∨ old = t := by
      rcases hm with hm | hm
      · rcases List.mem_cons.1 hm with hm | hm
        · exact .inr (.inl hm.symm)
        · exact .inl hm
      · exact .inr (.inr hm)
    cases r with
    | type m i x =>
      simp only [lastText]
      apply ih
      by_cases hmi : m = n ∧ i = j
      · obtain ⟨rfl, rfl⟩ := hmi
        right; simp [h x (by simp)]
      · rw [if_neg hmi]
        rcases hm' with hm' | hm' | hm'
        · exact .inl hm'
        · simp only [Reaction.type.injEq] at hm'
          exact absurd ⟨hm'.1, hm'.2.1⟩ hmi
        · exact .inr hm'
    | _ =>
      simp only [lastText]
      apply ih
      rcases hm' with hm' | hm' | hm'
      · exact .inl hm'
      · simp at hm'
      · exact .inr hm'

theorem showAll_other {slots : List NodeId} {p c : NodeId} {f : NodeId → Bool} (rs : List Reaction)
    (h1 : ∀ v, .reattach p c v ∉ rs) (h2 : ∀ i k j, .repeat p i k j ∈ rs → c ∉ slice slots i j) :
    showAll slots p f rs c = f c := by
  unfold showAll
  induction rs generalizing f with
  | nil => rfl
  | cons r rs ih =>
    rw [List.foldl_cons, ih (fun v hv => h1 v (by simp [hv])) (fun i k j hm => h2 i k j (by simp [hm]))]
    cases r with
    | reattach q n v =>
      simp only [showStep]
      rw [if_neg]; rintro ⟨rfl, rfl⟩; exact h1 v (by simp)
    | «repeat» q i k j =>
      simp only [showStep]
      rw [if_neg]; rintro ⟨rfl, hc⟩; exact h2 i k j (by simp) hc
    | _ => rfl

theorem showAll_written {slots : List NodeId} {p c : NodeId} {t : Bool} (rs : List Reaction)
    (h1 : ∀ v, .reattach p c v ∈ rs → v = t) (h2 : ∀ i k j, .repeat p i k j ∈ rs → c ∉ slice slots i j)
    (f : NodeId → Bool) (hm : .reattach p c t ∈ rs ∨ f c = t) : showAll slots p f rs c = t := by
  unfold showAll
  induction rs generalizing f with
  | nil => simpa using hm
  | cons r rs ih =>
    rw [List.foldl_cons]
    apply ih (fun v hv => h1 v (by simp [hv])) (fun i k j hm => h2 i k j (by simp [hm]))
    have hm' : .reattach p c t ∈ rs ∨ r = .reattach p c t ∨ f c = t := by
      rcases hm with hm | hm
      · rcases List.mem_cons.1 hm with hm | hm
        · exact .inr (.inl hm.symm)
        · exact .inl hm
      · exact .inr (.inr hm)
    cases r with
    | reattach q n v =>
      simp only [showStep]
      by_cases hq : q = p ∧ c = n
      · obtain ⟨rfl, rfl⟩ := hq
        right; simp [h1 v (by simp)]
      · rw [if_neg hq]
        rcases hm' with hm' | hm' | hm'
        · exact .inl hm'
        · simp only [Reaction.reattach.injEq] at hm'
          exact absurd ⟨hm'.1, hm'.2.1.symm⟩ hq
        · exact .inr hm'
    | «repeat» q i k j =>
      simp only [showStep]
      rw [if_neg (by rintro ⟨rfl, hc⟩; exact h2 i k j (by simp) hc)]
      rcases hm' with hm' | hm' | hm'
      · exact .inl hm'
      · simp at hm'
      · exact .inr hm'
    | _ =>
      simp only [showStep]
      rcases hm' with hm' | hm' | hm'
      · exact .inl hm'
      · simp at hm'
      · exact .inr hm'

/-- A child in no block is not affected by repeats. -/
theorem not_in_slice {D : List NodeId} (hnd : D.Nodup) {c : NodeId} {i s k : Nat} (hi : D[i]? = some c)
    (h : i < s ∨ s + k ≤ i) : c ∉ slice D s (s + k) := by
  intro hc
  unfold slice at hc
  obtain ⟨j, hj⟩ := List.mem_iff_getElem?.1 hc
  rw [List.getElem?_drop, List.getElem?_take] at hj
  split at hj
  · have h1 := (List.getElem?_eq_some_iff.1 hi)
    have h2 := (List.getElem?_eq_some_iff.1 hj)
    have := (List.getElem_inj hnd (h₀ := h1.1) (h₁ := h2.1)).1 (h1.2.trans h2.2.symm)
    omega
  · simp at hj

/-- Invariant over a history (values newest first). -/
structure Follows (s : Shape) (σ : Render) (tr : Transformers) (hist : List Json) (v : View) : Prop where
  good : ViewGood σ.regs v
  unique : ViewUnique σ v.root v.body
  transformers : v.vm.transformers = tr
  vm : Good s v.vm
  defaults : BlankDefaults v.vm.defaults
  blank : Blank σ.schema
  model : v.vm.model = modelAfter s σ.schema hist
  slots : ∀ p, v.stage.tree.slots v.root v.body p = σ.tree.slots v.root v.body p
  notRoot : ∀ r ∈ σ.regs, r.2.node ≠ v.root
  text : ∀ r ∈ σ.regs, ∀ n i, r.2.params = .text n i → ∀ p, r.1 = ptr p → Settled s p False hist →
    ∀ x, current s p hist = some x → v.spanText n i = some (applyPipe tr r.2.pipe x).evalString
  vis : ∀ r ∈ σ.regs, ∀ q c want, r.2.params = .visibility q c want → ∀ p, r.1 = ptr p →
    Settled s p (want = true ∧ r.2.pipe = []) hist →
    ∀ x, current s p hist = some x → (v.displays q c ↔ (applyPipe tr r.2.pipe x).evalBoolean = want)

theorem follows_open {s : Shape} {σ : Render} {tr : Transformers} {v : View} (h : Opened v σ tr) (hok : s.Ok)
    (hno : s.NoArrArr) (hs : HasShape s v.vm.model) : Follows s σ tr [] v := by
  have hg : Good s v.vm := create_good hok hno (h.model ▸ hs) h.created
  refine ⟨h.good, h.unique, h.transformers, hg, h.defaults, h.blank, h.model, h.slots, h.notRoot, ?_, ?_⟩
  · intro r hr n i hp p he hset
    exact absurd hset (by simp [Settled])
  · intro r hr q c want hp p he hset x hx
    simp only [Settled] at hset
    simp only [current, Option.some.injEq] at hx
    subst hx
    rw [hset.1, hset.2]
    simp [View.displays, h.hidden r hr q c want hp, applyPipe, evalBoolean]

theorem react_text {b : Binding} {x : Json} {n i y} (h : b.react x = .type n i y) :
    b.params = .text n i ∧ y = x.evalString := by
  unfold Binding.react at h
  cases hp : b.params <;> rw [hp] at h <;> simp only [] at h
  · simp only [Reaction.type.injEq] at h
    obtain ⟨rfl, rfl, rfl⟩ := h; exact ⟨rfl, rfl⟩
  all_goals first | (simp at h; done) | (split at h <;> simp at h)

theorem react_vis {b : Binding} {x : Json} {p c v} (h : b.react x = .reattach p c v) :
    ∃ want, b.params = .visibility p c want ∧ v = (x.evalBoolean == want) := by
  unfold Binding.react at h
  cases hp : b.params <;> rw [hp] at h <;> simp only [] at h
  case visibility q n want =>
    simp only [Reaction.reattach.injEq] at h
    obtain ⟨rfl, rfl, rfl⟩ := h; exact ⟨want, rfl, rfl⟩
  all_goals first | (simp at h; done) | (split at h <;> simp at h)

theorem react_repeat {b : Binding} {x : Json} {p i k j} (h : b.react x = .repeat p i k j) :
    ∃ n, b.params = .repeat p i n ∧ j = i + n := by
  unfold Binding.react at h
  cases hp : b.params <;> rw [hp] at h <;> simp only [] at h
  case «repeat» q s n =>
    split at h <;> (simp only [Reaction.repeat.injEq] at h; obtain ⟨rfl, rfl, -, rfl⟩ := h; exact ⟨n, rfl, rfl⟩)
  all_goals (simp at h)

theorem follows_update {s : Shape} {σ : Render} {tr : Transformers} {hist : List Json} {v : View}
    (h : Follows s σ tr hist v) {w : Json} (hf : Fits s w) :
    ∃ v', v.update inline w = .ok v' ∧ Follows s σ tr (w :: hist) v' := by
  have hb := bind_good h.vm hf
  have hnodup := notesOf_nodup v.vm.defaults s v.vm.model w [] "" h.vm.ok h.vm.model hf h.vm.defaults
  rw [ptr_nil] at hnodup
  generalize hN : notesOf v.vm.defaults s v.vm.model w "" "" = notes at hb hnodup
  obtain ⟨stage, u1, u2, u3, hrs⟩ := viewGood_update (inline := inline) h.good w hb
  refine ⟨_, u2, ?_⟩
  generalize hR : notes.flatMap (reactAt v.vm.bindings v.vm.transformers) = rs at *
  have hmem : ∀ r, r ∈ rs ↔ ∃ str x b, (str, x) ∈ notes ∧ (str, b) ∈ σ.regs ∧
      r = b.react (applyPipe tr b.pipe x) := by
    intro r
    rw [← hR, List.mem_flatMap]
    constructor
    · rintro ⟨note, hn, hr⟩
      rw [h.good.bindings] at hr
      obtain ⟨b, hb1, hb2⟩ := reactAt_mem hr
      exact ⟨note.1, note.2, b, hn, hb1, by rw [hb2, h.transformers]⟩
    · rintro ⟨str, x, b, hn, hb1, rfl⟩
      refine ⟨(str, x), hn, ?_⟩
      simp only [reactAt, List.mem_map]
      exact ⟨b, by rw [h.good.bindings]; exact mem_lookupRegs.2 hb1, by rw [h.transformers]⟩
  have note_unique : ∀ {str x y}, (str, x) ∈ notes → (str, y) ∈ notes → x = y := by
    intro str x y hx hy
    have := key_unique (f := fun n : String × Json => some n.1) (l := notes) (k := str)
      (by simpa [List.filterMap_eq_map] using hnodup) hx hy rfl rfl
    simpa using this
  obtain ⟨s', k1, -, k3, k4⟩ := updateTrees_steps (inline := inline) rs v.stage h.good.wf hrs
  rw [u1] at k1; injection k1 with k1; subst k1
  refine ⟨u3, h.unique, h.transformers, good_next h.vm hf, h.defaults, h.blank, rfl,
    fun p => (k3.slots _ _ p).trans (h.slots p), h.notRoot, ?_, ?_⟩
  · rintro ⟨path, b⟩ hr n i hp p he hset x hx
    simp only at he hp ⊢
    subst he
    obtain ⟨x', hx1, hx2⟩ := hset
    have : x' = x := by simpa [current, hx1] using hx
    subst this
    obtain ⟨e, tx, e1, e2, e3⟩ := h.good.texts _ hr n i hp
    obtain ⟨s2, e', tx', g1, g2, g3, g4⟩ := C17_spans_independent (inline := inline) v.stage rs h.good.wf hrs e1 e2
    rw [u1] at g1; injection g1 with g1; subst g1
    have hspan : View.spanText { v with vm := { v.vm with model := project s w }, stage := stage } n i
        = some (lastText n i tx.spans[i] rs) := by
      simp only [View.spanText, g2, g3, Option.bind_some, g4 i, List.getElem?_eq_getElem e3, Option.map_some]
    rw [hspan]
    have huniq : ∀ y, .type n i y ∈ rs → ∃ z, (ptr p, z) ∈ notes ∧ y = (applyPipe tr b.pipe z).evalString := by
      intro y hy
      rw [hmem] at hy
      obtain ⟨str, z, b', hz, hb', hre⟩ := hy
      obtain ⟨q1, q2⟩ := react_text hre.symm
      have := text_unique h.unique hr hb' hp q1
      injection this with t1 t2
      subst t1; subst t2
      exact ⟨z, hz, q2⟩
    rcases settled_step h.vm h.defaults h.blank h.model hf hx1 hx2 with hnote | ⟨hno, hset', hcur⟩
    · rw [hN] at hnote
      rw [lastText_written (t := (applyPipe tr b.pipe x').evalString)]
      · intro y hy
        obtain ⟨z, hz, rfl⟩ := huniq y hy
        rw [note_unique hz hnote]
      · left
        rw [hmem]
        exact ⟨_, _, b, hnote, hr, by simp [Binding.react, hp]⟩
    · rw [hN] at hno
      rw [lastText_other]
      · have := h.text _ hr n i hp p rfl hset' x' hcur
        simp only [View.spanText, e1, e2, Option.bind_some, List.getElem?_eq_getElem e3] at this
        exact this
      · intro y hy
        obtain ⟨z, hz, -⟩ := huniq y hy
        exact hno z hz
  · rintro ⟨path, b⟩ hr q c want hp p he hset x hx
    simp only at he hp hset ⊢
    subst he
    obtain ⟨x', hx1, hx2⟩ := hset
    have : x' = x := by simpa [current, hx1] using hx
    subst this
    have hq := h.notRoot _ hr
    rw [vis_node hp] at hq
    have hslot : c ∈ v.stage.tree.slots v.root v.body q := by
      have := h.good.reactions _ hr .null
      simp only [Binding.react, hp] at this
      exact this.2.1
    have hk := k4 q hq c
    simp only [View.displays]
    rw [hk, and_iff_right hslot]
    have hrep : ∀ i k j, .repeat q i k j ∈ rs → c ∉ slice (v.stage.tree.slots v.root v.body q) i j := by
      intro i k j hm
      rw [hmem] at hm
      obtain ⟨str, z, b', hz, hb', hre⟩ := hm
      obtain ⟨m, r1, r2⟩ := react_repeat hre.symm
      obtain ⟨idx, i1, i2⟩ := h.unique.apart _ hr _ hb' q c want i m hp r1
      subst r2
      rw [h.slots q]
      exact not_in_slice (by rw [← h.slots q]; exact h.good.wf.slotsNodup q) i1 i2
    have huniq : ∀ y, .reattach q c y ∈ rs → ∃ z, (ptr p, z) ∈ notes ∧
        y = ((applyPipe tr b.pipe z).evalBoolean == want) := by
      intro y hy
      rw [hmem] at hy
      obtain ⟨str, z, b', hz, hb', hre⟩ := hy
      obtain ⟨want', q1, q2⟩ := react_vis hre.symm
      have := vis_unique h.unique hr hb' hp q1
      injection this with t1 t2
      subst t1; subst t2
      rw [hp] at q1; injection q1 with _ _ q1; subst q1
      exact ⟨z, hz, q2⟩
    rcases settled_step h.vm h.defaults h.blank h.model hf hx1 hx2 with hnote | ⟨hno, hset', hcur⟩
    · rw [hN] at hnote
      rw [showAll_written (t := ((applyPipe tr b.pipe x').evalBoolean == want)) rs ?_ hrep]
      · simp
      · left
        rw [hmem]
        exact ⟨_, _, b, hnote, hr, by simp [Binding.react, hp]⟩
      · intro y hy
        obtain ⟨z, hz, rfl⟩ := huniq y hy
        rw [note_unique hz hnote]
    · rw [hN] at hno
      rw [showAll_other rs ?_ hrep]
      · have := h.vis _ hr q c want hp p rfl hset' x' hcur
        simpa [View.displays] using this
      · intro y hy
        obtain ⟨z, hz, -⟩ := huniq y hy
        exact hno z hz

theorem follows_updates {s : Shape} {σ : Render} {tr : Transformers} {hist : List Json} {v : View}
    (h : Follows s σ tr hist v) (vs : List Json) (hf : ∀ w ∈ vs, Fits s w) :
    ∃ v', v.updates inline vs = .ok v' ∧ Follows s σ tr (vs.reverse ++ hist) v' := by
  induction vs generalizing v hist with
  | nil => exact ⟨v, rfl, h⟩
  | cons w vs ih =>
    obtain ⟨v1, h1, h2⟩ := follows_update (inline := inline) h (hf w (by simp))
    obtain ⟨v2, h3, h4⟩ := ih h2 (fun x hx => hf x (by simp [hx]))
    refine ⟨v2, by simp only [View.updates, h1]; exact h3, ?_⟩
    simpa using h4

end Verif
