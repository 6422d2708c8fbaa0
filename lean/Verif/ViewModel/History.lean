import Verif.ViewModel.Idem
/-!
# Histories of updates: helper definitions and lemmas
-/
namespace Verif
open Json

/-- A sequence of updates (`view.rs` calls `bind` once per update). -/
def ViewModel.binds (vm : ViewModel) : List Json → Option ViewModel
  | [] => some vm
  | v :: vs => (vm.bind v).bind fun r => r.1.binds vs

/-- Invariant of a view model over a template of shape `s`. -/
structure Good (s : Shape) (vm : ViewModel) : Prop where
  ok : s.Ok
  model : HasShape s vm.model
  defaults : DefOk vm.defaults s ""

theorem ptr_nil : ptr [] = "" := rfl

theorem create_good {s : Shape} {bindings m0 tr vm} (hok : s.Ok) (hno : s.NoArrArr)
    (hs : HasShape s m0) (h : ViewModel.create bindings m0 tr = some vm) : Good s vm := by
  unfold ViewModel.create at h
  rw [Option.map_eq_some_iff] at h
  obtain ⟨d, hd, rfl⟩ := h
  refine ⟨hok, hs, ?_⟩
  have := memorize_defOk s m0 [] (fun _ => none) d hok hno hs (by rw [ptr_nil]; exact hd)
  rw [ptr_nil] at this; exact this

theorem bind_good {s : Shape} {vm : ViewModel} (h : Good s vm) {v : Json} (hf : Fits s v) :
    vm.bind v = some ({ vm with model := project s v },
      (notesOf vm.defaults s vm.model v "" "").flatMap (reactAt vm.bindings vm.transformers)) := by
  unfold ViewModel.bind
  rw [bindValue_spec vm.defaults s vm.model v "" "" h.ok h.model hf h.defaults]
  rfl

theorem good_next {s : Shape} {vm : ViewModel} (h : Good s vm) {v : Json} (hf : Fits s v) :
    Good s { vm with model := project s v } :=
  ⟨h.ok, project_hasShape s v hf, h.defaults⟩

theorem binds_good {s : Shape} {vm : ViewModel} (h : Good s vm) {vs : List Json}
    (hf : ∀ v ∈ vs, Fits s v) :
    vm.binds vs = some { vm with model := (vs.map (project s)).getLast?.getD vm.model } := by
  induction vs generalizing vm with
  | nil => simp [ViewModel.binds]
  | cons v vs ih =>
    simp only [ViewModel.binds]
    rw [bind_good h (hf v (by simp))]
    simp only [Option.bind_some]
    rw [ih (good_next h (hf v (by simp))) (fun w hw => hf w (by simp [hw]))]
    simp [List.getLast?_cons]

theorem good_binds {s : Shape} {vm vm' : ViewModel} (h : Good s vm) {vs : List Json}
    (hf : ∀ v ∈ vs, Fits s v) (hb : vm.binds vs = some vm') : Good s vm' := by
  induction vs generalizing vm with
  | nil => simp [ViewModel.binds] at hb; subst hb; exact h
  | cons v vs ih =>
    simp only [ViewModel.binds] at hb
    rw [bind_good h (hf v (by simp))] at hb
    simp only [Option.bind_some] at hb
    exact ih (good_next h (hf v (by simp))) (fun w hw => hf w (by simp [hw])) hb

theorem binds_frame {vm vm' : ViewModel} {vs : List Json} (h : vm.binds vs = some vm') :
    vm'.bindings = vm.bindings ∧ vm'.defaults = vm.defaults ∧ vm'.transformers = vm.transformers := by
  induction vs generalizing vm with
  | nil => simp [ViewModel.binds] at h; subst h; simp
  | cons v vs ih =>
    simp only [ViewModel.binds, Option.bind_eq_some_iff] at h
    obtain ⟨⟨vm1, rs⟩, h1, h2⟩ := h
    unfold ViewModel.bind at h1
    rw [Option.map_eq_some_iff] at h1
    obtain ⟨b, -, e⟩ := h1
    simp only [Prod.mk.injEq] at e
    rw [← e.1] at h2
    have := ih h2
    simpa using this

theorem defOkFields_mem {defs : Defaults} {fs : List (String × Shape)} {ap : String}
    (h : DefOkFields defs fs ap) {k s} (hk : (k, s) ∈ fs) : DefOk defs s (sub ap k) := by
  induction fs with
  | nil => simp at hk
  | cons p fs ih =>
    obtain ⟨k', s'⟩ := p
    simp only [DefOkFields] at h
    rcases List.mem_cons.1 hk with e | hk
    · injection e with e1 e2; subst e1; subst e2; exact h.1
    · exact ih h.2 hk

theorem okFields_shape {fs : List (String × Shape)} (h : Shape.OkFields fs) {k s} (hk : (k, s) ∈ fs) :
    s.Ok := by
  induction fs with
  | nil => simp at hk
  | cons p fs ih =>
    obtain ⟨k', s'⟩ := p
    simp only [Shape.OkFields] at h
    rcases List.mem_cons.1 hk with e | hk
    · injection e with e1 e2; subst e2; exact h.2.1
    · exact ih h.2.2 hk

theorem prior_defined (defs : Defaults) (path : List Tok) (s : Shape) (dst v : Json) (ap : String)
    (hok : s.Ok) (hs : HasShape s dst) (hd : DefOk defs s ap) {part value}
    (hr : s.read v path = some (part, value)) : ∃ before, prior defs ap dst path = some before := by
  induction path generalizing s dst v ap with
  | nil => exact ⟨dst, by simp [prior]⟩
  | cons t ts ih =>
    cases s with
    | leaf => simp [Shape.read] at hr
    | arr s =>
      cases t with
      | key k => simp [Shape.read] at hr
      | idx i =>
        obtain ⟨l, rfl, hl⟩ := by simpa only [HasShape] using hs
        simp only [DefOk] at hd
        obtain ⟨⟨d, hdd, hds⟩, hd'⟩ := hd
        simp only [Shape.Ok] at hok
        simp only [Shape.read, Option.bind_eq_some_iff] at hr
        obtain ⟨x, -, hr⟩ := hr
        simp only [prior]
        cases hi : l[i]? with
        | none => simp only [hdd, Option.bind_some]; exact ih s d x ap hok hds hd' hr
        | some y => exact ih s y x ap hok (hl y (List.mem_of_getElem? hi)) hd' hr
    | obj fs =>
      cases t with
      | idx i => simp [Shape.read] at hr
      | key k =>
        obtain ⟨l, rfl, hl⟩ := by simpa only [HasShape] using hs
        simp only [DefOk] at hd
        simp only [Shape.Ok] at hok
        simp only [Shape.read, Option.bind_eq_some_iff] at hr
        obtain ⟨s', hk, hr⟩ := hr
        have hm := hasFields_member hl hok.1 k s' (field_eq hk)
        simp only [prior]
        cases hg : get l k with
        | none =>
          rw [get_eq_none, hasFields_get hl] at hg
          exact absurd (List.mem_map.2 ⟨_, field_eq hk, rfl⟩) hg
        | some y =>
          simp only [member, hg, Option.getD_some] at hm
          simp only [Option.bind_some]
          exact ih s' y _ (sub ap k) (okFields_shape hok.2 (field_eq hk)) hm
            (defOkFields_mem hd (field_eq hk)) hr

/-! ### values that agree on a shape -/

mutual
theorem agree_project (s : Shape) (v w : Json) (h : Agree s v w) : project s v = project s w := by
  cases s with
  | leaf => simpa [project, Agree] using h
  | arr s =>
    simp only [Agree] at h
    simp only [project, Json.arr.injEq]
    apply List.ext_getElem (by simpa using h.1)
    intro i h1 h2
    simp only [List.length_map] at h1 h2
    simp only [List.getElem_map]
    exact agree_project s _ _ (h.2 i _ _ (List.getElem?_eq_getElem h1) (List.getElem?_eq_getElem h2))
  | obj fs =>
    simp only [Agree] at h
    simp only [project, Json.obj.injEq]
    exact agree_projectFields fs v w h.2
theorem agree_projectFields (fs : List (String × Shape)) (v w : Json) (h : AgreeFields fs v w) :
    projectFields fs v = projectFields fs w := by
  cases fs with
  | nil => rfl
  | cons p fs =>
    obtain ⟨k, s⟩ := p
    simp only [AgreeFields] at h
    simp only [projectFields]
    rw [agree_project s _ _ h.1, agree_projectFields fs v w h.2]
end

/-- Same notification, up to the contents of array items. -/
def NoteSame (a b : String × Json) : Prop :=
  a.1 = b.1 ∧ (a.2 = b.2 ∨ ∃ la lb, a.2 = .arr la ∧ b.2 = .arr lb ∧ la.length = lb.length)

/-- Pointwise relation of two lists. -/
inductive Pointwise {α β} (R : α → β → Prop) : List α → List β → Prop
  | nil : Pointwise R [] []
  | cons {a b l m} : R a b → Pointwise R l m → Pointwise R (a :: l) (b :: m)

theorem Pointwise.append {α β} {R : α → β → Prop} {a b c d} (h1 : Pointwise R a b)
    (h2 : Pointwise R c d) : Pointwise R (a ++ c) (b ++ d) := by
  induction h1 with
  | nil => exact h2
  | cons h _ ih => exact .cons h ih

mutual
theorem notes_agree (defs : Defaults) (s : Shape) (dst v w : Json) (path ap : String)
    (h : Agree s v w) :
    Pointwise NoteSame (notesOf defs s dst v path ap) (notesOf defs s dst w path ap) := by
  cases s with
  | leaf =>
    simp only [Agree] at h
    subst h
    simp only [notesOf]
    split
    · exact .cons ⟨rfl, Or.inl rfl⟩ .nil
    · exact .nil
  | arr s =>
    simp only [Agree] at h
    simp only [notesOf]
    apply Pointwise.append
    · rw [h.1]
      by_cases hn : (items dst).length = (items w).length
      · simp only [hn, ne_eq, not_true_eq_false, if_false]; exact .nil
      · simp only [hn, ne_eq, not_false_eq_true, if_true]
        exact .cons ⟨rfl, Or.inr ⟨_, _, rfl, rfl, h.1⟩⟩ .nil
    · rw [h.1]
      generalize padTo defs ap (items dst) (items w).length = ds
      have key : ∀ (ds lv lw : List Json) (i : Nat), lv.length = lw.length →
          (∀ (j : Nat) a b, lv[j]? = some a → lw[j]? = some b → Agree s a b) →
          Pointwise NoteSame
            (((ds.zip lv).zipIdx i).flatMap
              (fun p => notesOf defs s p.1.1 p.1.2 (sub path (toString p.2)) ap))
            (((ds.zip lw).zipIdx i).flatMap
              (fun p => notesOf defs s p.1.1 p.1.2 (sub path (toString p.2)) ap)) := by
        intro ds
        induction ds with
        | nil => intro lv lw i _ _; simp; exact .nil
        | cons d ds ih =>
          intro lv lw i hl ha
          cases lv with
          | nil =>
            cases lw with
            | nil => simp; exact .nil
            | cons _ _ => simp at hl
          | cons x lv =>
            cases lw with
            | nil => simp at hl
            | cons y lw =>
              simp only [List.zip_cons_cons, List.zipIdx_cons, List.flatMap_cons]
              apply Pointwise.append
              · exact notes_agree defs s d x y _ ap (ha 0 x y rfl rfl)
              · exact ih lv lw (i + 1) (by simpa using hl)
                  (fun j a b h1 h2 => ha (j + 1) a b (by simpa using h1) (by simpa using h2))
      exact key ds (items v) (items w) 0 h.1 h.2
  | obj fs =>
    have hp := agree_project _ _ _ h
    simp only [Agree] at h
    simp only [notesOf]
    apply Pointwise.append
    · exact notesFields_agree defs fs dst v w path ap h.2
    · rw [hp]
      have : (if v = .null then Json.null else .obj []) = (if w = .null then Json.null else .obj []) := by
        by_cases hv : v = .null
        · simp [hv, h.1.1 hv]
        · have hw : w ≠ .null := fun hw => hv (h.1.2 hw)
          simp [hv, hw]
      rw [this]
      split
      · exact .cons ⟨rfl, Or.inl rfl⟩ .nil
      · exact .nil
theorem notesFields_agree (defs : Defaults) (fs : List (String × Shape)) (dst v w : Json)
    (path ap : String) (h : AgreeFields fs v w) :
    Pointwise NoteSame (notesFields defs fs dst v path ap) (notesFields defs fs dst w path ap) := by
  cases fs with
  | nil => exact .nil
  | cons p fs =>
    obtain ⟨k, s⟩ := p
    simp only [AgreeFields] at h
    simp only [notesFields]
    exact Pointwise.append (notes_agree defs s _ _ _ _ _ h.1) (notesFields_agree defs fs dst v w path ap h.2)
end

theorem react_noteSame (b : Binding) (hp : b.pipe = []) (tr : Transformers) {a c : String × Json}
    (h : NoteSame a c) : b.react (applyPipe tr b.pipe a.2) = b.react (applyPipe tr b.pipe c.2) := by
  rw [hp]
  simp only [applyPipe, List.foldl_nil]
  rcases h.2 with e | ⟨la, lb, e1, e2, hl⟩
  · rw [e]
  · rw [e1, e2]
    have h1 : (Json.arr la).evalBoolean = (Json.arr lb).evalBoolean := by simp [evalBoolean, hl]
    have h2 : (Json.arr la).evalString = (Json.arr lb).evalString := rfl
    unfold Binding.react
    cases b.params <;> simp only [h1, h2, hl]

theorem reactions_agree (bindings : Bindings) (tr : Transformers)
    (hp : ∀ p b, b ∈ bindings p → b.pipe = []) {l m : List (String × Json)}
    (h : Pointwise NoteSame l m) :
    l.flatMap (reactAt bindings tr) = m.flatMap (reactAt bindings tr) := by
  induction h with
  | nil => rfl
  | cons hab _ ih =>
    simp only [List.flatMap_cons, ih]
    congr 1
    unfold reactAt
    rw [hab.1]
    apply List.map_congr_left
    intro b hb
    exact react_noteSame b (hp _ b hb) tr hab

end Verif
