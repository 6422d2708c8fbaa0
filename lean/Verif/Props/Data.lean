import Verif.Spec.Data
import Verif.Props.Whole
/-!
# C101: data the document does not mention
-/
namespace Verif
open Json

/-- Same notification, up to the contents of array items, and only at paths of arrays. -/
def NoteSameAt (A : String → Prop) (a b : String × Json) : Prop :=
  a.1 = b.1 ∧ (a.2 = b.2 ∨ A a.1 ∧ ∃ la lb, a.2 = .arr la ∧ b.2 = .arr lb ∧ la.length = lb.length)

mutual
theorem notes_agree_at {A : String → Prop} (defs : Defaults) (s : Shape) (dst v w : Json) (base : List Tok) (ap : String) (hok : s.Ok)
    (h : Agree s v w) (hA : ∀ ts sh x, s.read v ts = some (.arr sh, x) → A (ptr (base ++ ts))) :
    Pointwise (NoteSameAt A) (notesOf defs s dst v (ptr base) ap) (notesOf defs s dst w (ptr base) ap) := by
  cases s with
  | leaf =>
    simp only [Agree] at h
    subst h
    simp only [notesOf]
    split
    · exact .cons ⟨rfl, Or.inl rfl⟩ .nil
    · exact .nil
  | arr s =>
    simp only [Agree] at h
    simp only [Shape.Ok] at hok
    simp only [notesOf]
    apply Pointwise.append
    · rw [h.1]
      by_cases hn : (items dst).length = (items w).length
      · simp only [hn, ne_eq, not_true_eq_false, if_false]; exact .nil
      · simp only [hn, ne_eq, not_false_eq_true, if_true]
        exact .cons ⟨rfl, Or.inr ⟨by simpa using hA [] s v rfl, _, _, rfl, rfl, h.1⟩⟩ .nil
    · rw [h.1]
      generalize padTo defs ap (items dst) (items w).length = ds
      have key : ∀ (ds lv lw : List Json) (i : Nat), lv.length = lw.length →
          (∀ (j : Nat) a b, lv[j]? = some a → lw[j]? = some b → Agree s a b) →
          (∀ (j : Nat) a, lv[j]? = some a → (items v)[i + j]? = some a) →
          Pointwise (NoteSameAt A)
            (((ds.zip lv).zipIdx i).flatMap (fun p => notesOf defs s p.1.1 p.1.2 (sub (ptr base) (toString p.2)) ap))
            (((ds.zip lw).zipIdx i).flatMap (fun p => notesOf defs s p.1.1 p.1.2 (sub (ptr base) (toString p.2)) ap)) := by
        intro ds
        induction ds with
        | nil => intro lv lw i _ _ _; simp; exact .nil
        | cons d ds ih =>
          intro lv lw i hl ha hi
          cases lv with
          | nil =>
            cases lw with
            | nil => simp; exact .nil
            | cons _ _ => simp at hl
          | cons x lv =>
            cases lw with
            | nil => simp at hl
            | cons y lw =>
              simp only [List.zip_cons_cons, List.zipIdx_cons, List.flatMap_cons]
              apply Pointwise.append
              · rw [show sub (ptr base) (toString i) = ptr (base ++ [.idx i]) from sub_ptr base (.idx i)]
                refine notes_agree_at defs s d x y _ ap hok (ha 0 x y rfl rfl) ?_
                intro ts sh z hz
                rw [List.append_assoc]
                refine hA (.idx i :: ts) sh z ?_
                rw [Shape.read, show (items v)[i]? = some x from hi 0 x rfl]
                exact hz
              · exact ih lv lw (i + 1) (by simpa using hl)
                  (fun j a b h1 h2 => ha (j + 1) a b (by simpa using h1) (by simpa using h2))
                  (fun j a h1 => by rw [show i + 1 + j = i + (j + 1) by omega]; exact hi (j + 1) a (by simpa using h1))
      exact key ds (items v) (items w) 0 h.1 h.2 (fun j a h1 => by simpa using h1)
  | obj fs =>
    have hp := agree_project _ _ _ h
    simp only [Agree] at h
    simp only [Shape.Ok] at hok
    simp only [notesOf]
    apply Pointwise.append
    · refine notesFields_agree_at defs fs dst v w base ap hok.1 hok.2 h.2 ?_
      intro k s ts sh x hk hx
      exact hA (.key k :: ts) sh x (by rw [Shape.read, hk]; exact hx)
    · rw [hp]
      have : (if v = .null then Json.null else .obj []) = (if w = .null then Json.null else .obj []) := by
        by_cases hv : v = .null
        · simp [hv, h.1.1 hv]
        · have hw : w ≠ .null := fun hw => hv (h.1.2 hw)
          simp [hv, hw]
      rw [this]
      split
      · exact .cons ⟨rfl, Or.inl rfl⟩ .nil
      · exact .nil
theorem notesFields_agree_at {A : String → Prop} (defs : Defaults) (fs : List (String × Shape)) (dst v w : Json) (base : List Tok) (ap : String)
    (hn : (fs.map Prod.fst).Nodup) (hok : Shape.OkFields fs) (h : AgreeFields fs v w)
    (hA : ∀ k s ts sh x, Shape.field fs k = some s → s.read (member v k) ts = some (.arr sh, x) → A (ptr (base ++ .key k :: ts))) :
    Pointwise (NoteSameAt A) (notesFields defs fs dst v (ptr base) ap) (notesFields defs fs dst w (ptr base) ap) := by
  cases fs with
  | nil => exact .nil
  | cons q fs =>
    obtain ⟨k, s⟩ := q
    simp only [AgreeFields] at h
    simp only [Shape.OkFields] at hok
    simp only [List.map_cons, List.nodup_cons] at hn
    simp only [notesFields]
    refine Pointwise.append ?_ (notesFields_agree_at defs fs dst v w base ap hn.2 hok.2.2 h.2 ?_)
    · rw [show sub (ptr base) k = ptr (base ++ [.key k]) from sub_ptr base (.key k)]
      refine notes_agree_at defs s _ _ _ _ _ hok.2.1 h.1 ?_
      intro ts sh x hx
      rw [List.append_assoc]
      exact hA k s ts sh x (by simp [Shape.field]) hx
    · intro k' s' ts sh x hk hx
      refine hA k' s' ts sh x ?_ hx
      have hne : k ≠ k' := by
        rintro rfl
        exact hn.1 (List.mem_map.2 ⟨_, field_eq hk, rfl⟩)
      unfold Shape.field at hk ⊢
      rw [List.find?_cons_of_neg (by simpa using hne)]
      exact hk
end

theorem reactions_agree_at {A : String → Prop} (bindings : Bindings) (tr : Transformers) (hp : ∀ path, A path → ∀ b ∈ bindings path, b.pipe = [])
    {l m : List (String × Json)} (h : Pointwise (NoteSameAt A) l m) : l.flatMap (reactAt bindings tr) = m.flatMap (reactAt bindings tr) := by
  induction h with
  | nil => rfl
  | cons hab _ ih =>
    simp only [List.flatMap_cons, ih]
    congr 1
    unfold reactAt
    rw [hab.1]
    apply List.map_congr_left
    intro b hb
    rcases hab.2 with e | ⟨ha, la, lb, e1, e2, hl⟩
    · rw [e]
    · rw [← hab.1] at hb
      exact react_noteSame b (hp _ ha b hb) tr ⟨hab.1, .inr ⟨la, lb, e1, e2, hl⟩⟩

theorem bind_agree {s : Shape} {vm : ViewModel} (h : Good s vm) (hp : NoPipedArrays s vm.bindings) {v w : Json} (hv : Fits s v) (hw : Fits s w)
    (ha : Agree s v w) : vm.bind v = vm.bind w := by
  rw [bind_good h hv, bind_good h hw, agree_project s v w ha]
  have := notes_agree_at (A := fun path => ∃ ts sh v x, s.read v ts = some (.arr sh, x) ∧ path = ptr ts) vm.defaults s vm.model v w [] "" h.ok ha
    (fun ts sh x hx => ⟨ts, sh, v, x, hx, rfl⟩)
  rw [ptr_nil] at this
  rw [reactions_agree_at vm.bindings vm.transformers (by rintro _ ⟨ts, sh, v, x, hx, rfl⟩ b hb; exact hp ts sh v x hx b hb) this]

variable {p : Platform}

/-- The view model of a program, with the shape of its model, after an update. -/
theorem App.update_good {s : Shape} {a a' : App} {fuel : Nat} {order : FrameOrder} {input : Input} {value : Json} {out : Output} (hf : Fits s value)
    (h : Good s a.screen.view.vm) (hu : a.update p fuel order input value = .ok (a', out)) :
    Good s a'.screen.view.vm ∧ a'.screen.view.vm.bindings = a.screen.view.vm.bindings := by
  unfold App.update at hu
  have hb := bind_good h hf
  split at hu
  · cases hu
  · rename_i v hv
    have hvm : v.vm = { a.screen.view.vm with model := project s value } := by
      unfold View.update at hv
      rw [hb] at hv
      simp only at hv
      split at hv
      · cases hv
      · simp only [Except.ok.injEq] at hv
        rw [← hv]
    have key : a'.screen.view.vm = v.vm := by
      simp only at hu
      split at hu
      · cases hu
      · split at hu
        · cases hu
        · split at hu
          · cases hu
          · simp only [Except.ok.injEq, Prod.mk.injEq] at hu
            obtain ⟨rfl, -⟩ := hu
            rfl
    rw [key, hvm]
    exact ⟨good_next h hf, rfl⟩

theorem run_agree {s : Shape} {fuel : Nat} {fs fs' : List Frame} (h : List.Forall₂ (Frame.SameData s) fs fs') :
    ∀ {a : App}, Good s a.screen.view.vm → NoPipedArrays s a.screen.view.vm.bindings → a.run p fuel fs = a.run p fuel fs' := by
  induction h with
  | nil => intro a _ _; rfl
  | cons hf _ ih =>
    rename_i f f' fs fs' _
    intro a hg hp
    have hb : a.update p fuel f'.order f'.input f'.value = a.update p fuel f.order f.input f.value := by
      rw [hf.order, hf.input]
      unfold App.update View.update
      rw [bind_agree hg hp hf.fits hf.fits' hf.agree]
    simp only [App.run, hb]
    cases hu : a.update p fuel f.order f.input f.value with
    | error e => rfl
    | ok r =>
      obtain ⟨a1, out⟩ := r
      obtain ⟨h1, h2⟩ := App.update_good hf.fits hg hu
      simp only
      rw [ih h1 (by rw [h2]; exact hp)]

/-- **C101.** A program that is given two series of values, which agree on everything the document mentions, does the same in both: all
outputs, all failures and everything it keeps are equal. -/
theorem C101_unmentioned_data_invisible {fuel fuel' : Nat} {document : Html} {css : Css} {a : App} (ho : openApp p fuel document css = .ok a)
    {s : Shape} (hok : s.Ok) (hno : s.NoArrArr) (hs : HasShape s a.screen.view.vm.model) (hp : NoPipedArrays s a.screen.view.vm.bindings)
    {fs fs' : List Frame} (h : List.Forall₂ (Frame.SameData s) fs fs') : a.run p fuel' fs = a.run p fuel' fs' := by
  refine run_agree h ?_ hp
  obtain ⟨σ, h⟩ := openApp_opened ho
  have hv := h.view
  unfold openView at hv
  simp only at hv
  split at hv
  · cases hv
  · split at hv
    · cases hv
    · rename_i vm hc
      split at hv
      · cases hv
      · simp only [Except.ok.injEq] at hv
        rw [← hv] at hs ⊢
        refine create_good hok hno ?_ hc
        unfold ViewModel.create at hc
        rw [Option.map_eq_some_iff] at hc
        obtain ⟨d, -, rfl⟩ := hc
        exact hs

end Verif
