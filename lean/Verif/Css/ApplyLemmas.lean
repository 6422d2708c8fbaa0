import Verif.Css.Apply
import Mathlib.Data.List.Perm.Basic
import Mathlib.Tactic.SplitIfs
/-!
# Lemmas about applying computed values (for C47-C50)
-/
namespace Verif

theorem Rect.set_comm {α} (r : Rect α) {s s' : Side} (h : s ≠ s') (v v' : α) : (r.set s v).set s' v' = (r.set s' v').set s v := by
  cases s <;> cases s' <;> first | rfl | exact absurd rfl h

theorem Borders.update_comm (b : Borders) (f g : Border → Border) {s s' : Side} (h : s ≠ s' ∨ ∀ x, f (g x) = g (f x)) :
    (b.update f s).update g s' = (b.update g s').update f s := by
  rcases h with h | h
  · cases s <;> cases s' <;> first | rfl | exact absurd rfl h
  · cases s <;> cases s' <;> simp [Borders.update, h]

theorem Borders.update_setRadius (b : Borders) (f : Border → Border) (s : Side) (v : Length) (c : Corner) :
    (b.update f s).setRadius v c = (b.setRadius v c).update f s := by
  cases s <;> cases c <;> rfl

theorem Borders.setRadius_comm (b : Borders) {c c' : Corner} (h : c ≠ c') (v v' : Length) :
    (b.setRadius v c).setRadius v' c' = (b.setRadius v' c').setRadius v c := by
  cases c <;> cases c' <;> first | rfl | exact absurd rfl h

theorem updateAt_comm {α} (l : List α) (d : α) (f g : α → α) {i j : Nat} (h : i ≠ j ∨ ∀ x, f (g x) = g (f x)) :
    updateAt (updateAt l i d f) j d g = updateAt (updateAt l j d g) i d f := by
  apply List.ext_getElem?
  intro k
  simp only [updateAt_getElem?, updateAt_length]
  by_cases hij : i = j
  · subst hij
    have h : ∀ x, f (g x) = g (f x) := h.resolve_left (fun h => h rfl)
    by_cases hk : k = i
    · simp [hk, h]
    · simp [hk]
  · have hji : j ≠ i := fun e => hij e.symm
    split_ifs <;> first | rfl | omega | simp_all

/-! ## Slots -/

/-- The property that is assigned. -/
def ElementAssign.slot : ElementAssign → PropertyKey
  | .opacity _ => .Opacity
  | .color _ => .Color
  | .fontSize _ => .FontSize
  | .fontWeight _ => .FontWeight
  | .fontFamily _ => .FontFamily
  | .fontStyle _ => .FontStyle
  | .textAlign _ => .TextAlign
  | .pointerEvents _ => .PointerEvents
  | .pointer _ => .Cursor
  | .visible _ => .Visibility

/-- The property that is assigned, if any. -/
def BackgroundAssign.slot : BackgroundAssign → Option PropertyKey
  | .color _ => some .BackgroundColor
  | .image _ => some .BackgroundImage
  | .x _ => some .BackgroundPositionX
  | .y _ => some .BackgroundPositionY
  | .pad => none

/-- The property that is assigned. -/
def TransitionAssign.slot : TransitionAssign → PropertyKey
  | .key _ => .TransitionProperty
  | .duration _ => .TransitionDuration
  | .delay _ => .TransitionDelay
  | .timing _ => .TransitionTimingFunction

/-- The property that is assigned. -/
def AnimatorAssign.slot : AnimatorAssign → PropertyKey
  | .name _ => .AnimationName
  | .delay _ => .AnimationDelay
  | .direction _ => .AnimationDirection
  | .duration _ => .AnimationDuration
  | .fillMode _ => .AnimationFillMode
  | .iterations _ => .AnimationIterationCount
  | .running _ => .AnimationPlayState
  | .timing _ => .AnimationTimingFunction

/-- The property that is assigned. -/
def LayoutAssign.slot : LayoutAssign → PropertyKey
  | .boxSizing _ => .BoxSizing
  | .margin .top _ => .MarginTop
  | .margin .right _ => .MarginRight
  | .margin .bottom _ => .MarginBottom
  | .margin .left _ => .MarginLeft
  | .padding .top _ => .PaddingTop
  | .padding .right _ => .PaddingRight
  | .padding .bottom _ => .PaddingBottom
  | .padding .left _ => .PaddingLeft
  | .display _ => .Display
  | .overflowX _ => .OverflowX
  | .overflowY _ => .OverflowY
  | .position _ => .Position
  | .inset .top _ => .Top
  | .inset .right _ => .Right
  | .inset .bottom _ => .Bottom
  | .inset .left _ => .Left
  | .width _ => .Width
  | .height _ => .Height
  | .minWidth _ => .MinWidth
  | .minHeight _ => .MinHeight
  | .maxWidth _ => .MaxWidth
  | .maxHeight _ => .MaxHeight
  | .alignContent _ => .AlignContent
  | .alignItems _ => .AlignItems
  | .alignSelf _ => .AlignSelf
  | .justifyContent _ => .JustifyContent
  | .justifyItems _ => .JustifyItems
  | .justifySelf _ => .JustifySelf
  | .flexDirection _ => .FlexDirection
  | .flexWrap _ => .FlexWrap
  | .flexBasis _ => .FlexBasis
  | .flexGrow _ => .FlexGrow
  | .flexShrink _ => .FlexShrink
  | .columnGap _ => .ColumnGap
  | .rowGap _ => .RowGap

/-- The property that is assigned, if any. -/
def Assign.slot : Assign → Option PropertyKey
  | .nothing => none
  | .element a => some a.slot
  | .background a => a.slot
  | .borderWidth .top _ => some .BorderTopWidth
  | .borderWidth .right _ => some .BorderRightWidth
  | .borderWidth .bottom _ => some .BorderBottomWidth
  | .borderWidth .left _ => some .BorderLeftWidth
  | .borderColor .top _ => some .BorderTopColor
  | .borderColor .right _ => some .BorderRightColor
  | .borderColor .bottom _ => some .BorderBottomColor
  | .borderColor .left _ => some .BorderLeftColor
  | .radius .topLeft _ => some .BorderTopLeftRadius
  | .radius .topRight _ => some .BorderTopRightRadius
  | .radius .bottomRight _ => some .BorderBottomRightRadius
  | .radius .bottomLeft _ => some .BorderBottomLeftRadius
  | .layout a => some a.slot
  | .transition a => some a.slot
  | .animator a => some a.slot

/-- The assignments of which an element has a list. -/
def Assign.listed : Assign → Bool
  | .background _ => true
  | .transition _ => true
  | .animator _ => true
  | _ => false

theorem arm_slot {α} {k : PropertyKey} {resolve : ComputedValue → Option α} {f : α → Assign} (h : ∀ a, (f a).slot = some k) (v : ComputedValue) :
    (arm resolve f v).1.slot = some k ∨ (arm resolve f v).1 = .nothing ∧ (arm resolve f v).2 = false := by
  unfold arm
  split
  · exact .inl (h _)
  · exact .inr ⟨rfl, rfl⟩

/-- What an arm can assign. -/
theorem assignment_slot (sizes : Sizes) (k : PropertyKey) (v : ComputedValue) :
    (assignment sizes k v).1.slot = some k ∨ (assignment sizes k v).1.slot = none := by
  unfold assignment
  split
  case h_2 => exact .inr rfl
  case h_1 x hx =>
    have hm := List.mem_of_find?_eq_some hx
    have hk := List.find?_some hx
    simp only [beq_iff_eq] at hk
    have key : ∀ y ∈ arms sizes, (y.2 v).1.slot = some y.1 ∨ (y.2 v).1.slot = none := by
      have a : ∀ {α} {k : PropertyKey} {resolve : ComputedValue → Option α} {f : α → Assign}, (∀ a, (f a).slot = some k) →
          (arm resolve f v).1.slot = some k ∨ (arm resolve f v).1.slot = none := by
        intro α k r f h
        rcases arm_slot (resolve := r) h v with h | h
        · exact .inl h
        · exact .inr (by rw [h.1]; rfl)
      have b : ∀ {α} {k : PropertyKey} {resolve : ComputedValue → Option α} {f : α → BackgroundAssign}, (∀ a, (f a).slot = some k) →
          (bgArm resolve f v).1.slot = some k ∨ (bgArm resolve f v).1.slot = none := by
        intro α k r f h
        unfold bgArm
        split
        · exact .inl (h _)
        · exact .inr rfl
      have step : ∀ {y : PropertyKey × (ComputedValue → Assign × Bool)} {l}, ((y.2 v).1.slot = some y.1 ∨ (y.2 v).1.slot = none) →
          (∀ z ∈ l, (z.2 v).1.slot = some z.1 ∨ (z.2 v).1.slot = none) →
          ∀ z ∈ y :: l, (z.2 v).1.slot = some z.1 ∨ (z.2 v).1.slot = none := by
        intro y l h1 h2 z hz
        rcases List.mem_cons.1 hz with rfl | hz
        · exact h1
        · exact h2 z hz
      unfold arms
      repeat' refine step ?_ ?_
      all_goals first | exact a (fun _ => rfl) | exact b (fun _ => rfl) | exact .inr rfl | (intro x hx; cases hx; done)
    rw [← hk]
    exact key x hm

theorem ElementAssign.comm (e : Element) {a b : ElementAssign} (h : a.slot ≠ b.slot) : b.write (a.write e) = a.write (b.write e) := by
  cases a <;> cases b <;> first | rfl | exact absurd rfl h

theorem BackgroundAssign.comm (e : Background) {a b : BackgroundAssign} (h : a.slot ≠ b.slot ∨ a.slot = none) : b.write (a.write e) = a.write (b.write e) := by
  cases a <;> cases b <;> first | rfl | (rcases h with h | h <;> first | exact absurd rfl h | cases h)

theorem TransitionAssign.comm (e : Transition) {a b : TransitionAssign} (h : a.slot ≠ b.slot) : b.write (a.write e) = a.write (b.write e) := by
  cases a <;> cases b <;> first | rfl | exact absurd rfl h

theorem AnimatorAssign.comm (e : Animator) {a b : AnimatorAssign} (h : a.slot ≠ b.slot) : b.write (a.write e) = a.write (b.write e) := by
  cases a <;> cases b <;> first | rfl | exact absurd rfl h

theorem LayoutAssign.comm (e : LayoutStyle) {a b : LayoutAssign} (h : a.slot ≠ b.slot) : b.write (a.write e) = a.write (b.write e) := by
  cases a <;> cases b <;> first
    | rfl
    | exact absurd rfl h
    | (rename_i s v s' v'
       have hs : s ≠ s' := fun e => by subst e; cases s <;> exact h rfl
       simp [LayoutAssign.write, Rect.set_comm _ hs])

/-- Assignments of different properties, or of different entries of a list, can be done in any order. -/
theorem Assign.comm (a b : Assign) (i j : Nat) (l : LayoutStyle) (e : Element)
    (h : a.slot ≠ b.slot ∨ a.slot = none ∨ b.slot = none ∨ (i ≠ j ∧ a.listed = true)) :
    b.write j (a.write i l e).1 (a.write i l e).2 = a.write i (b.write j l e).1 (b.write j l e).2 := by
  cases a with
  | nothing => rfl
  | element a =>
    cases b <;> try rfl
    · rename_i b
      have h : a.slot ≠ b.slot := by
        rcases h with h | h | h | h
        · exact fun e => h (congrArg some e)
        · cases h
        · cases h
        · cases h.2
      simp [Assign.write, ElementAssign.comm _ h]
    all_goals cases a <;> rfl
  | layout a =>
    cases b <;> try rfl
    · cases a <;> rfl
    · rename_i b
      have h : a.slot ≠ b.slot := by
        rcases h with h | h | h | h
        · exact fun e => h (congrArg some e)
        · cases h
        · cases h
        · cases h.2
      simp [Assign.write, LayoutAssign.comm _ h]
  | background a =>
    cases b <;> try rfl
    · rename_i b; cases b <;> rfl
    · rename_i b
      simp only [Assign.write]
      rw [updateAt_comm]
      by_cases hij : i = j
      · right
        intro x
        rcases h with h | h | h | h
        · exact BackgroundAssign.comm x (.inl h.symm)
        · exact (BackgroundAssign.comm x (.inr h)).symm
        · exact BackgroundAssign.comm x (.inr h)
        · exact absurd hij h.1
      · exact .inl hij
  | transition a =>
    cases b <;> try rfl
    · rename_i b; cases b <;> rfl
    · rename_i b
      simp only [Assign.write]
      rw [updateAt_comm]
      by_cases hij : i = j
      · right
        intro x
        rcases h with h | h | h | h
        · exact TransitionAssign.comm x (fun e => h (congrArg some e.symm))
        · cases h
        · cases h
        · exact absurd hij h.1
      · exact .inl hij
  | animator a =>
    cases b <;> try rfl
    · rename_i b; cases b <;> rfl
    · rename_i b
      simp only [Assign.write]
      rw [updateAt_comm]
      by_cases hij : i = j
      · right
        intro x
        rcases h with h | h | h | h
        · exact AnimatorAssign.comm x (fun e => h (congrArg some e.symm))
        · cases h
        · cases h
        · exact absurd hij h.1
      · exact .inl hij
  | borderWidth s v =>
    cases b <;> try rfl
    · rename_i b; cases b <;> rfl
    · rename_i s' v'
      have hs : s ≠ s' := by
        intro e; subst e
        rcases h with h | h | h | h
        · cases s <;> exact h rfl
        · cases s <;> cases h
        · cases s <;> cases h
        · cases h.2
      simp [Assign.write, Rect.set_comm _ hs, Borders.update_comm _ _ _ (.inl hs)]
    · rename_i s' v'
      simp only [Assign.write]
      rw [Borders.update_comm]
      exact .inr fun _ => rfl
    · simp [Assign.write, Borders.update_setRadius]
    · rename_i b; cases b <;> rfl
  | borderColor s v =>
    cases b <;> try rfl
    · rename_i b; cases b <;> rfl
    · rename_i s' v'
      simp only [Assign.write]
      rw [Borders.update_comm]
      exact .inr fun _ => rfl
    · rename_i s' v'
      have hs : s ≠ s' := by
        intro e; subst e
        rcases h with h | h | h | h
        · cases s <;> exact h rfl
        · cases s <;> cases h
        · cases s <;> cases h
        · cases h.2
      simp [Assign.write, Borders.update_comm _ _ _ (.inl hs)]
    · simp [Assign.write, Borders.update_setRadius]
  | radius c v =>
    cases b <;> try rfl
    · rename_i b; cases b <;> rfl
    · simp [Assign.write, Borders.update_setRadius]
    · simp [Assign.write, Borders.update_setRadius]
    · rename_i c' v'
      have hs : c ≠ c' := by
        intro e; subst e
        rcases h with h | h | h | h
        · cases c <;> exact h rfl
        · cases c <;> cases h
        · cases c <;> cases h
        · cases h.2
      simp [Assign.write, Borders.setRadius_comm _ hs]

end Verif
