import Verif.Css.ApplyLemmas
import Verif.Css.ComputeLemmas
/-!
# What stands in a styled element (for C43, C47-C50)

`a.read index l e` is the assignment of the same property as `a` with the value that stands there now.
-/
namespace Verif

/-- The current value of a property of an element. -/
def ElementAssign.read (e : Element) : ElementAssign → ElementAssign
  | .opacity _ => .opacity e.selfOpacity
  | .color _ => .color e.color
  | .fontSize _ => .fontSize e.font.size
  | .fontWeight _ => .fontWeight e.font.weight
  | .fontFamily _ => .fontFamily e.font.family
  | .fontStyle _ => .fontStyle e.font.style
  | .textAlign _ => .textAlign e.font.align
  | .pointerEvents _ => .pointerEvents e.pointerEvents
  | .pointer _ => .pointer e.pointer
  | .visible _ => .visible e.visible

/-- The current value of a property of a background. -/
def BackgroundAssign.read (b : Background) : BackgroundAssign → BackgroundAssign
  | .color _ => .color b.color
  | .image _ => .image b.image
  | .x _ => .x b.srcX
  | .y _ => .y b.srcY
  | .pad => .pad

/-- The current value of a property of a transition; `none` is read as what is asked for. -/
def TransitionAssign.read (t : Transition) : TransitionAssign → Option TransitionAssign
  | .key _ => t.key.map .key
  | .duration _ => some (.duration t.animator.duration)
  | .delay _ => some (.delay t.animator.delay)
  | .timing _ => some (.timing t.animator.timing)

/-- The current value of a property of an animator. -/
def AnimatorAssign.read (t : Animator) : AnimatorAssign → AnimatorAssign
  | .name _ => .name t.name
  | .delay _ => .delay t.delay
  | .direction _ => .direction t.direction
  | .duration _ => .duration t.duration
  | .fillMode _ => .fillMode t.fillMode
  | .iterations _ => .iterations t.iterations
  | .running _ => .running t.running
  | .timing _ => .timing t.timing

/-- The current value of a layout property. -/
def LayoutAssign.read (l : LayoutStyle) : LayoutAssign → LayoutAssign
  | .boxSizing _ => .boxSizing l.boxSizing
  | .margin s _ => .margin s (l.margin.get s)
  | .padding s _ => .padding s (l.padding.get s)
  | .display _ => .display l.display
  | .overflowX _ => .overflowX l.overflowX
  | .overflowY _ => .overflowY l.overflowY
  | .position _ => .position l.position
  | .inset s _ => .inset s (l.inset.get s)
  | .width _ => .width l.width
  | .height _ => .height l.height
  | .minWidth _ => .minWidth l.minWidth
  | .minHeight _ => .minHeight l.minHeight
  | .maxWidth _ => .maxWidth l.maxWidth
  | .maxHeight _ => .maxHeight l.maxHeight
  | .alignContent _ => .alignContent l.alignContent
  | .alignItems _ => .alignItems l.alignItems
  | .alignSelf _ => .alignSelf l.alignSelf
  | .justifyContent _ => .justifyContent l.justifyContent
  | .justifyItems _ => .justifyItems l.justifyItems
  | .justifySelf _ => .justifySelf l.justifySelf
  | .flexDirection _ => .flexDirection l.flexDirection
  | .flexWrap _ => .flexWrap l.flexWrap
  | .flexBasis _ => .flexBasis l.flexBasis
  | .flexGrow _ => .flexGrow l.flexGrow
  | .flexShrink _ => .flexShrink l.flexShrink
  | .columnGap _ => .columnGap l.gapWidth
  | .rowGap _ => .rowGap l.gapHeight

/-- The current value of a property; for lists the entry number `index`, if there is one. -/
def Assign.read (index : Nat) (s : LayoutStyle × Element) : Assign → Option Assign
  | .nothing => some .nothing
  | .element a => some (.element (a.read s.2))
  | .background a => (s.2.backgrounds[index]?).map fun b => .background (a.read b)
  | .borderWidth d _ => some (.borderWidth d (s.2.borders.side d).width)
  | .borderColor d _ => some (.borderColor d (s.2.borders.side d).color)
  | .radius c _ => some (.radius c (s.2.borders.radius c))
  | .layout a => some (.layout (a.read s.1))
  | .transition a => (s.2.transitions[index]?).bind fun b => (a.read b).map .transition
  | .animator a => (s.2.animators[index]?).map fun b => .animator (a.read b)

theorem Rect.get_set_same {α} (r : Rect α) (s : Side) (v : α) : (r.set s v).get s = v := by cases s <;> rfl
theorem Rect.get_set_other {α} (r : Rect α) {s s' : Side} (h : s ≠ s') (v : α) : (r.set s v).get s' = r.get s' := by
  cases s <;> cases s' <;> first | rfl | exact absurd rfl h

/-- What was assigned stands there. -/
theorem Assign.read_write (index : Nat) (l : LayoutStyle) (e : Element) (a : Assign) : a.read index (a.write index l e) = some a := by
  cases a with
  | nothing => rfl
  | element a => cases a <;> rfl
  | background a =>
    simp only [Assign.read, Assign.write, updateAt_getElem?, if_true, Option.map_some]
    cases a <;> rfl
  | borderWidth s v => cases s <;> rfl
  | borderColor s v => cases s <;> rfl
  | radius c v => cases c <;> rfl
  | layout a => cases a <;> simp [Assign.read, Assign.write, LayoutAssign.read, LayoutAssign.write, Rect.get_set_same]
  | transition a =>
    simp only [Assign.read, Assign.write, updateAt_getElem?, if_true, Option.bind_some]
    cases a <;> rfl
  | animator a =>
    simp only [Assign.read, Assign.write, updateAt_getElem?, if_true, Option.map_some]
    cases a <;> rfl

theorem LayoutAssign.read_other (l : LayoutStyle) {a b : LayoutAssign} (h : a.slot ≠ b.slot) : a.read (b.write l) = a.read l := by
  cases a <;> cases b <;> first
    | rfl
    | exact absurd rfl h
    | (rename_i s v s' v'
       have hs : s' ≠ s := fun e => by subst e; cases s' <;> exact h rfl
       simp [LayoutAssign.write, LayoutAssign.read, Rect.get_set_other _ hs])

/-- What is not assigned stays. (An entry of a list can come into being.) -/
theorem Assign.read_other (i j : Nat) (l : LayoutStyle) (e : Element) (a b : Assign)
    (h : a.slot ≠ b.slot ∨ (i ≠ j ∧ a.listed = true)) (ha : a.slot ≠ none) :
    a.read i (b.write j l e) = a.read i (l, e) ∨ (a.listed = true ∧ a.read i (l, e) = none) := by
  cases a with
  | nothing => exact absurd rfl ha
  | element a =>
    left
    replace h : (Assign.element a).slot ≠ b.slot := by
      rcases h with h | h
      · exact h
      · cases h.2
    cases b <;> try rfl
    rename_i b
    cases a <;> cases b <;> first | rfl | exact absurd rfl h
  | layout a =>
    left
    replace h : (Assign.layout a).slot ≠ b.slot := by
      rcases h with h | h
      · exact h
      · cases h.2
    cases b <;> try rfl
    · rename_i b
      simp only [Assign.read, Assign.write]
      rw [LayoutAssign.read_other l (fun e => h (congrArg some e))]
  | borderWidth s v =>
    left
    replace h : (Assign.borderWidth s v).slot ≠ b.slot := by
      rcases h with h | h
      · exact h
      · cases h.2
    cases b <;> try rfl
    · rename_i b; cases b <;> rfl
    · rename_i s' v'
      cases s <;> cases s' <;> first | rfl | exact absurd rfl h
    · rename_i s' v'
      cases s <;> cases s' <;> rfl
    · rename_i c v'
      cases s <;> cases c <;> rfl
  | borderColor s v =>
    left
    replace h : (Assign.borderColor s v).slot ≠ b.slot := by
      rcases h with h | h
      · exact h
      · cases h.2
    cases b <;> try rfl
    · rename_i b; cases b <;> rfl
    · rename_i s' v'
      cases s <;> cases s' <;> rfl
    · rename_i s' v'
      cases s <;> cases s' <;> first | rfl | exact absurd rfl h
    · rename_i c v'
      cases s <;> cases c <;> rfl
  | radius c v =>
    left
    replace h : (Assign.radius c v).slot ≠ b.slot := by
      rcases h with h | h
      · exact h
      · cases h.2
    cases b <;> try rfl
    · rename_i b; cases b <;> rfl
    · rename_i s' v'
      cases s' <;> cases c <;> rfl
    · rename_i s' v'
      cases s' <;> cases c <;> rfl
    · rename_i c' v'
      cases c <;> cases c' <;> first | rfl | exact absurd rfl h
  | background a =>
    cases b <;> try exact .inl rfl
    · rename_i b; cases b <;> exact .inl rfl
    · rename_i b
      by_cases hl : i < e.backgrounds.length
      · left
        simp only [Assign.read, Assign.write, updateAt_getElem?]
        by_cases hij : i = j
        · subst hij
          have h : (Assign.background a).slot ≠ (Assign.background b).slot := h.resolve_right (fun h => h.1 rfl)
          simp only [if_true, List.getElem?_eq_getElem hl, Option.getD_some, Option.map_some]
          cases a <;> cases b <;> first | rfl | exact absurd rfl h | exact absurd rfl ha
        · simp [hij, hl]
      · right
        simp [Assign.read, Assign.listed, List.getElem?_eq_none (Nat.le_of_not_lt hl)]
  | transition a =>
    cases b <;> try exact .inl rfl
    · rename_i b; cases b <;> exact .inl rfl
    · rename_i b
      by_cases hl : i < e.transitions.length
      · left
        simp only [Assign.read, Assign.write, updateAt_getElem?]
        by_cases hij : i = j
        · subst hij
          have h : (Assign.transition a).slot ≠ (Assign.transition b).slot := h.resolve_right (fun h => h.1 rfl)
          simp only [if_true, List.getElem?_eq_getElem hl, Option.getD_some, Option.bind_some]
          cases a <;> cases b <;> first | rfl | exact absurd rfl h
        · simp [hij, hl]
      · right
        simp [Assign.read, Assign.listed, List.getElem?_eq_none (Nat.le_of_not_lt hl)]
  | animator a =>
    cases b <;> try exact .inl rfl
    · rename_i b; cases b <;> exact .inl rfl
    · rename_i b
      by_cases hl : i < e.animators.length
      · left
        simp only [Assign.read, Assign.write, updateAt_getElem?]
        by_cases hij : i = j
        · subst hij
          have h : (Assign.animator a).slot ≠ (Assign.animator b).slot := h.resolve_right (fun h => h.1 rfl)
          simp only [if_true, List.getElem?_eq_getElem hl, Option.getD_some, Option.map_some]
          cases a <;> cases b <;> first | rfl | exact absurd rfl h
        · simp [hij, hl]
      · right
        simp [Assign.read, Assign.listed, List.getElem?_eq_none (Nat.le_of_not_lt hl)]

/-- Only what has an arm is assigned, and it is listed or not by its property. -/
def listedKeys : List PropertyKey :=
  [.BackgroundColor, .BackgroundImage, .BackgroundPositionX, .BackgroundPositionY,
   .TransitionProperty, .TransitionDuration, .TransitionDelay, .TransitionTimingFunction,
   .AnimationName, .AnimationDelay, .AnimationDirection, .AnimationDuration, .AnimationFillMode, .AnimationIterationCount,
   .AnimationPlayState, .AnimationTimingFunction]

theorem Assign.listed_iff {a : Assign} {k : PropertyKey} (h : a.slot = some k) : a.listed = true ↔ k ∈ listedKeys := by
  cases a with
  | nothing => cases h
  | element a => cases a <;> (cases h; simp [Assign.listed, listedKeys, ElementAssign.slot, LayoutAssign.slot, TransitionAssign.slot, AnimatorAssign.slot])
  | background a => cases a <;> (cases h; try simp [Assign.listed, listedKeys, ElementAssign.slot, LayoutAssign.slot, TransitionAssign.slot, AnimatorAssign.slot])
  | borderWidth s v => cases s <;> (cases h; simp [Assign.listed, listedKeys, ElementAssign.slot, LayoutAssign.slot, TransitionAssign.slot, AnimatorAssign.slot])
  | borderColor s v => cases s <;> (cases h; simp [Assign.listed, listedKeys, ElementAssign.slot, LayoutAssign.slot, TransitionAssign.slot, AnimatorAssign.slot])
  | radius s v => cases s <;> (cases h; simp [Assign.listed, listedKeys, ElementAssign.slot, LayoutAssign.slot, TransitionAssign.slot, AnimatorAssign.slot])
  | layout a =>
    cases a <;> (try (rename_i s v; cases s)) <;> (cases h; simp [Assign.listed, listedKeys, ElementAssign.slot, LayoutAssign.slot, TransitionAssign.slot, AnimatorAssign.slot])
  | transition a => cases a <;> (cases h; simp [Assign.listed, listedKeys, ElementAssign.slot, LayoutAssign.slot, TransitionAssign.slot, AnimatorAssign.slot])
  | animator a => cases a <;> (cases h; simp [Assign.listed, listedKeys, ElementAssign.slot, LayoutAssign.slot, TransitionAssign.slot, AnimatorAssign.slot])

/-- Two values that do not get in each other's way: of different properties, or different entries of a list. -/
def Apart (d d' : Descriptor) : Prop := d.key ≠ d'.key ∨ (d.index ≠ d'.index ∧ d.key ∈ listedKeys)

theorem applyValue_comm (sizes : Sizes) {d d' : Descriptor} (h : Apart d d') (v v' : ComputedValue) (s : LayoutStyle × Element) :
    applyValue sizes d' v' (applyValue sizes d v s) = applyValue sizes d v (applyValue sizes d' v' s) := by
  unfold applyValue
  apply Assign.comm
  rcases assignment_slot sizes d.key v with h1 | h1
  · rcases assignment_slot sizes d'.key v' with h2 | h2
    · rcases h with h | h
      · left; rw [h1, h2]; exact fun e => h (Option.some.inj e)
      · right; right; right; exact ⟨h.1, (Assign.listed_iff h1).2 h.2⟩
    · exact .inr (.inr (.inl h2))
  · exact .inr (.inl h1)

theorem applyAll_foldl (sizes : Sizes) (l : ComputedStyle) (s : LayoutStyle × Element) :
    applyAll sizes l s = l.foldl (fun s x => applyValue sizes x.1 x.2 s) s := by
  induction l generalizing s with
  | nil => rfl
  | cons x l ih => obtain ⟨d, v⟩ := x; exact ih _

/-- Values that are pairwise apart can be applied in any order. -/
theorem applyAll_perm (sizes : Sizes) {l l' : ComputedStyle} (hp : l.Perm l') (h : ∀ x ∈ l, ∀ y ∈ l, x = y ∨ Apart x.1 y.1)
    (s : LayoutStyle × Element) : applyAll sizes l s = applyAll sizes l' s := by
  rw [applyAll_foldl, applyAll_foldl]
  refine hp.foldl_eq' ?_ s
  intro x hx y hy z
  rcases h x hx y hy with rfl | h
  · rfl
  · exact applyValue_comm sizes h _ _ _

/-- What a list of values leaves where none of them goes. -/
theorem applyAll_read_other (sizes : Sizes) (l : ComputedStyle) (a : Assign) (i : Nat) {k : PropertyKey} (hk : a.slot = some k)
    (h : ∀ x ∈ l, Apart ⟨k, i⟩ x.1) (s : LayoutStyle × Element) (hs : a.read i s ≠ none) :
    a.read i (applyAll sizes l s) = a.read i s := by
  induction l generalizing s with
  | nil => rfl
  | cons x l ih =>
    obtain ⟨d, v⟩ := x
    have hd := h (d, v) List.mem_cons_self
    simp only [applyAll]
    have hstep : a.read i (applyValue sizes d v s) = a.read i s := by
      unfold applyValue
      have ha : a.slot ≠ none := by rw [hk]; simp
      have := Assign.read_other i d.index s.1 s.2 a (assignment sizes d.key v).1 (by
        rcases assignment_slot sizes d.key v with h2 | h2
        · rcases hd with hd | hd
          · left; rw [hk, h2]; exact fun e => hd (Option.some.inj e)
          · right; exact ⟨hd.1, (Assign.listed_iff hk).2 hd.2⟩
        · left; rw [hk, h2]; simp) ha
      rcases this with h | ⟨_, h⟩
      · exact h
      · exact absurd h hs
    rw [ih (fun x hx => h x (List.mem_cons_of_mem _ hx)) _ (by rw [hstep]; exact hs), hstep]

/-- What a value assigns stands there at the end. -/
theorem applyAll_read (sizes : Sizes) {l : ComputedStyle} {d : Descriptor} {v : ComputedValue} (hm : (d, v) ∈ l)
    (h : ∀ x ∈ l, x = (d, v) ∨ Apart d x.1) (hn : (assignment sizes d.key v).1.slot = some d.key) (s : LayoutStyle × Element) :
    (assignment sizes d.key v).1.read d.index (applyAll sizes l s) = some (assignment sizes d.key v).1 := by
  induction l generalizing s with
  | nil => cases hm
  | cons x l ih =>
    by_cases hl : (d, v) ∈ l
    · exact ih hl (fun x hx => h x (List.mem_cons_of_mem _ hx)) _
    · have hx : x = (d, v) := by
        rcases List.mem_cons.1 hm with e | e
        · exact e.symm
        · exact absurd e hl
      subst hx
      simp only [applyAll]
      have hw : (assignment sizes d.key v).1.read d.index (applyValue sizes d v s) = some (assignment sizes d.key v).1 :=
        Assign.read_write _ _ _ _
      rw [applyAll_read_other sizes l _ d.index hn, hw]
      · intro x hx
        rcases h x (List.mem_cons_of_mem _ hx) with e | e
        · exact absurd (e ▸ hx) hl
        · exact e
      · rw [hw]; simp

end Verif
