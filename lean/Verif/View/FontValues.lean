import Verif.View.Fonts
/-!
# The font values of an element (lemmas for C82)
-/
namespace Verif

variable {p : Platform}

theorem expand_font {key k : PropertyKey} {vs : List ComputedValue} {v : ComputedValue} (hk : k ∈ fontProperties) (h : (k, v) ∈ expand key vs) : key = k ∧ vs = [v] := by
  by_cases hb : key ∈ boxShorthands.map (·.1)
  · exfalso
    obtain ⟨⟨K, a, b, c, d⟩, h1, h2⟩ := List.mem_map.1 hb
    simp only at h2
    subst h2
    have he : expand K vs = boxValues a b c d vs := by
      simp only [boxShorthands, List.mem_cons, Prod.mk.injEq, List.not_mem_nil, or_false] at h1
      rcases h1 with ⟨rfl, rfl, rfl, rfl, rfl⟩ | ⟨rfl, rfl, rfl, rfl, rfl⟩ | ⟨rfl, rfl, rfl, rfl, rfl⟩ | ⟨rfl, rfl, rfl, rfl, rfl⟩ | ⟨rfl, rfl, rfl, rfl, rfl⟩ <;> rfl
    rw [he] at h
    have hm : k ∈ [a, b, c, d] := by
      unfold boxValues at h
      split at h <;> simp only [List.mem_cons, List.not_mem_nil, or_false, Prod.mk.injEq] at h
      all_goals rcases h with h | h | h | h <;> rw [h.1] <;> simp
    simp only [boxShorthands, List.mem_cons, Prod.mk.injEq, List.not_mem_nil, or_false] at h1
    rcases h1 with ⟨rfl, rfl, rfl, rfl, rfl⟩ | ⟨rfl, rfl, rfl, rfl, rfl⟩ | ⟨rfl, rfl, rfl, rfl, rfl⟩ | ⟨rfl, rfl, rfl, rfl, rfl⟩ | ⟨rfl, rfl, rfl, rfl, rfl⟩
    all_goals
      simp only [List.mem_cons, List.not_mem_nil, or_false] at hm
      rcases hm with rfl | rfl | rfl | rfl <;> exact absurd hk (by decide)
  by_cases ho : key ∈ otherShorthands.map (·.1)
  · obtain ⟨⟨K, longs⟩, h1, h2⟩ := List.mem_map.1 ho
    simp only at h2
    subst h2
    rcases C44_other_shorthands_partial.1 K longs h1 vs k v h with hl | ⟨rfl, h2⟩
    · exfalso
      have : ∀ x ∈ otherShorthands, ∀ k ∈ x.2, k ∉ fontProperties := by decide
      exact this _ h1 k hl hk
    · exact ⟨rfl, h2⟩
  rw [C44_other_shorthands_partial.2.1 key hb ho] at h
  split at h
  · simp only [List.mem_singleton, Prod.mk.injEq] at h
    exact ⟨h.1.symm, by rw [h.2]⟩
  · cases h

theorem font_plain {k : PropertyKey} (hk : k ∈ fontProperties) (v : ComputedValue) : expand k [v] = [(k, v)] := by
  rw [expand_plain (by simp only [fontProperties, List.mem_cons, List.not_mem_nil, or_false] at hk; rcases hk with rfl | rfl | rfl | rfl <;> decide)]
  rfl

/-- The value a declaration has for a font property. -/
def Declaration.fontValue (d : Descriptor) : Declaration → Option ComputedValue
  | .variable _ _ => none
  | .property key values =>
    if key = d.key then match values[d.index]? with | some [.explicit v] => some v | _ => none else none

theorem sets_font {x : Declaration} (hx : x.FixedFont) {d : Descriptor} (hd : d.key ∈ fontProperties) {vars : Variables} {v : ComputedValue} :
    x.Sets vars d v ↔ x.fontValue d = some v := by
  constructor
  · rintro ⟨key, values, sh, vs, rfl, h1, h2, h3⟩
    obtain ⟨rfl, rfl⟩ := expand_font hd h3
    obtain ⟨us, h4, -⟩ := (hx hd).2 sh (List.mem_of_getElem? h1)
    subst h4
    have := computes_explicit_eq h2
    subst this
    simp [Declaration.fontValue, h1]
  · intro h
    cases x with
    | «variable» _ _ => cases h
    | property key values =>
      simp only [Declaration.fontValue] at h
      split at h
      · rename_i hk
        subst hk
        split at h
        · rename_i u h1
          injection h with h; subst h
          exact ⟨_, _, _, [u], rfl, h1, computes_explicit [u], by rw [font_plain hd]; simp⟩
        · cases h
      · cases h

theorem last_iff {α β : Type} (f : α → Option β) (l : List α) (v : β) :
    (∃ i : Nat, l[i]?.bind f = some v ∧ ∀ (j : Nat) w, i < j → l[j]?.bind f ≠ some w) ↔ (l.filterMap f).getLast? = some v := by
  induction l using List.reverseRecOn with
  | nil => simp
  | append_singleton l x ih =>
    rw [List.filterMap_append]
    cases hx : f x with
    | none =>
      simp only [List.filterMap_cons, hx, List.filterMap_nil, List.append_nil]
      rw [← ih]
      constructor
      · rintro ⟨i, h1, h2⟩
        have hi : i < l.length := by
          by_contra hi
          rw [List.getElem?_append_right (by omega)] at h1
          rcases Nat.eq_zero_or_pos (i - l.length) with h0 | h0
          · rw [h0] at h1; simp [hx] at h1
          · rw [List.getElem?_eq_none (by simp; omega)] at h1; cases h1
        refine ⟨i, by rw [List.getElem?_append_left hi] at h1; exact h1, fun j w hj hw => ?_⟩
        by_cases hjl : j < l.length
        · exact h2 j w hj (by rw [List.getElem?_append_left hjl]; exact hw)
        · rw [List.getElem?_eq_none (by omega)] at hw; cases hw
      · rintro ⟨i, h1, h2⟩
        have hi : i < l.length := by
          by_contra hi
          rw [List.getElem?_eq_none (by omega)] at h1; cases h1
        refine ⟨i, by rw [List.getElem?_append_left hi]; exact h1, fun j w hj hw => ?_⟩
        by_cases hjl : j < l.length
        · exact h2 j w hj (by rw [List.getElem?_append_left hjl] at hw; exact hw)
        · rw [List.getElem?_append_right (by omega)] at hw
          rcases Nat.eq_zero_or_pos (j - l.length) with h0 | h0
          · rw [h0] at hw; simp [hx] at hw
          · rw [List.getElem?_eq_none (by simp; omega)] at hw; cases hw
    | some u =>
      simp only [List.filterMap_cons, hx, List.filterMap_nil, List.getLast?_append, List.getLast?_singleton, Option.some_or, Option.some.injEq]
      have hlast : (l ++ [x])[l.length]?.bind f = some u := by simp [hx]
      constructor
      · rintro ⟨i, h1, h2⟩
        by_cases hi : i < l.length
        · exact absurd hlast (h2 _ _ hi)
        · by_cases he : i = l.length
          · rw [he, hlast] at h1; exact Option.some.inj h1
          · rw [List.getElem?_eq_none (by simp; omega)] at h1; cases h1
      · rintro rfl
        refine ⟨l.length, hlast, fun j w hj hw => ?_⟩
        rw [List.getElem?_eq_none (by simp; omega)] at hw; cases hw

/-- The computed font values of an element are the last written ones. -/
theorem computed_font {fuel : Nat} {block : List Declaration} {vars vars' : Variables} {style : ComputedStyle} (h : computeBlock fuel block vars [] = some (vars', style))
    (hb : ∀ x ∈ block, x.FixedFont) {d : Descriptor} (hd : d.key ∈ fontProperties) : style.get d = (block.filterMap (Declaration.fontValue d)).getLast? := by
  refine Option.ext fun v => ?_
  rw [computeBlock_get block h d v, ← last_iff]
  have key : ∀ i w, SetsAt vars block i d w ↔ block[i]?.bind (Declaration.fontValue d) = some w := by
    intro i w
    unfold SetsAt
    cases hi : block[i]? with
    | none => simp
    | some x => simp [sets_font (hb x (List.mem_of_getElem? hi)) hd]
  simp only [key, ne_eq]

theorem Declaration.Fontless.fixed {x : Declaration} (h : x.Fontless) : x.FixedFont := by
  cases x with
  | «variable» _ _ => trivial
  | property key values => exact fun hk => absurd hk h

theorem Declaration.Fontless.fontValue {x : Declaration} (h : x.Fontless) {d : Descriptor} (hd : d.key ∈ fontProperties) : x.fontValue d = none := by
  cases x with
  | «variable» _ _ => rfl
  | property key values =>
    have : key ≠ d.key := fun he => h (by rw [he]; exact hd)
    simp [Declaration.fontValue, this]

/-- The rules that are decided once. -/
def staticRules (l : List ElementStyle) : List Style := l.filterMap fun r => match r with | .static s => some s | .dynamic _ => none

/-- Whatever rules apply, the font values are those of the rules that are decided once. -/
theorem applied_font {checks : Bool} {pc : PseudoMatcher} {t : Tree} {n : NodeId} {l : List ElementStyle} {rules : List Style} (h : applied checks pc t n l = .ok rules)
    (hl : ∀ s, .dynamic s ∈ l → ∀ x ∈ s.declaration, x.Fontless) {d : Descriptor} (hd : d.key ∈ fontProperties) :
    (rules.map (·.declaration)).flatten.filterMap (Declaration.fontValue d) = ((staticRules l).map (·.declaration)).flatten.filterMap (Declaration.fontValue d) := by
  induction l generalizing rules with
  | nil => simp only [applied, Except.ok.injEq] at h; subst h; rfl
  | cons x l ih =>
    have ih' := fun rules h => ih (rules := rules) h (fun s hs => hl s (List.mem_cons_of_mem _ hs))
    cases x with
    | static s =>
      simp only [applied] at h
      split at h
      · cases h
      · rename_i r hr
        injection h with h; subst h
        have := ih' r hr
        simp only [staticRules, List.filterMap_cons, List.map_cons, List.flatten_cons, List.filterMap_append] at this ⊢
        rw [this]
    | dynamic s =>
      simp only [applied] at h
      split at h
      · cases h
      · split at h
        · cases h
        · rename_i r hr
          injection h with h; subst h
          have := ih' r hr
          have hs : s.declaration.filterMap (Declaration.fontValue d) = [] :=
            List.filterMap_eq_nil_iff.2 fun x hx => (hl s (by simp) x hx).fontValue hd
          simp only [staticRules, List.filterMap_cons] at this ⊢
          split
          · rw [List.map_cons, List.flatten_cons, List.filterMap_append, hs, List.nil_append]; exact this
          · exact this

/-! ## From values to fonts -/

/-- A font without the alignment, which texts do not get from their element. -/
def FontFace.core (f : FontFace) : FontFace := { f with align := .start }

/-- The font values among all values. -/
def fontPart (l : ComputedStyle) : ComputedStyle := l.filter fun x => decide (x.1.key ∈ fontProperties)

theorem applyValue_fontless (sizes : Sizes) {d : Descriptor} (hd : d.key ∉ fontProperties) (v : ComputedValue) (s : LayoutStyle × Element) :
    (applyValue sizes d v s).2.font.core = s.2.font.core := by
  obtain ⟨key, i⟩ := d
  have hs := assignment_slot sizes key v
  show ((assignment sizes key v).1.write i s.1 s.2).2.font.core = _
  generalize (assignment sizes key v).1 = w at hs ⊢
  cases w with
  | element x =>
    cases x <;> simp only [Assign.slot, ElementAssign.slot, Option.some.injEq, reduceCtorEq, or_false] at hs <;> subst hs <;>
      first | rfl | exact absurd (show _ ∈ fontProperties by simp [fontProperties]) hd
  | _ => rfl

set_option maxRecDepth 4096 in
theorem assignment_fontSize (sizes : Sizes) (v : ComputedValue) :
    assignment sizes .FontSize v = arm (resolveLength sizes sizes.parentFontSize) (fun v => .element (.fontSize v)) v := rfl
set_option maxRecDepth 4096 in
theorem assignment_fontFamily (sizes : Sizes) (v : ComputedValue) :
    assignment sizes .FontFamily v = arm resolveString (fun v => .element (.fontFamily v)) v := rfl
set_option maxRecDepth 4096 in
theorem assignment_fontWeight (sizes : Sizes) (v : ComputedValue) :
    assignment sizes .FontWeight v = arm resolveFontWeight (fun v => .element (.fontWeight v)) v := rfl
set_option maxRecDepth 4096 in
theorem assignment_fontStyle (sizes : Sizes) (v : ComputedValue) :
    assignment sizes .FontStyle v = arm (keywordIn [("normal", "normal"), ("italic", "italic"), ("oblique", "oblique")]) (fun v => .element (.fontStyle v)) v := rfl

theorem applyValue_font (sizes sizes' : Sizes) (h1 : sizes'.rootFontSize = sizes.rootFontSize) (h2 : sizes'.parentFontSize = sizes.parentFontSize)
    {d : Descriptor} (hd : d.key ∈ fontProperties) {v : ComputedValue} (hv : v.Windowless) {s s' : LayoutStyle × Element} (h : s'.2.font.core = s.2.font.core) :
    (applyValue sizes' d v s').2.font.core = (applyValue sizes d v s).2.font.core := by
  obtain ⟨key, i⟩ := d
  have ha : assignment sizes' key v = assignment sizes key v := by
    simp only [fontProperties, List.mem_cons, List.not_mem_nil, or_false] at hd
    rcases hd with rfl | rfl | rfl | rfl
    · rw [assignment_fontFamily, assignment_fontFamily]
    · rw [assignment_fontSize, assignment_fontSize]
      have hr : resolveLength sizes' sizes'.parentFontSize v = resolveLength sizes sizes.parentFontSize v := by
        cases v with
        | dimension x =>
          simp only [ComputedValue.Windowless] at hv
          simp only [resolveLength, dimLength]
          rcases hv with hv | hv | hv <;> simp only [hv, h1, h2]
        | _ => simp only [resolveLength, h2]
      simp only [arm, hr]
    · rw [assignment_fontStyle, assignment_fontStyle]
    · rw [assignment_fontWeight, assignment_fontWeight]
  show ((assignment sizes' key v).1.write i s'.1 s'.2).2.font.core = ((assignment sizes key v).1.write i s.1 s.2).2.font.core
  rw [ha]
  generalize (assignment sizes key v).1 = w
  simp only [FontFace.core, FontFace.mk.injEq] at h ⊢
  cases w with
  | element x => cases x <;> simp only [Assign.write, ElementAssign.write, h, and_self]
  | _ => simp only [Assign.write, h, and_self]

theorem applyAll_fontPart (sizes : Sizes) (l : ComputedStyle) {s s' : LayoutStyle × Element} (h : s'.2.font.core = s.2.font.core) :
    (applyAll sizes l s').2.font.core = (applyAll sizes (fontPart l) s).2.font.core := by
  induction l generalizing s s' with
  | nil => exact h
  | cons x l ih =>
    obtain ⟨d, v⟩ := x
    by_cases hk : d.key ∈ fontProperties
    · rw [fontPart, List.filter_cons_of_pos (by simpa using hk)]
      simp only [applyAll]
      refine ih ?_
      obtain ⟨key, i⟩ := d
      show ((assignment sizes key v).1.write i s'.1 s'.2).2.font.core = ((assignment sizes key v).1.write i s.1 s.2).2.font.core
      generalize (assignment sizes key v).1 = w
      simp only [FontFace.core, FontFace.mk.injEq] at h ⊢
      cases w with
      | element x => cases x <;> simp only [Assign.write, ElementAssign.write, h, and_self]
      | _ => simp only [Assign.write, h, and_self]
    · rw [fontPart, List.filter_cons_of_neg (by simpa using hk)]
      simp only [applyAll]
      exact ih ((applyValue_fontless sizes hk v s').trans h)

theorem applyAll_fontSizes {sizes sizes' : Sizes} (h1 : sizes'.rootFontSize = sizes.rootFontSize) (h2 : sizes'.parentFontSize = sizes.parentFontSize)
    (l : ComputedStyle) (hl : ∀ x ∈ l, x.1.key ∈ fontProperties ∧ x.2.Windowless) {s s' : LayoutStyle × Element} (h : s'.2.font.core = s.2.font.core) :
    (applyAll sizes' l s').2.font.core = (applyAll sizes l s).2.font.core := by
  induction l generalizing s s' with
  | nil => exact h
  | cons x l ih =>
    obtain ⟨d, v⟩ := x
    simp only [applyAll]
    exact ih (fun x hx => hl x (by simp [hx])) (applyValue_font sizes sizes' h1 h2 (hl (d, v) (by simp)).1 (hl (d, v) (by simp)).2 h)

theorem fontPart_once {l : ComputedStyle} (h : l.Once) : (fontPart l).Once := List.Nodup.sublist (List.Sublist.map _ List.filter_sublist) h

theorem fontPart_get {l : ComputedStyle} (h : l.Once) {d : Descriptor} (hd : d.key ∈ fontProperties) : (fontPart l).get d = l.get d := by
  refine Option.ext fun v => ?_
  rw [(fontPart_once h).get_iff d v, h.get_iff d v]
  simp only [fontPart, List.mem_filter, decide_eq_true_eq, and_iff_left_iff_imp]
  exact fun _ => hd

theorem fontPart_other {l : ComputedStyle} (h : l.Once) {d : Descriptor} (hd : d.key ∉ fontProperties) : (fontPart l).get d = none := by
  refine Option.eq_none_iff_forall_ne_some.2 fun v hv => ?_
  rw [(fontPart_once h).get_iff d v] at hv
  exact hd (by simpa using (List.mem_filter.1 hv).2)

/-- Fonts only depend on the font values, and on the font sizes of the parent and the root. -/
theorem applyAll_sameFont {sizes sizes' : Sizes} (h1 : sizes'.rootFontSize = sizes.rootFontSize) (h2 : sizes'.parentFontSize = sizes.parentFontSize)
    {l l' : ComputedStyle} (ho : l.Once) (ho' : l'.Once) (hg : ∀ d : Descriptor, d.key ∈ fontProperties → l'.get d = l.get d)
    (hv : ∀ d v, d.key ∈ fontProperties → l.get d = some v → v.Windowless ∧ Orderly d) {s s' : LayoutStyle × Element} (h : s'.2.font.core = s.2.font.core) :
    (applyAll sizes' l' s').2.font.core = (applyAll sizes l s).2.font.core := by
  rw [applyAll_fontPart sizes' l' h, applyAll_fontPart sizes l (s := s) rfl]
  have hsame : SameMap (fontPart l') (fontPart l) := ⟨fontPart_once ho', fontPart_once ho, fun d => by
    by_cases hd : d.key ∈ fontProperties
    · rw [fontPart_get ho' hd, fontPart_get ho hd, hg d hd]
    · rw [fontPart_other ho' hd, fontPart_other ho hd]⟩
  have hfont : ∀ d v, (fontPart l).get d = some v → d.key ∈ fontProperties ∧ v.Windowless ∧ Orderly d := by
    intro d v hd
    by_cases hk : d.key ∈ fontProperties
    · rw [fontPart_get ho hk] at hd
      exact ⟨hk, hv d v hk hd⟩
    · rw [fontPart_other ho hk] at hd; cases hd
  rw [applyAll_orderly sizes' hsame.perm (fontPart_once ho') (fun d v hd => (hfont d v (by rw [← hsame.3 d]; exact hd)).2.2)]
  refine applyAll_fontSizes h1 h2 _ (fun x hx => ?_) rfl
  obtain ⟨a, b, c⟩ := hfont x.1 x.2 (((fontPart_once ho).get_iff x.1 x.2).2 hx)
  exact ⟨a, b⟩

theorem fontValue_windowless {x : Declaration} (hx : x.FixedFont) {d : Descriptor} (hd : d.key ∈ fontProperties) {v : ComputedValue} (h : x.fontValue d = some v) : v.Windowless := by
  cases x with
  | «variable» _ _ => cases h
  | property key values =>
    simp only [Declaration.fontValue] at h
    split at h
    · rename_i hk
      subst hk
      split at h
      · rename_i u h1
        injection h with h; subst h
        obtain ⟨us, h2, h3⟩ := (hx hd).2 _ (List.mem_of_getElem? h1)
        cases us with
        | nil => cases h2
        | cons w us =>
          simp only [List.map_cons, List.cons.injEq, Definition.explicit.injEq] at h2
          rw [h2.1]; exact h3 w (by simp)
      · cases h
    · cases h

theorem fontValue_orderly {x : Declaration} (hx : x.FixedFont) {d : Descriptor} (hd : d.key ∈ fontProperties) {vars : Variables} {v : ComputedValue} (h : x.Sets vars d v) : Orderly d := by
  refine singular_orderly ?_ h
  have h := (sets_font hx hd).1 h
  cases x with
  | «variable» _ _ => cases h
  | property key values =>
    simp only [Declaration.fontValue] at h
    split at h
    · rename_i hk
      subst hk
      exact .inl (hx hd).1
    · cases h

theorem aboutFonts_value {d : Descriptor} (hd : d.key ∈ fontProperties) {x : Declaration} (h : x.aboutFonts = false) : x.fontValue d = none := by
  refine Declaration.Fontless.fontValue ?_ hd
  cases x with
  | «variable» _ _ => trivial
  | property key values =>
    show key ∉ fontProperties
    simpa [Declaration.aboutFonts] using h

theorem aboutFonts_values {d : Descriptor} (hd : d.key ∈ fontProperties) (l : List Declaration) :
    (l.filter Declaration.aboutFonts).filterMap (Declaration.fontValue d) = l.filterMap (Declaration.fontValue d) := by
  induction l with
  | nil => rfl
  | cons x l ih =>
    cases hx : x.aboutFonts with
    | true => rw [List.filter_cons_of_pos hx, List.filterMap_cons, List.filterMap_cons, ih]
    | false =>
      rw [List.filter_cons_of_neg (by simp [hx]), List.filterMap_cons, aboutFonts_value hd hx]
      exact ih

/-- The properties that playing animations and transitions leaves alone. -/
def FontOrMotion (key : PropertyKey) : Prop := key ∈ fontProperties ∨ key ∈ motionProperties

/-- Inline styles with fixed fonts, and transitions of other properties. -/
def asideManner : Manner where
  free := True
  block b := ∀ x ∈ b, x.FixedFont ∧ x.FontsAside
  animator _ := True
  transition t := ∀ key, t.key = some key → ¬ FontOrMotion key
  none := by intro x hx; cases hx

theorem Declaration.FontsAside.sets {x : Declaration} (hx : x.FontsAside) {vars : Variables} {j : Nat} {name : String} {k : PropertyKey}
    (h : x.Sets vars ⟨.TransitionProperty, j⟩ (.keyword name)) (hk : PropertyKey.parse name = some k) : ¬ FontOrMotion k := by
  obtain ⟨key, values, sh, vs, rfl, h1, h2, h3⟩ := h
  rcases expand_motion h3 (by simp [motionProperties]) with rfl | rfl | ⟨rfl, rfl⟩
  · exfalso
    rcases expand_animation _ h3 with h | ⟨h, -⟩
    · cases h
    · simp at h
  · obtain ⟨us, e, hus⟩ := hx (.inl rfl) sh (List.mem_of_getElem? h1)
    subst e
    obtain rfl := computes_explicit_eq h2
    rcases expand_transition _ h3 with h | ⟨-, -, -, h⟩
    · cases h
    · have := hus name k (List.mem_of_head? (h rfl)) hk
      rintro (h | h)
      · exact this.1 h
      · exact this.2 h
  · obtain ⟨us, e, hus⟩ := hx (.inr rfl) sh (List.mem_of_getElem? h1)
    subst e
    obtain rfl := computes_explicit_eq h2
    have := hus name k (by simp) hk
    rintro (h | h)
    · exact this.1 h
    · exact this.2 h

/-- What the rules of an element and all keyframes say about fonts is fixed. -/
structure FixedRules (rules : List ElementStyle) : Prop where
  fixed : ∀ r ∈ rules, ∀ x ∈ r.rule.declaration, x.FixedFont ∧ x.FontsAside
  dynamic : ∀ s, .dynamic s ∈ rules → ∀ x ∈ s.declaration, x.Fontless

theorem Declaration.Fontless.sets {x : Declaration} (hx : x.Fontless) {vars : Variables} {d : Descriptor} {v : ComputedValue} (h : x.Sets vars d v) : d.key ∉ fontProperties := by
  intro hd
  have := (sets_font hx.fixed hd).1 h
  rw [hx.fontValue hd] at this
  cases this

/-- Nothing in the keyframes is about fonts, animations or transitions. -/
def PlainFrames (animations : String → Option Animation) : Prop :=
  ∀ name an, animations name = some an → ∀ k ∈ an.keyframes, ∀ x ∈ k.declaration, x.Still ∧ x.Fontless

theorem PlainFrames.sets {animations : String → Option Animation} (h : PlainFrames animations) : ∀ name an, animations name = some an → ∀ k ∈ an.keyframes, ∀ x ∈ k.declaration,
    ∀ vars (d : Descriptor) v, x.Sets vars d v → ¬ FontOrMotion d.key := by
  rintro name an ha k hk x hx vars d v hs (hd | hd)
  · exact (h name an ha k hk x hx).2.sets hs hd
  · exact (h name an ha k hk x hx).1.sets hs hd

/-- What styling an element computes. -/
theorem styleElement_played {env : FrameEnv} (hf : env.order.Fair) (hk : PlainFrames env.animations) {n : NodeId} (hrules : FixedRules (env.rules n)) {t : Tree} {parent e e1 : Element} {sizes : Sizes}
    {vars vars1 : Variables} {layout l : LayoutStyle} (hc : e.Calm asideManner)
    (h : styleElement env t n parent sizes vars layout e = .ok ((l, e1), vars1)) :
    ∃ rules declared animators animated transitions final, Steps env t n parent sizes vars layout e l e1 vars1 rules declared animators animated transitions final ∧
      SameOn FontOrMotion declared final ∧ (∀ t ∈ transitions, asideManner.transition t) ∧ ∀ x ∈ declarations env t n e, x.FixedFont ∧ x.FontsAside := by
  obtain ⟨rules, declared, animators, animated, transitions, final, st⟩ := styleElement_steps.1 h
  obtain ⟨s1, -⟩ := playAnimators_same (M := FontOrMotion) hf hk.sets (P := fun _ => True) (fun _ _ _ _ _ => trivial) _ _ st.hAnimators
  obtain ⟨s2, ht⟩ := playTransitions_same (M := FontOrMotion) (P := asideManner.transition) (fun t t' h1 _ _ h key hk => h key (by rw [← h1]; exact hk))
    (fun t key h hk => h key hk) _ hc.transitions st.hTransitions
  refine ⟨rules, declared, animators, animated, transitions, final, st, s1.trans s2, ht, ?_⟩
  intro x hx
  unfold declarations at hx
  rw [st.hRules] at hx
  rcases List.mem_append.1 hx with hx | hx
  · obtain ⟨b, hb, hxb⟩ := List.mem_flatten.1 hx
    obtain ⟨s, hs, rfl⟩ := List.mem_map.1 hb
    obtain ⟨r, h1, rfl⟩ := applied_mem st.hRules s hs
    exact hrules.fixed r h1 x hxb
  · exact hc.style x hx

/-- The font of an element depends on the rules decided once, its inline style and the font of its parent only. -/
theorem styleElement_font {env env' : FrameEnv} (hf : env.order.Fair) (hf' : env'.order.Fair) (hk : PlainFrames env.animations) (hk' : PlainFrames env'.animations) {n : NodeId} (hr : env'.rules n = env.rules n) (hrules : FixedRules (env.rules n))
    {t t' : Tree} {parent parent' e e' e1 e1' : Element} {sizes sizes' : Sizes} {vars vars' vars1 vars1' : Variables} {layout layout' l l' : LayoutStyle}
    (hc : e.Calm asideManner) (hc' : e'.Calm asideManner) (hstyle : e'.style.filter Declaration.aboutFonts = e.style.filter Declaration.aboutFonts)
    (hparent : parent'.font.core = parent.font.core) (h1 : sizes'.rootFontSize = sizes.rootFontSize) (h2 : sizes'.parentFontSize = sizes.parentFontSize)
    (h : styleElement env t n parent sizes vars layout e = .ok ((l, e1), vars1)) (h' : styleElement env' t' n parent' sizes' vars' layout' e' = .ok ((l', e1'), vars1')) :
    e1'.font.core = e1.font.core := by
  have main : ∀ {env : FrameEnv} (_ : env.order.Fair) (_ : PlainFrames env.animations) (_ : FixedRules (env.rules n)) {t : Tree} {parent e e1 : Element} {sizes : Sizes} {vars vars1 : Variables} {layout l : LayoutStyle}
      (_ : e.Calm asideManner) (_ : styleElement env t n parent sizes vars layout e = .ok ((l, e1), vars1)),
      ∃ (played : ComputedStyle) (before : Element), played.Once ∧
        (∀ d : Descriptor, d.key ∈ fontProperties → played.get d = ((((staticRules (env.rules n)).map (·.declaration)).flatten ++ e.style).filterMap (Declaration.fontValue d)).getLast?) ∧
        (∀ d v, d.key ∈ fontProperties → played.get d = some v → v.Windowless ∧ Orderly d) ∧ before.font = (parent.inherit e.reset).font ∧
        e1.font = (applyAll sizes played (layout, before)).2.font := by
    clear h h' hrules hr hf hf' hk hk' hc hc' hstyle hparent h1 h2
    intro env hf hk hrules t parent e e1 sizes vars vars1 layout l hc h
    obtain ⟨rules, declared, animators, animated, transitions, final, st, hsame, -, hdecl⟩ := styleElement_played hf hk hrules hc h
    have hb := st.hBlocks
    rw [computeBlocks_flatten] at hb
    have honce : final.Once := hsame.once st.declared_once
    have ho : (env.order.style n final).Once := (((hf.style n final).map (fun x : Descriptor × ComputedValue => x.1)).nodup_iff).2 honce
    have hg : ∀ d : Descriptor, (env.order.style n final).get d = final.get d := by
      intro d
      refine Option.ext fun v => ?_
      rw [ho.get_iff d v, honce.get_iff d v, (hf.style n final).mem_iff]
    refine ⟨env.order.style n final, { parent.inherit e.reset with animators := animators, transitions := transitions }, ho, ?_, ?_, rfl, ?_⟩
    · intro d hd
      rw [hg d, hsame.motion d (.inl hd), computed_font hb (by rw [st.declarations]; exact fun x hx => (hdecl x hx).1) hd, elementBlocks_flatten, List.filterMap_append, List.filterMap_append,
        applied_font st.hRules hrules.dynamic hd]
    · intro d v hd hv
      rw [hg d, hsame.motion d (.inl hd)] at hv
      obtain ⟨i, ⟨x, hx, hs⟩, -⟩ := (computeBlock_get _ hb d v).1 hv
      have hx' : x ∈ declarations env t n e := by rw [← st.declarations]; exact List.mem_of_getElem? hx
      exact ⟨fontValue_windowless (hdecl x hx').1 hd ((sets_font (hdecl x hx').1 hd).1 hs), fontValue_orderly (hdecl x hx').1 hd hs⟩
    · rw [st.hElement]
  obtain ⟨D, x, a1, a2, a3, a4, a5⟩ := main hf hk hrules hc h
  obtain ⟨D', x', b1, b2, b3, b4, b5⟩ := main hf' hk' (by rw [hr]; exact hrules) hc' h'
  rw [a5, b5]
  refine applyAll_sameFont h1 h2 a1 b1 (fun d hd => ?_) a3 ?_
  · rw [a2 d hd, b2 d hd, hr, List.filterMap_append, List.filterMap_append, ← aboutFonts_values hd e'.style, ← aboutFonts_values hd e.style, hstyle]
  · simp only [a4, b4]
    simp only [Element.inherit, Element.reset, FontFace.core, FontFace.mk.injEq] at hparent ⊢
    exact ⟨hparent.1, hparent.2.1, hparent.2.2.1, hparent.2.2.2.1, hparent.2.2.2.2.1, trivial⟩

/-- Styling keeps transitions away from fonts. -/
theorem styleElement_aside {env : FrameEnv} (hf : env.order.Fair) (hk : PlainFrames env.animations) {n : NodeId} (hrules : FixedRules (env.rules n)) {t : Tree} {parent e : Element} {sizes : Sizes}
    {vars vars1 : Variables} {layout : LayoutStyle} {r : LayoutStyle × Element} (hc : e.Calm asideManner)
    (h : styleElement env t n parent sizes vars layout e = .ok (r, vars1)) : r.2.Calm asideManner := by
  obtain ⟨l, e1⟩ := r
  obtain ⟨rules, declared, animators, animated, transitions, final, st, hsame, ht, hdecl⟩ := styleElement_played hf hk hrules hc h
  refine ⟨.inl trivial, by rw [(styleElement_form h).2.2]; exact hc.style, fun _ _ => trivial, ?_⟩
  intro u hu key hkey
  rw [st.hElement] at hu
  simp only [List.mem_map] at hu
  obtain ⟨u0, hu0, rfl⟩ := hu
  rw [(init_keeps u0 _).1] at hkey
  obtain ⟨j, hj⟩ := List.getElem?_of_mem hu0
  obtain ⟨c1, -, -⟩ := applyAll_transition sizes (env.order.style n final) (layout, { parent.inherit e.reset with animators := animators, transitions := transitions }) j
  simp only [hj, Option.getD_some] at c1
  rcases c1 with c1 | ⟨name, key', c1, hp, c2⟩
  · rw [c1] at hkey
    cases hx : transitions[j]? with
    | none => rw [hx] at hkey; cases hkey
    | some x => rw [hx] at hkey; exact ht x (List.mem_of_getElem? hx) key hkey
  · rw [c2] at hkey; injection hkey with hkey; subst hkey
    have hb := st.hBlocks
    rw [computeBlocks_flatten] at hb
    rw [(hf.style n final).mem_iff, ← (hsame.once st.declared_once).get_iff, hsame.motion _ (.inr (by simp [motionProperties])), computeBlock_get _ hb] at c1
    obtain ⟨i, ⟨x, hx, hs⟩, -⟩ := c1
    exact (hdecl x (by rw [← st.declarations]; exact List.mem_of_getElem? hx)).2.sets hs hp

theorem styleTree_aside {env : FrameEnv} (hf : env.order.Fair) (hk : PlainFrames env.animations) (hr : ∀ n, FixedRules (env.rules n)) (depth : Nat) :
    ∀ {n : NodeId} {sizes : Sizes} {vars : Variables} {s s' : Styled}, styleTree env depth n sizes vars s = .ok s' → s.tree.Calm asideManner → s'.tree.Calm asideManner := by
  induction depth with
  | zero => intro n sizes vars s s' h; cases h
  | succ depth ih =>
    intro n sizes vars s s' h hc
    rw [styleTree] at h
    split at h
    · rename_i parent e hp he
      have := hc n e he
      split at h
      · injection h with h; subst h
        exact hc.setCtx ⟨this.bound, this.style, this.animators, this.transitions⟩
      · split at h
        · cases h
        · rename_i l e' vars' hs
          have hc' := styleElement_aside hf hk (hr n) this hs
          split at h
          · injection h with h; subst h
            exact hc.setCtx hc'
          · exact forEach_keeps (P := fun s : Styled => s.tree.Calm asideManner) (fun s c s' hs => ih hs) _ h (hc.setCtx hc')
    · cases h

end Verif
