import Verif.Css.SheetRead
import Verif.Css.Compute
import Mathlib.Data.List.Nodup
/-!
# C63, C64, C70, C71: reading stylesheets

`readCss fuel text` is `read_css` on `text`: `some (.ok css)`, `some (.error .err)` for a `ReaderError`,
`some (.error .panic)` for a panic and `none` while the parser has not come to an end; `readInline` is
`read_inline_css`, which reads the value of `style`.
-/
namespace Verif
open Sheet
open Written (IsWord isKeyChar)

/-- What a value consists of: for the examples. -/
inductive Token where
  | var (name : String)
  | call (name : String)
  | done
  | value (v : ComputedValue)
  | space
deriving DecidableEq

mutual
/-- The tokens of a value. -/
def Definition.tokens : Definition → List Token
  | .var name => [.var name]
  | .function name args => .call name :: (tokensOf args ++ [.done])
  | .explicit v => [.value v]
/-- The tokens of values. -/
def tokensOf : List Definition → List Token
  | [] => []
  | d :: ds => d.tokens ++ .space :: tokensOf ds
end

/-- A declaration: for the examples. -/
structure Entry where
  name : Option String
  key : Option PropertyKey
  values : List (List Token)
deriving DecidableEq

/-- The view of a declaration. -/
def Declaration.entry : Declaration → Entry
  | .variable name s => ⟨some name, none, [tokensOf s]⟩
  | .property key l => ⟨none, some key, l.map tokensOf⟩

/-- A rule: for the examples. -/
structure RuleView where
  selectors : List Complex
  entries : List Entry
deriving DecidableEq

/-- The styles read, `some none` if the stylesheet is refused. -/
def stylesOf (fuel : Nat) (text : String) : Option (Option (List RuleView)) :=
  match readCss fuel text with
  | none => none
  | some (.ok css) => some (some (css.styles.map fun s => ⟨s.selectors, s.declaration.map Declaration.entry⟩))
  | some (.error .err) => some none
  | some (.error _) => none

/-- The keyframes of an animation read. -/
def framesOf (fuel : Nat) (text name : String) : Option (List (Nat × List Entry)) :=
  match readCss fuel text with
  | some (.ok css) => (css.animations name).map fun a => a.keyframes.map fun k => (k.step, k.declaration.map Declaration.entry)
  | _ => none

/-- The inline declarations read. -/
def inlineOf (fuel : Nat) (text : String) : Option (List Entry) :=
  match readInline fuel text with
  | some (.ok ds) => some (ds.map Declaration.entry)
  | _ => none

/-! ## C63 -/

/-- **C63.** A name denotes one property, and different names denote different properties. -/
theorem C63_unambiguous {name name' : String} {key key' : PropertyKey} (h : (name, key) ∈ PropertyKey.table) (h' : (name', key') ∈ PropertyKey.table) : name = name' ↔ key = key' := by
  have pick : ∀ {α : Type} {l : List (String × PropertyKey)} (f : String × PropertyKey → α), (l.map f).Nodup → ∀ {p q}, p ∈ l → q ∈ l → f p = f q → p = q := by
    intro α l f hn p q hp hq e
    exact List.inj_on_of_nodup_map hn hp hq e
  constructor
  · intro e; exact congrArg Prod.snd (pick Prod.fst PropertyKey.names_nodup h h' e)
  · intro e; exact congrArg Prod.fst (pick Prod.snd PropertyKey.keys_nodup h h' e)

/-- **C63.** The reader knows exactly the names of the table, as the properties beside them. -/
theorem C63_parse (name : String) (key : PropertyKey) : PropertyKey.parse name = some key ↔ (name, key) ∈ PropertyKey.table := PropertyKey.parse_iff

/-- **C63.** Every name of the table can be written in a stylesheet and in `style`, and then denotes its property. -/
theorem C63_written {name : String} {key : PropertyKey} (h : (name, key) ∈ PropertyKey.table) {l : List Shorthand} {t : List Char} (ht : Values l t) :
    ∃ F, ∀ fuel ≥ F, readInline fuel (String.ofList (name.toList ++ ':' :: (t ++ [';']))) = some (.ok [.property key l]) := by
  obtain ⟨h1, h2, h3⟩ := PropertyKey.name_shape h
  have hw : IsWord isLetter name.toList := by
    refine ⟨fun e => by rw [e] at h1; simp at h1, fun c hc => ?_⟩
    rcases h3 c hc with rfl | h
    · decide
    · simp [isLetter, isAlpha, h.1, h.2]
  have ha := Assigns.mk (name := name) hw .nil .nil .nil ht
  have := readInline_written (.cons (.property h ha) .nil .nil)
  simpa using this

example : ("border-top-left-radius", PropertyKey.BorderTopLeftRadius) ∈ PropertyKey.table := PropertyKey.parse_iff.1 (by decide +kernel)

/-- **C63 (finding).** What browsers call `border-style`, `outline-style`, `list-style` or `transform-style` is not known
under that name, but as `border-styles` and so on; the two halves of `background-position` have no names. -/
theorem C63_misspelled : PropertyKey.parse "border-style" = none ∧ PropertyKey.parse "border-styles" = some .BorderStyle ∧ PropertyKey.parse "outline-style" = none ∧
    PropertyKey.parse "list-style" = none ∧ PropertyKey.parse "transform-style" = none ∧ PropertyKey.parse "background-position-x" = none := by decide +kernel

/-! ## C64 -/

/-- **C64.** `#rrggbb` is an opaque color with exactly these bytes. -/
theorem C64_opaque {name : String} {key : PropertyKey} (h : (name, key) ∈ PropertyKey.table) {r g b : Nat} {r1 r2 g1 g2 b1 b2 : Char} (hr : HexByte r r1 r2) (hg : HexByte g g1 g2)
    (hb : HexByte b b1 b2) : ∃ F, ∀ fuel ≥ F, readInline fuel (String.ofList (name.toList ++ ':' :: ['#', r1, r2, g1, g2, b1, b2, ';'])) =
      some (.ok [.property key [[.explicit (.color ⟨r, g, b, 255⟩)]]]) := by
  have hv : Values _ _ := .one (.one (.explicit (.opaque hr hg hb)))
  have := C63_written h hv
  simpa only [List.cons_append, List.nil_append] using this

/-- **C64.** `#rrggbbaa` is a color with exactly these bytes. -/
theorem C64_alpha {name : String} {key : PropertyKey} (h : (name, key) ∈ PropertyKey.table) {r g b a : Nat} {r1 r2 g1 g2 b1 b2 a1 a2 : Char} (hr : HexByte r r1 r2) (hg : HexByte g g1 g2)
    (hb : HexByte b b1 b2) (ha : HexByte a a1 a2) : ∃ F, ∀ fuel ≥ F, readInline fuel (String.ofList (name.toList ++ ':' :: ['#', r1, r2, g1, g2, b1, b2, a1, a2, ';'])) =
      some (.ok [.property key [[.explicit (.color ⟨r, g, b, a⟩)]]]) := by
  have hv : Values _ _ := .one (.one (.explicit (.color hr hg hb ha)))
  have := C63_written h hv
  simpa only [List.cons_append, List.nil_append] using this

/-- Two hexadecimal digits cannot denote more than a byte, and denote one. -/
theorem C64_byte {n m : Nat} {a b : Char} (h : HexByte n a b) (h' : HexByte m a b) : n < 256 ∧ n = m := by
  obtain ⟨x, y, h1, h2, rfl⟩ := h
  have lt : ∀ {n c}, HexDigit n c → n < 16 := fun {n c} h => (List.getElem?_eq_some_iff.1 h).1
  refine ⟨by have := lt h1; have := lt h2; omega, ?_⟩
  rw [← (hexByte_written ⟨x, y, h1, h2, rfl⟩).2.2, ← (hexByte_written h').2.2]

example : HexByte 255 'f' 'F' ∧ HexByte 10 '0' 'a' ∧ HexByte 160 'A' '0' := ⟨⟨15, 15, rfl, rfl, rfl⟩, ⟨0, 10, rfl, rfl, rfl⟩, ⟨10, 0, rfl, rfl, rfl⟩⟩

/-- `v` clamped to 0…255 and without its fraction. -/
structure Clamped (v : Rat) (n : Nat) : Prop where
  low : v ≤ 0 → n = 0
  high : 255 ≤ v → n = 255
  inside : 0 ≤ v → v ≤ 255 → (n : Rat) ≤ v ∧ v < n + 1

/-- The number a component of a color stands for; percentages are parts of 255. -/
def Channel (whole : Rat) : ComputedValue → Option Rat
  | .zero => some 0
  | .number v => some (v * whole)
  | .percentage v => some (v * 255)
  | _ => none

theorem asU8_clamped (v : Rat) : Clamped v (asU8 v) := by
  unfold asU8
  have hf := Rat.floor_le (a := v)
  have hf' := Rat.lt_floor (x := v)
  constructor
  · intro h; simp [h]
  · intro h
    have h0 : ¬ v ≤ 0 := fun h' => absurd (Rat.le_trans h h') (by decide)
    simp [h0, h]
  · intro h1 h2
    split
    · rename_i h
      have : v = 0 := Rat.le_antisymm h h1
      subst this
      exact ⟨Rat.le_refl, by decide +kernel⟩
    · split
      · rename_i h
        have : v = 255 := Rat.le_antisymm h2 h
        subst this
        exact ⟨Rat.le_refl, by decide +kernel⟩
      · have h0 : 0 ≤ v.floor := Rat.le_floor_iff.2 (by simpa using h1)
        have e : ((v.floor.toNat : Nat) : Rat) = (v.floor : Rat) := by
          have : ((v.floor.toNat : Int)) = v.floor := Int.toNat_of_nonneg h0
          rw [← Rat.intCast_natCast, this]
        rw [e]
        exact ⟨hf, by grind⟩

/-- **C64.** The components of `rgb(…)` are clamped to 0…255; it is opaque. -/
theorem C64_rgb {x y z : ComputedValue} {r g b : Rat} (hx : Channel 1 x = some r) (hy : Channel 1 y = some g) (hz : Channel 1 z = some b) :
    ∃ c, computeFunction "rgb" [x, y, z] = .color c ∧ Clamped r c.r ∧ Clamped g c.g ∧ Clamped b c.b ∧ c.a = 255 := by
  have key : ∀ {x v}, Channel 1 x = some v → Clamped v (mapC x) := by
    intro x v h
    cases x <;> simp only [Channel, Option.some.injEq, reduceCtorEq] at h <;> subst h
    · exact asU8_clamped 0
    · exact asU8_clamped _
    · rw [Rat.mul_one]; exact asU8_clamped _
  exact ⟨_, rfl, key hx, key hy, key hz, rfl⟩

/-- **C64.** The same for `rgba(…)`, whose last component is a part of 1. -/
theorem C64_rgba {x y z w : ComputedValue} {r g b a : Rat} (hx : Channel 1 x = some r) (hy : Channel 1 y = some g) (hz : Channel 1 z = some b) (hw : Channel 255 w = some a) :
    ∃ c, computeFunction "rgba" [x, y, z, w] = .color c ∧ Clamped r c.r ∧ Clamped g c.g ∧ Clamped b c.b ∧ Clamped a c.a := by
  have key : ∀ {x v}, Channel 1 x = some v → Clamped v (mapC x) := by
    intro x v h
    cases x <;> simp only [Channel, Option.some.injEq, reduceCtorEq] at h <;> subst h
    · exact asU8_clamped 0
    · exact asU8_clamped _
    · rw [Rat.mul_one]; exact asU8_clamped _
  have key' : ∀ {x v}, Channel 255 x = some v → Clamped v (mapA x) := by
    intro x v h
    cases x <;> simp only [Channel, Option.some.injEq, reduceCtorEq] at h <;> subst h
    · exact asU8_clamped 0
    · exact asU8_clamped _
    · exact asU8_clamped _
  exact ⟨_, rfl, key hx, key hy, key hz, key' hw⟩

example : computeFunction "rgba" [.number 300, .percentage (1 / 2), .number (-5), .number (1 / 2)] = .color ⟨255, 127, 0, 127⟩ := by decide +kernel

/-- **C64 (finding).** Short color literals are white, whatever they say. -/
theorem C64_short : inlineOf 300 "color:#f00;" = some [⟨none, some .Color, [[.value (.color ⟨255, 255, 255, 255⟩), .space]]⟩] := by decide +kernel

/-! ## C70 -/

/-- **C70.** Reading a stylesheet comes to an end, with a stylesheet or an error, and does not panic. -/
theorem C70_stylesheet (text : String) : ∃ r F, (∀ fuel ≥ F, readCss fuel text = some r) ∧ r ≠ .error .panic := readCss_total text

/-- **C70.** Reading the value of `style` comes to an end, and it is never refused. -/
theorem C70_inline (text : String) : ∃ ds F, ∀ fuel ≥ F, readInline fuel text = some (.ok ds) := readInline_total text

example : stylesOf 300 "p {" = some none ∧ stylesOf 300 "" = some (some []) := by decide +kernel

/-! ## C71 -/

/-- **C71.** A stylesheet is read as the rules it is written with. -/
theorem C71_read_as_written {items : List CssItem} {t : List Char} (h : Stylesheet items t) : ∃ F, ∀ fuel ≥ F, readCss fuel (String.ofList t) = some (.ok (meaning items)) :=
  readCss_written h

/-- **C71.** So no text stands for two stylesheets. -/
theorem C71_unambiguous {items items' : List CssItem} {t : List Char} (h : Stylesheet items t) (h' : Stylesheet items' t) : meaning items = meaning items' := by
  obtain ⟨F, hF⟩ := readCss_written h
  obtain ⟨F', hF'⟩ := readCss_written h'
  have := (hF (F + F') (by omega)).symm.trans (hF' (F + F') (by omega))
  injection this with this
  injection this

/-- **C71.** The value of `style` is read as the declarations it is written with. -/
theorem C71_inline {ds : List Declaration} {t : List Char} (h : Declarations ds t) : ∃ F, ∀ fuel ≥ F, readInline fuel (String.ofList t) = some (.ok ds) := readInline_written h

theorem word_of {p : Char → Bool} {t : List Char} (h : (!t.isEmpty && t.all p) = true) : IsWord p t := by
  simp only [Bool.and_eq_true, Bool.not_eq_true', List.all_eq_true] at h
  exact ⟨by simpa using h.1, h.2⟩

/-- `.a > p, #b { margin: 1px 0; }` is written as its rule. -/
example : Stylesheet [.style ⟨[[.class "a", .combinator '>', .type "p"], [.id "b"]], [.property .Margin [[.explicit (.dimension ⟨1, .px⟩), .explicit .zero]]]⟩]
    "/* c */.a > p, #b { margin: 1px 0; } ".toList := by
  have hb : Blanks "/* c */".toList := .comment (c := " c ".toList) (t := []) (by decide) .nil
  have sp : Blanks [' '] := .space (by decide) .nil
  have sel : Selectors [[.class "a", .combinator '>', .type "p"], [.id "b"]] ".a > p, #b".toList :=
    .cons (t := ".a > p".toList) (b1 := []) (b2 := [' ']) (u := "#b".toList)
      (.mk (c := [.class "a"]) (t := ".a".toList) (u := " > p".toList) (.simples (t := ".a".toList) (u := []) (.class (n := "a") (word_of (by decide))) .nil)
        (.combinator (b1 := [' ']) (x := '>') (b2 := [' ']) (c := [.type "p"]) (t := ['p']) (u := []) sp (by decide) sp (.type (n := "p") (u := []) (word_of (by decide)) .nil) .nil))
      .nil sp (.one (.mk (c := [.id "b"]) (t := "#b".toList) (u := []) (.simples (t := "#b".toList) (u := []) (.id (n := "b") (word_of (by decide))) .nil) .nil))
  have val : Values [[.explicit (.dimension ⟨1, .px⟩), .explicit .zero]] "1px 0".toList :=
    .one (.cons (t := "1px".toList) (c := ' ') (u := ['0']) (.explicit (.dimension (t := ['1']) (name := "px") (.plain (by
      have : Unsigned (decimal ['1']) ['1'] := .int (word_of (by decide))
      exact this)) (by decide))) (by decide) (.one (.explicit .zero)))
  have dec : Declarations [.property .Margin [[.explicit (.dimension ⟨1, .px⟩), .explicit .zero]]] "margin: 1px 0; ".toList :=
    .cons (d := some _) (t := "margin: 1px 0;".toList) (bl := [' ']) (ds := []) (u := []) (.property (PropertyKey.parse_iff.1 (by decide +kernel))
      (.mk (name := "margin") (b1 := []) (b2 := [' ']) (b3 := []) (t := "1px 0".toList) (word_of (by decide)) .nil sp .nil val)) sp .nil
  have blk : Block [.property .Margin [[.explicit (.dimension ⟨1, .px⟩), .explicit .zero]]] "{ margin: 1px 0; }".toList := .mk (bl := [' ']) (t := "margin: 1px 0; ".toList) sp dec
  exact .mk (bl := "/* c */".toList) hb (.cons (t := ".a > p, #b { margin: 1px 0; }".toList) (bl := [' ']) (u := [])
    (.style (t := ".a > p, #b".toList) (bl := [' ']) (u := "{ margin: 1px 0; }".toList) sel sp blk) sp .nil)

/-- **C71 (example).** A stylesheet with most kinds of selectors and values. -/
theorem C71_example : stylesOf 4000 ":root{--gap:4px;}/* x */ div.a#b:hover::before[k][x^=\"y z\"] > *, p  q{\n margin : var(--gap) -1.5em 0 50% ;color:rgba(1,2, 3,.5);transition:width 2s,left 10ms;}" =
    some (some [
      ⟨[[.root]], [⟨some "--gap", none, [[.value (.dimension ⟨4, .px⟩), .space]]⟩]⟩,
      ⟨[[.type "div", .class "a", .id "b", .pseudoClass "hover", .pseudoElement "before", .attribute "k" .exist "", .attribute "x" .prefix "y z", .combinator '>', .all],
        [.type "p", .combinator ' ', .type "q"]],
       [⟨none, some .Margin, [[.var "--gap", .space, .value (.dimension ⟨-3 / 2, .em⟩), .space, .value .zero, .space, .value (.percentage (1 / 2)), .space]]⟩,
        ⟨none, some .Color, [[.call "rgba", .value (.number 1), .space, .value (.number 2), .space, .value (.number 3), .space, .value (.number (1 / 2)), .space, .done, .space]]⟩,
        ⟨none, some .Transition, [[.value (.keyword "width"), .space, .value (.time 2), .space], [.value (.keyword "left"), .space, .value (.time (1 / 100)), .space]]⟩]⟩]) := by decide +kernel

/-- **C71 (example).** Of two animations with one name the last counts. -/
theorem C71_animation_example : framesOf 2000 "@keyframes a{from{width:0;}}@keyframes a { 0%{width:1px;} 50.5% {} to{width:2px;} }" "a" =
    some [(0, [⟨none, some .Width, [[.value (.dimension ⟨1, .px⟩), .space]]⟩]), (50, []), (100, [⟨none, some .Width, [[.value (.dimension ⟨2, .px⟩), .space]]⟩])] := by decide +kernel

/-! The conditions of `Spec/Sheet` are needed: what the reader does otherwise. -/

/-- Two blanks between values: the whole stylesheet is refused. -/
theorem C71_two_blanks : stylesOf 600 "p{margin:1px  0;}" = some none ∧ stylesOf 600 "p{margin:1px 0;}" ≠ some none := by decide +kernel
/-- The last declaration needs its semicolon; without it the whole stylesheet is refused, and inline declarations are lost. -/
theorem C71_semicolon : stylesOf 600 "p{left:0}" = some none ∧ inlineOf 600 "left:0;top:0" = some [⟨none, some .Left, [[.value .zero, .space]]⟩] := by decide +kernel
/-- Inline declarations after white space are lost. -/
theorem C71_inline_blank : inlineOf 300 " left:0;" = some [] := by decide +kernel
/-- A number with a leading zero. -/
theorem C71_leading_zero : stylesOf 600 "p{opacity:05;}" = some none := by decide +kernel
/-- A pseudo-class whose name starts with `root`. -/
theorem C71_rooted : stylesOf 600 ":rooted{}" = some (some [⟨[[.root, .type "ed"]], []⟩]) := by decide +kernel
/-- The argument of a pseudo-class is dropped. -/
theorem C71_pseudo_argument : stylesOf 600 ":not(.a){}" = some (some [⟨[[.pseudoClass "not"]], []⟩]) := by decide +kernel
/-- The flag of an attribute selector is dropped. -/
theorem C71_attribute_flag : stylesOf 600 "[a=\"v\"i]{}" = some (some [⟨[[.attribute "a" .equal "v"]], []⟩]) := by decide +kernel
/-- The fallback of a variable is dropped, or with a blank the variable is a function. -/
theorem C71_fallback : inlineOf 600 "color:var(--x,red);" = some [⟨none, some .Color, [[.var "--x", .space]]⟩] ∧
    inlineOf 600 "color:var(--x, red);" = some [⟨none, some .Color, [[.call "var", .value (.keyword "--x"), .space, .value (.keyword "red"), .space, .done, .space]]⟩] := by decide +kernel
/-- A unit that is not known is pixels. -/
theorem C71_unknown_unit : inlineOf 600 "width:2cm;" = some [⟨none, some .Width, [[.value (.dimension ⟨2, .px⟩), .space]]⟩] := by decide +kernel
/-- A blank before the percent sign of a step makes a step with one digit 0. -/
theorem C71_step_blank : framesOf 600 "@keyframes a{5 %{}}" "a" = some [(0, [])] ∧ framesOf 600 "@keyframes a{5%{}}" "a" = some [(5, [])] := by decide +kernel
/-- A rule without selectors is accepted. -/
theorem C71_no_selector : stylesOf 600 "{left:0;}" = some (some [⟨[[]], [⟨none, some .Left, [[.value .zero, .space]]⟩]⟩]) := by decide +kernel
/-- A comma at the end of the selectors adds an empty one. -/
theorem C71_empty_selector : stylesOf 600 "p,{}" = some (some [⟨[[.type "p"], []], []⟩]) := by decide +kernel

end Verif
