import Verif.Props.ReadCss
/-!
# The project's own tests, on the model: `src/css/reader.rs` 308-528
-/
namespace Verif.Conformance

def px (x : Rat) : List Token := [.value (.dimension ⟨x, .px⟩)]
def em (x : Rat) : List Token := [.value (.dimension ⟨x, .em⟩)]
def var (s : String) : List Token := [.var s]
def kw (s : String) : List Token := [.value (.keyword s)]
def n (x : Rat) : List Token := [.value (.number x)]
def zero : List Token := [.value .zero]
def perc (x : Rat) : List Token := [.value (.percentage x)]
def ts (x : Rat) : List Token := [.value (.time x)]
def s (x : String) : List Token := [.value (.str x)]
def short (l : List (List Token)) : List Token := l.flatMap (· ++ [.space])
def func (name : String) (l : List (List Token)) : List Token := .call name :: (short l ++ [.done])
def prop (key : PropertyKey) (l : List (List Token)) : Entry := ⟨none, some key, [short l]⟩

/-- `first_short`: the first values of the first property of the first rule. -/
def firstShort (css : String) : Option (List Token) :=
  ((stylesOf 3000 css).bind id).bind fun l => l.head?.bind fun r => r.entries.head?.bind fun e => e.values.head?
/-- The first selector of the first rule. -/
def firstSelectors (css : String) : Option Complex := ((stylesOf 3000 css).bind id).bind fun l => l.head?.bind fun r => r.selectors.head?

theorem test_inline_style_one_property : inlineOf 3000 "width: 0;" = some [prop .Width [zero]] := by decide +kernel
theorem test_inline_style_no_semicolumn : inlineOf 3000 "width: 0" = some [] := by decide +kernel
theorem test_inline_style_two_properties : inlineOf 3000 "width: 0; height: 0;" = some [prop .Width [zero], prop .Height [zero]] := by decide +kernel
theorem test_component_value_var : firstShort "div { background-color: var(--main-bg-color); }" = some (short [var "--main-bg-color"]) := by decide +kernel
theorem test_component_value_shorthand : firstShort "div { padding: 40px 30px; }" = some (short [px 40, px 30]) := by decide +kernel
theorem test_component_value_shorthand_var : firstShort "div { padding: 40px var(--padding); }" = some (short [px 40, var "--padding"]) := by decide +kernel
theorem test_component_value_list : firstShort "div { font-family: monospaced, sans-serif; }" = some (short [kw "monospaced"]) := by decide +kernel
theorem test_component_value_list_with_var : firstShort "div { font-family: var(--default-font), sans-serif; }" = some (short [var "--default-font"]) := by decide +kernel
theorem test_component_value_list_with_shorthands : firstShort "div { box-shadow: -1em 0 0.4em olive, 3px 3px red; }" =
    some (short [em (-1), zero, em (4 / 10), kw "olive"]) := by decide +kernel
theorem test_component_value_list_with_shorthands_with_var : firstShort "div { box-shadow:  -1em 0 0.4em var(--color), 3px 3px red; }" =
    some (short [em (-1), zero, em (4 / 10), var "--color"]) := by decide +kernel
theorem test_component_value_rgba_function : firstShort "div { background: rgba(31, 37, 38, 0.4); }" = some (short [func "rgba" [n 31, n 37, n 38, n (4 / 10)]]) := by decide +kernel
theorem test_component_value_function_url_string : firstShort "div { mask-image: url(\"masks.svg#mask1\"); }" = some (short [func "url" [s "masks.svg#mask1"]]) := by decide +kernel
theorem test_component_value_function_single_value : firstShort "div { transform: translateX(20px); }" = some (short [func "translateX" [px 20]]) := by decide +kernel
theorem test_component_value_function_single_value_var : firstShort "div { transform: translateX(var(--offset)); }" = some (short [func "translateX" [var "--offset"]]) := by decide +kernel
theorem test_component_value_function_multiple_values : firstShort "div { transform: translate(20px, 40px); }" = some (short [func "translate" [px 20, px 40]]) := by decide +kernel
theorem test_component_value_function_multiple_values_var : firstShort "div { transform: translate(var(--offset), 40px); }" =
    some (short [func "translate" [var "--offset", px 40]]) := by decide +kernel
theorem test_component_value_rgba : firstShort "div { background-color: rgba(133, 155, 155, 0.5); }" = some (short [func "rgba" [n 133, n 155, n 155, n (1 / 2)]]) := by decide +kernel
theorem test_zero_value : firstShort "div { padding: 0; }" = some (short [zero]) := by decide +kernel
theorem test_zero_percent_value : firstShort "div { border-radius: 0%;}" = some (short [perc 0]) := by decide +kernel
theorem test_percent_value : firstShort "div { border-radius: 50%;}" = some (short [perc (1 / 2)]) := by decide +kernel
theorem test_string_value : firstShort "div { content: \"abc\"; }" = some (short [s "abc"]) := by decide +kernel
theorem test_matcher_exist : (firstSelectors "[data-something] {}").bind (·.head?) = some (.attribute "data-something" .exist "") := by decide +kernel
theorem test_matcher_equal_string : (firstSelectors "[data-something=\"abc\"] {}").bind (·.head?) = some (.attribute "data-something" .equal "abc") := by decide +kernel
theorem test_matcher_equal_ident : (firstSelectors "[data-something=abc] {}").bind (·.head?) = some (.attribute "data-something" .equal "abc") := by decide +kernel
theorem test_animation_shorthand : firstShort "div { animation: 1s linear HeightAnimation; }" = some (short [ts 1, kw "linear", kw "HeightAnimation"]) := by decide +kernel
theorem test_animation_simple_keyframes : framesOf 3000 "
            @keyframes HeightAnimation {
                0% {
                    line-height: 1.0;
                }
                50% {
                    line-height: 2.0;
                }
                100% {
                    line-height: 3.0;
                }
            }
        " "HeightAnimation" = some [(0, [prop .LineHeight [n 1]]), (50, [prop .LineHeight [n 2]]), (100, [prop .LineHeight [n 3]])] := by decide +kernel

end Verif.Conformance
