import Verif.Props.Read
/-!
# The project's own tests, on the model: `src/html/reader.rs` 343-608

The expectations are those of the tests; the kernel evaluates the model. Tests, not proofs: they tie the model to
the code.
-/
namespace Verif.Conformance

/-- What the tests see of a document: the bindings of the element and the texts of its children. -/
structure Seen where
  tag : String
  bindings : List ElementBinding
  texts : List (Option (List TextSpan))
deriving DecidableEq

def read (text : String) : Option Seen :=
  match readHtml 3000 text with
  | some (.ok html) => some ⟨html.tag, html.bindings, html.children.map Html.text⟩
  | _ => none

def b (name : String) (tail : List String := []) : TextSpan := .binder ⟨name, tail, []⟩
def t (s : String) : TextSpan := .string s

theorem test_ignore_script_tag : (read "<script>
                function doSomething() {}
                for (let i = 0; i < 27; i++) {
                    doSomething();
                }
            </script>").map (·.texts) = some [] := by decide +kernel
theorem test_parse_img_tag : (read "<img alt=\"member.png\" src=\"./images/member.png\"/>").map (·.tag) = some "img" := by decide +kernel

/-- The text of the first child. -/
def text (s : String) : Option (Option (List TextSpan)) := (read s).bind fun x => x.texts.head?
/-- The bindings. -/
def bindings (s : String) : Option (List ElementBinding) := (read s).map (·.bindings)

theorem test_binding_binder_with_whitespaces : text "<div>{ name }</div>" = some (some [b "name"]) := by decide +kernel
theorem test_binding_text_one_span : text "<div>Hello, {name}</div>" = some (some [t "Hello, ", b "name"]) := by decide +kernel
theorem test_binding_text_whitespace_before_sibling_element : text "<div>Hello, {binding} <span>Element Text</span></div>" =
    some (some [t "Hello, ", b "binding", t " "]) := by decide +kernel
theorem test_binding_text_multiple_spans_with_whitespaces : text "<div>Hello,  {first}  {last}</div>" =
    some (some [t "Hello,  ", b "first", t "  ", b "last"]) := by decide +kernel
theorem test_binding_text_no_space : text "<div>+{property}</div>" = some (some [t "+", b "property"]) := by decide +kernel
theorem test_binding_text_multiple_spans_no_space : text "<div>Hello, {first}{last}</div>" = some (some [t "Hello, ", b "first", b "last"]) := by decide +kernel
theorem test_binding_text_ends_with_whitespace : text "<div>Hello, {binding} </div>" = some (some [t "Hello, ", b "binding", t " "]) := by decide +kernel
theorem test_binding_text_multilines : text "<div>
                Line 1
                Hello, {world}!
                Line 3
            </div>" = some (some [t "Line 1 Hello, ", b "world", t "! Line 3"]) := by decide +kernel
theorem test_binding_text_multilines_before_sibling : text "<div>
                Line 1
                Hello, {world}!
                <div>something</div>
            </div>" = some (some [t "Line 1 Hello, ", b "world", t "! "]) := by decide +kernel
theorem test_binding_text_empty_multilines : text "<div>
                {world}
            </div>" = some (some [b "world"]) := by decide +kernel
theorem test_binding_alias : bindings "<input +option=\"{context.config.option}\" />" = some [.alias "option" ⟨"context", ["config", "option"], []⟩] := by decide +kernel
theorem test_binding_tag : bindings "<input #disabled=\"{disabled}\" />" = some [.tag "disabled" ⟨"disabled", [], []⟩] := by decide +kernel
theorem test_binding_control_if : bindings "<input ?=\"{visible}\" />" = some [.visibility true ⟨"visible", [], []⟩] := by decide +kernel
theorem test_binding_control_else : bindings "<input !=\"{visible}\" />" = some [.visibility false ⟨"visible", [], []⟩] := by decide +kernel
theorem test_binding_attribute : bindings "<input @value=\"{name}\" />" = some [.attribute "value" [b "name"]] := by decide +kernel
theorem test_binding_attribute_style : bindings "<input @styles=\"top: {pivot.x}px;\" />" = some [.attribute "styles" [t "top: ", b "pivot" ["x"], t "px;"]] := by decide +kernel
theorem test_binding_attribute_style_multiple_properties : bindings "<input @styles=\"width: {width}px; height: {height}px;\" />" =
    some [.attribute "styles" [t "width: ", b "width", t "px; height: ", b "height", t "px;"]] := by decide +kernel
theorem test_binding_repeat : bindings "<option *option=\"10 {options}\"></option>" = some [.repeat "option" 10 ⟨"options", [], []⟩] := by decide +kernel
theorem test_binding_repeat_single_number_count : bindings "<div *effect=\"8 {effects}\"> {effect} </div>" = some [.repeat "effect" 8 ⟨"effects", [], []⟩] := by decide +kernel
theorem test_binding_repeat_with_shorthand : bindings "<option *_=\"10 {options}\"></option>" = some [.repeat "_" 10 ⟨"options", [], []⟩] := by decide +kernel
theorem test_binding_callback_binding_argument : bindings "<button ^onclick=\"{my_data}\"></button>" = some [.callback "onclick" [.binder ⟨"my_data", [], []⟩]] := by decide +kernel
theorem test_binding_callback_event_argument : bindings "<button ^onclick=\"MyMessage $event\"></button>" = some [.callback "onclick" [.keyword "MyMessage", .event]] := by decide +kernel

end Verif.Conformance
