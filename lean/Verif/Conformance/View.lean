import Verif.Conformance.Run
/-!
# The project's own tests, on the model: `src/view.rs` 564-918

Every test of what is shown of `src/view.rs`, its HTML and CSS text copied, run through the whole model (parsers, rendering,
styles, view model, events) by the kernel. The layout solver is Taffy in the project; here `flow` stands in for it.
Where a test looks only at the end, the updates before it are listed as well.
-/
namespace Verif.Conformance

/-- `view.rs` 564. -/
theorem test_template_with_array_alias : (watch "<html>
            <template id=\"my-component\">
                <div *item=\"5 {items}\" @id=\"{item}\"></div>
            </template>
            <body>
                <div id=\"start\"></div>
                <link href=\"#my-component\" +items=\"{object.items}\" />
                <div id=\"end\"></div>
            </body>
        </html>"
  ""
  idsOf
  [frameOf 0 [] (.obj [("object", .obj [("items", .arr [.str "a", .str "b", .str "c"])])])]).toOption =
  some [["start", "a", "b", "c", "end"]] := by
  decide +kernel

/-- `view.rs` 594. -/
theorem test_template_with_repeat : (watch "<html>
            <template id=\"my-component\">
                <div @id=\"{item}\"></div>
            </template>
            <body>
                <div id=\"start\"></div>
                <link href=\"#my-component\" *item=\"5 {items}\" />
                <div id=\"end\"></div>
            </body>
        </html>"
  ""
  idsOf
  [frameOf 0 [] (.obj [("items", .arr [.str "a", .str "b", .str "c"])])]).toOption =
  some [["start", "a", "b", "c", "end"]] := by
  decide +kernel

/-- `view.rs` 622. -/
theorem test_apply_complex_style_with_data_attributes : (watch "<html>
        <body>
            <div @data-function=\"{function}\" #data-target=\"{is_target}\" class=\"slot placeholder\"></div>
        </body>
        </html>"
  "
            .slot {
                position: absolute;
                left: 0;
                width: 10px;
                height: 10px;
            }
            .slot.placeholder {
                width: 20px;
                height: 20px;
            }
            .slot[data-function=\"Primary\"] {
                left: 10px;
                width: 30px;
            }
            .slot[data-target] {
                width: 40px;
            }
        "
  (fun a _ => (a.kid [0]).map fun e => (e.position, e.size))
  [frameOf 0 [] (.obj [("function", .str "Primary"), ("is_target", .bool true)])]).toOption =
  some [some ((10, 0), (40, 20))] := by
  decide +kernel

/-- `view.rs` 661. -/
theorem test_url_path_resolving : (watch "<html><body><div></div></body></html>"
  "
            div {
                background-image: url(\"./images/icon.png\");
            }
        "
  (fun a _ => (a.kid [0]).bind fun e => e.backgrounds[0]?.map (·.image))
  [frameOf 0 [] (.obj [])]).toOption =
  some [some (some "./images/icon.png")] := by
  decide +kernel

/-- `view.rs` 679. -/
theorem test_element_position_after_conditional_rerender : (watch "
        <html>
        <body>
            <div ?=\"{test_a}\" id=\"a\"></div>
            <div ?=\"{test_b}\" id=\"b\"></div>
            <div ?=\"{test_c}\" id=\"c\"></div>
        </body>
        </html>"
  "
            div {
                height: 10px;
            }
        "
  (fun a out => (idsOf a out, [0, 1, 2].map fun i => (a.kid [i]).map (·.position)))
  [frameOf 0 [] (.obj [("test_a", .bool true), ("test_b", .bool false), ("test_c", .bool true)]), frameOf 0 [] (.obj [("test_a", .bool true), ("test_b", .bool true), ("test_c", .bool true)])]).toOption =
  some [(["a", "c"], [some (0, 0), some (0, 10), none]), (["a", "b", "c"], [some (0, 0), some (0, 10), some (0, 20)])] := by
  decide +kernel

/-- `view.rs` 714. -/
theorem test_relative_position_in_relative_fragment : (watch "<html>
        <body>
            <div class=\"panel\">
                <div class=\"container\">
                    <div class=\"item\"></div>
                </div>
            </div>
        </body>
        </html>"
  "
            body {
                padding-left: 15px;
                padding-top: 17px;
            }
            .panel {
                position: relative;
                padding: 8px;
            }
            .container {
                position: relative;
            }
            .item {
                position: relative;
                width: 32px;
                height: 32px;
            }
        "
  (fun a _ => [[], [0], [0, 0], [0, 0, 0]].map fun p => (a.kid p).map fun e => (e.position, e.size))
  [frameOf 0 [] (.obj [])]).toOption =
  some [[some ((0, 0), (63, 65)), some ((15, 17), (48, 48)), some ((23, 25), (32, 32)), some ((23, 25), (32, 32))]] := by
  decide +kernel

/-- `view.rs` 757. -/
theorem test_relative_position_in_absolute_fragment_after_relative : (watch "<html>
        <body>
            <div class=\"relative\"></div>
            <div class=\"panel\">
                <div class=\"container\">
                    <div class=\"item\"></div>
                </div>
            </div>
        </body>
        </html>"
  "
            body { }
            .relative {
                width: 10px;
                height: 10px;
            }
            .panel {
                position: absolute;
                left: 15px;
                top: 17px;
                padding: 8px;
            }
            .container {
                position: relative;
            }
            .item {
                position: relative;
                width: 32px;
                height: 32px;
            }
        "
  (fun a _ => [[], [1], [1, 0], [1, 0, 0]].map fun p => (a.kid p).map fun e => (e.position, e.size))
  [frameOf 0 [] (.obj [])]).toOption =
  some [[some ((0, 0), (10, 10)), some ((15, 17), (48, 48)), some ((23, 25), (32, 32)), some ((23, 25), (32, 32))]] := by
  decide +kernel

/-- `view.rs` 804. -/
theorem test_relative_position_after_negative_condition_binding : (watch "<html>
        <body>
            <div class=\"container\">
                <div !=\"{condition}\" class=\"item\"></div>
            </div>
        </body>
        </html>"
  "
            .container {
                width: 48px;
                height: 48px;
                padding: 8px;
            }
            .item {
                width: 32px;
                height: 32px;
            }
        "
  (fun a _ => ((a.kid [0]).map (·.size), (a.kid [0, 0]).map (·.position)))
  [frameOf 0 [] (.obj [("condition", .bool false)])]).toOption =
  some [(some (48, 48), some (8, 8))] := by
  decide +kernel

set_option synthInstance.maxSize 1000 in
set_option synthInstance.maxHeartbeats 100000 in
/-- `view.rs` 837. -/
theorem test_visibility : (watch "<html>
        <body>
            <div class=\"visible\"></div>
            <div class=\"hidden\" ^onmousedown=\"B\"></div>
            <div class=\"visible\" ^onmousedown=\"C\"></div>
        </body>
        </html>"
  "
            div {
                width: 32px;
                height: 32px;
            }
            .visible {
                visibility: visible;
            }
            .hidden {
                visibility: hidden;
            }
        "
  (fun a out => (([0, 1, 2].map fun i => (a.kid [i]).map fun e => (e.position, e.visible)), out.messages))
  [frameOf 0 [.mouseMove (20, 33), .mouseButtonDown .left, .mouseMove (20, 65), .mouseButtonDown .left] (.obj [])]).toOption =
  some [([some ((0, 0), true), some ((0, 32), false), some ((0, 64), true)], [.str "C"])] := by
  decide +kernel

/-- `view.rs` 879. -/
theorem test_nested_positive_condition_binding_with_nullable : (watch "
        <html>
            <body>
                <div ?=\"{visible}\" +item=\"{nested}\">
                    <header>Nested Item</header>
                    <div ?=\"{item.prop_a}\">Property A: {item.prop_a}</div>
                    <div ?=\"{item.prop_b}\">Property B: {item.prop_b}</div>
                </div>
            </body>
        </html>"
  ""
  (fun a _ => kidCount a)
  [frameOf 0 [] (.obj [("nested", .obj [("prop_a", .num (.int 0)), ("prop_b", .num (.int 42))]), ("visible", .bool true)]), frameOf 0 [] (.obj [("nested", .null), ("visible", .bool false)])]).toOption =
  some [1, 0] := by
  decide +kernel

/-- `view.rs` 903. -/
theorem test_null_object_condition_rendering : (watch "
        <html>
        <body>
            <div id=\"a\" ?=\"{object}\">{object.name}</div>
            <div id=\"b\"></div>
        </body>
        </html>"
  ""
  idsOf
  [frameOf 0 [] (.obj [("object", .null)])]).toOption =
  some [["b"]] := by
  decide +kernel

end Verif.Conformance
