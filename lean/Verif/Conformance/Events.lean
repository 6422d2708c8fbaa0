import Verif.Conformance.Run
/-!
# The project's own tests, on the model: `src/view.rs` 920-1267

Every test of transitions and of events of `src/view.rs`, its HTML and CSS text copied, run through the whole model (parsers, rendering,
styles, view model, events) by the kernel. The layout solver is Taffy in the project; here `flow` stands in for it.
Where a test looks only at the end, the updates before it are listed as well.
-/
namespace Verif.Conformance

/-- `view.rs` 921. -/
theorem test_transition_simple_forward_by_style : (watch "
        <html>
            <body>
                <div @style=\"width: {width}px;\"></div>
            </body>
        </html>"
  "
            div {
                width: 0px;
                height: 20px;
                transition: width 1s;
            }
        "
  (fun a _ => (a.kid [0]).map (·.size.1))
  ([(1/10, 0), (1/10, 0), (1/10, 100), (1/10, 100), (1/10, 100), (8/10, 100), (1/10, 100)].map fun (t, w) => frameOf t [] (.obj [("width", .num (.int w))]))).toOption =
  some [some 0, some 0, some 0, some 10, some 20, some 100, some 100] := by
  decide +kernel

/-- `view.rs` 957. -/
theorem test_transition_simple_forward_by_class : (watch "
        <html>
            <body>
                <div @class=\"{class}\"></div>
            </body>
        </html>"
  "
            div {
                width: 0px;
                height: 20px;
                transition: width 1s;
            }
            div.open {
                width: 100px;
            }
        "
  (fun a _ => (a.kid [0]).map (·.size.1))
  ([(1/10, ""), (1/10, ""), (1/10, "open"), (1/10, "open"), (1/10, "open"), (8/10, "open"), (1/10, "open")].map fun (t, c) => frameOf t [] (.obj [("class", .str c)]))).toOption =
  some [some 0, some 0, some 0, some 10, some 20, some 100, some 100] := by
  decide +kernel

/-- `view.rs` 996. -/
theorem test_transition_simple_mixed_by_class : (watch "
        <html>
            <body>
                <div @class=\"{class}\"></div>
            </body>
        </html>"
  "
            div {
                width: 0px;
                height: 20px;
                transition: width 1s;
            }
            div.open {
                width: 100px;
            }
        "
  (fun a _ => (a.kid [0]).map (·.size.1))
  ([(1/10, ""), (1/10, "open"), (1/10, "open"), (1/10, ""), (1/10, ""), (8/10, ""), (1/10, "")].map fun (t, c) => frameOf t [] (.obj [("class", .str c)]))).toOption =
  some [some 0, some 0, some 10, some 20, some 18, some 2, some 0] := by
  decide +kernel

/-- `view.rs` 1035. -/
theorem test_none_pointer_events : (watch "<html>
        <body ^onmouseenter=\"enter {body}\" ^onmouseleave=\"leave {body}\">
            <div ^onmouseenter=\"enter {a}\" ^onmouseleave=\"leave {a}\"></div>
        </body>
        </html>"
  "
            body {
                pointer-events: none;
            }
            div {
                pointer-events: auto;
                width: 32px;
                height: 32px;
            }
        "
  (fun _ out => (out.captured, out.messages))
  ([.mouseMove (20, 20), .mouseMove (20, 40)].map fun e => frameOf 0 [e] (.obj [("a", .str "A"), ("body", .str "Body")]))).toOption =
  some [(true, [msg "enter" "A"]), (false, [msg "leave" "A"])] := by
  decide +kernel

/-- `view.rs` 1073. -/
theorem test_mouse_click_event : (watch "<html>
        <body>
            <div ^onclick=\"Hello {name}\"></div>
        </body>
        </html>"
  "
            div {
                width: 32px;
                height: 32px;
            }
        "
  (fun _ out => (out.captured, out.messages))
  ([.mouseMove (20, 20), .mouseButtonDown .left, .mouseButtonUp .left].map fun e => frameOf 0 [e] (.obj [("name", .str "Alice")]))).toOption =
  some [(true, []), (true, []), (true, [msg "Hello" "Alice"])] := by
  decide +kernel

/-- `view.rs` 1104. -/
theorem test_mouse_enter_leave_events_forward : (watch "<html>
        <body>
            <div ^onmouseenter=\"enter {a}\" ^onmouseleave=\"leave {a}\"></div>
            <div ^onmouseenter=\"enter {b}\" ^onmouseleave=\"leave {b}\"></div>
        </body>
        </html>"
  "
            div {
                width: 32px;
                height: 32px;
            }
        "
  (fun _ out => out.messages)
  ([.mouseMove (100, 20), .mouseMove (20, 20), .mouseMove (20, 40)].map fun e => frameOf 0 [e] (.obj [("a", .str "A"), ("b", .str "B")]))).toOption =
  some [[], [msg "enter" "A"], [msg "leave" "A", msg "enter" "B"]] := by
  decide +kernel

/-- `view.rs` 1143. -/
theorem test_mouse_enter_leave_over_border : (watch "<html>
        <body>
            <div ^onmouseenter=\"enter {a}\" ^onmouseleave=\"leave {a}\"></div>
            <div ^onmouseenter=\"enter {b}\" ^onmouseleave=\"leave {b}\"></div>
        </body>
        </html>"
  "
            div {
                width: 32px;
                height: 32px;
            }
        "
  (fun _ out => out.messages)
  ([.mouseMove (20, 20), .mouseMove (20, 32), .mouseMove (20, 40)].map fun e => frameOf 0 [e] (.obj [("a", .str "A"), ("b", .str "B")]))).toOption =
  some [[msg "enter" "A"], [msg "leave" "A", msg "enter" "B"], []] := by
  decide +kernel

/-- `view.rs` 1182. -/
theorem test_mouse_enter_leave_events_backward : (watch "<html>
        <body>
            <div ^onmouseenter=\"enter {a}\" ^onmouseleave=\"leave {a}\"></div>
            <div ^onmouseenter=\"enter {b}\" ^onmouseleave=\"leave {b}\"></div>
        </body>
        </html>"
  "
            div {
                width: 32px;
                height: 32px;
            }
        "
  (fun _ out => out.messages)
  ([.mouseMove (100, 40), .mouseMove (20, 40), .mouseMove (20, 20)].map fun e => frameOf 0 [e] (.obj [("a", .str "A"), ("b", .str "B")]))).toOption =
  some [[], [msg "enter" "B"], [msg "leave" "B", msg "enter" "A"]] := by
  decide +kernel

/-- `view.rs` 1220. -/
theorem test_mouse_enter_leave_events_via_animation : (watch "<html>
        <body>
            <div ^onmouseenter=\"enter {a}\" ^onmouseleave=\"leave {a}\"></div>
        </body>
        </html>"
  "
            div {
                width: 32px;
                height: 32px;
                animation: 1s linear HeightAnimation;
            }
            @keyframes HeightAnimation {
                0% {
                    height: 32px;
                }
                50% {
                    height: 64px;
                }
                100% {
                    height: 32px;
                }
            }
        "
  (fun _ out => (out.captured, out.messages))
  (frameOf 0 [.mouseMove (20, 40)] (.obj [("a", .str "A")]) :: [0, 49/100, 1].map fun t => frameOf t [] (.obj [("a", .str "A")]))).toOption =
  some [(false, []), (false, []), (true, [msg "enter" "A"]), (false, [msg "leave" "A"])] := by
  decide +kernel

end Verif.Conformance
