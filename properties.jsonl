{"id": "C01", "title": "Truthiness of bound values", "statement": "A value bound to a visibility (?/!) or tag (#) binding counts as false exactly when it is null, false, the number 0, the empty string or the empty array; every other JSON value, including every object, counts as true.", "quantifier": "every JSON value, of any nesting and size", "why_tests_cant": "The JSON value space is infinite; a test checks a handful of literals.", "anchors": ["src/value.rs: ValueExtensions::eval_boolean"]}
{"id": "C02", "title": "Numeric evaluation of values", "statement": "eval_u64/eval_usize return a value in [0, 2^64) for every JSON value, return n itself for every integer 0 <= n <= 2^53 and for every decimal string of a u64, return 0 for negative numbers, null, arrays, objects and unparsable strings.", "quantifier": "every JSON value", "why_tests_cant": "2^64 integers and unboundedly many strings; saturation and rounding happen only at extremes a test rarely picks.", "anchors": ["src/value.rs: eval_u64, eval_usize"]}
{"id": "C03", "title": "Text of bound values", "statement": "The text shown for a bound value is: empty for null, true/false for booleans, decimal digits for integers, the string itself for strings and fixed markers for arrays/objects; eval_array yields one string per array element in order and a singleton for anything else.", "quantifier": "every JSON value", "why_tests_cant": "Infinite value space.", "anchors": ["src/value.rs: eval_string, eval_array"]}
{"id": "C04", "title": "Re-binding the same value is a no-op", "statement": "Calling update twice in a row with the same JSON value produces no reaction the second time and leaves the bound model unchanged, whatever values were bound before.", "quantifier": "every template model, every binding table, every value, every prior history", "why_tests_cant": "Needs all pairs (model, value), including nested arrays/objects and type-mismatching values.", "anchors": ["src/view_model.rs: ViewModel::bind, bind_value"]}
{"id": "C05", "title": "Binding is history independent", "statement": "For values that fit the template's shape, the bound model after an update depends only on the last value: it is the projection of that value on the shape of the template (missing keys become null, extra keys are ignored, null arrays become empty).", "quantifier": "every template shape, every sequence of fitting values", "why_tests_cant": "Quantifies over all histories; stale state from an earlier value is exactly what a fixed test sequence misses.", "anchors": ["src/view_model.rs: bind_value, memorize_array_default"]}
{"id": "C06", "title": "Reactions are exactly the changes", "statement": "During an update a bound path is notified if and only if what it denotes changed: a scalar path when its value differs from the previous one, an array path when its length changes, an object path when something inside changed; each path at most once, and every binding registered on a notified path reacts exactly once, in registration order.", "quantifier": "every shape, binding table, pair of old model and new value", "why_tests_cant": "All (old,new) pairs and all paths; tests check a fixed list of reactions.", "anchors": ["src/view_model.rs: bind_value, react"]}
{"id": "C07", "title": "Binding never crashes", "statement": "ViewModel::bind never panics for values that fit the template's shape. (It does for some non-fitting histories: a path bound as a scalar that receives an array and then a shorter array.)", "quantifier": "every shape and every finite history of values", "why_tests_cant": "The panic needs a particular history of two values of different lengths at a non-repeated path.", "anchors": ["src/view_model.rs: bind_value lines 97-124"]}
{"id": "C08", "title": "Extra keys of the value are invisible", "statement": "Object keys that no template expression mentions never influence the model, the reactions or any later update; a missing key is indistinguishable from an explicit null.", "quantifier": "every shape, every value, every set of extra keys", "why_tests_cant": "Ranges over arbitrary extra data at any depth.", "anchors": ["src/view_model.rs: bind_value lines 144-173"]}
{"id": "C09", "title": "Nested repeats rebind correctly after shrink and grow", "statement": "After any sequence of fitting arrays, each item of a repeated array (also an array directly inside an array) is bound item by item, so every item path is notified of its new value.", "quantifier": "every history of array lengths and contents", "why_tests_cant": "Depends on the history of lengths; the default element memorised for the array is only used when the array grows again.", "anchors": ["src/view_model.rs: memorize_array_default, bind_value lines 97-124"]}
{"id": "C10", "title": "Repeat reactions stay inside their slots", "statement": "The reaction of a repeat binding with n slots starting at s always designates s <= cursor <= end = s+n with cursor = s + min(len, n) for an array and cursor = s for anything else.", "quantifier": "every array length, slot count and start index", "why_tests_cant": "Unbounded lengths.", "anchors": ["src/view_model.rs: Binding::react_value_change"]}
{"id": "C11", "title": "Value pipes apply in order", "statement": "A binding with a pipe reacts with the composition of its registered transformers applied left to right to the new value; unknown transformer names are skipped and do not disturb the others; the same holds for callback arguments.", "quantifier": "every pipe, transformer table and value", "why_tests_cant": "Pipes of any length and any mix of known and unknown names.", "anchors": ["src/view_model.rs: react, emit"]}
{"id": "C12", "title": "A present object is shown, a null object is hidden", "statement": "An element conditioned on an object is shown exactly when the object is non-null.", "quantifier": "every object shape and every history of object values", "why_tests_cant": "Depends on the transition taken (null to all-null object and back), not on the current value alone.", "anchors": ["src/view_model.rs: bind_value lines 144-195"]}
{"id": "C13", "title": "Conditional children keep document order", "statement": "After any sequence of show/hide reactions on the conditional children of an element, the children it displays are exactly the currently shown ones, in the order of the template.", "quantifier": "every children list and every finite sequence of visibility reactions", "why_tests_cant": "2^n visibility patterns and all toggle orders.", "anchors": ["src/view.rs: update_tree Reaction::Reattach"]}
{"id": "C14", "title": "Repeated children are exactly the first k", "statement": "After a repeat reaction the displayed members of the repeated block are exactly its first min(len,count) slots and other children are untouched.", "quantifier": "every children list, block, history of lengths", "why_tests_cant": "All histories of growth and shrinkage.", "anchors": ["src/view.rs: update_tree Reaction::Repeat"]}
{"id": "C15", "title": "Repeated children keep document order", "statement": "Children of an element always appear in template order, also when a repeated block grows and has siblings after it.", "quantifier": "every children list and every sequence of reactions", "why_tests_cant": "Needs a shrink followed by a growth with trailing siblings.", "anchors": ["src/view.rs: update_tree Reaction::Repeat lines 241-245"]}
{"id": "C16", "title": "The displayed tree stays a tree", "statement": "After any sequence of updates every displayed child has exactly one parent, occurs once in its children list, belongs to the template children of that parent, and parent and child links agree; opening a document fails only for unknown templates (or endless nesting), and no reaction derived from template bindings fails or panics.", "quantifier": "every rendered template and every history of reactions", "why_tests_cant": "An invariant over all histories.", "anchors": ["src/view.rs: update_tree", "src/rendering.rs: render_element"]}
{"id": "C17", "title": "Spans of a text are independent", "statement": "Setting one span of a text or attribute changes that span only; the text shown is the concatenation of its spans, so after any sequence of settings every span shows its last written value; an out-of-range span is ignored.", "quantifier": "every span list and every finite sequence of writes", "why_tests_cant": "All write orders.", "anchors": ["src/element.rs: TextContent", "src/view.rs: update_tree Type/Bind"]}
{"id": "C18", "title": "Bound text shows the bound value", "statement": "After every update with fitting values, every text span bound to a scalar path whose current value is not null shows exactly the text of that value (after its pipe).", "quantifier": "every template, every history of fitting values", "why_tests_cant": "End-to-end over rendering, binding and tree updates and all histories.", "anchors": ["src/view.rs: update", "src/view_model.rs: bind", "src/rendering.rs: render_text"]}
{"id": "C19", "title": "Bound text is empty for null", "statement": "A text span bound to a path whose value is null or missing shows the empty text.", "quantifier": "every template and every history", "why_tests_cant": "Depends on history: before the first non-null value and after an array shrinks and grows the span keeps a placeholder or stale text.", "anchors": ["src/view_model.rs: bind_value", "src/rendering.rs: render_text"]}
{"id": "C20", "title": "Conditional display follows the condition", "statement": "After every update an element conditioned on a scalar path (?) is displayed iff the current value of the path is truthy, and a negated one (!) iff it is falsy.", "quantifier": "every template and every history of fitting values", "why_tests_cant": "All histories; the initial state matters.", "anchors": ["src/view.rs: apply_default_bindings_state, update_tree", "src/view_model.rs: react_value_change"]}
{"id": "C21", "title": "Boolean attributes follow their value", "statement": "A tag binding (#name) makes attribute name present (with its own name as value) exactly when the last notified value is truthy, and no reaction alters any other attribute.", "quantifier": "every element and every sequence of reactions", "why_tests_cant": "All sequences of reactions.", "anchors": ["src/view.rs: update_tree Reaction::Tag/Bind"]}
{"id": "C22", "title": "Lookup by id finds the element that has the id", "statement": "get_element_by_id(x) returns an element whose current id attribute is x.", "quantifier": "every template and every history of dynamic ids", "why_tests_cant": "Depends on histories of dynamic id values.", "anchors": ["src/view.rs: get_element_by_id, update_tree Bind", "src/rendering.rs: static_id"]}
{"id": "C23", "title": "Aliases and loop variables do not leak", "statement": "Rendering any template subtree leaves the set of visible local names (aliases and loop variables) exactly as before, so siblings never see each other's locals.", "quantifier": "every template tree", "why_tests_cant": "Unbounded nesting and arbitrary alias names.", "anchors": ["src/rendering.rs: render_element lines 219-291"]}
{"id": "C24", "title": "Loop variables denote their items", "statement": "In a repeat over array path A the loop variable of slot n denotes A/n for every n.", "quantifier": "every repeat count, array expression and set of locals", "why_tests_cant": "Every count and name combination, including a loop variable named like the array.", "anchors": ["src/rendering.rs: render_element lines 253-277", "src/view_model.rs: Schema::index"]}
{"id": "C25", "title": "Every referenced path exists in the bound model", "statement": "After rendering, every path used by a binding or a callback argument resolves in the bound model, so callback arguments never get lost.", "quantifier": "every template", "why_tests_cant": "All combinations of expressions; later expressions may overwrite earlier ones.", "anchors": ["src/view_model.rs: Schema::define_value, index, field", "src/rendering.rs"]}
{"id": "C26", "title": "Rendering terminates", "statement": "View::from_html terminates for every document whose templates do not refer to themselves.", "quantifier": "every template set", "why_tests_cant": "Recursion depth is unbounded.", "anchors": ["src/rendering.rs: render_element lines 218-231"]}
{"id": "C27", "title": "Rendered tree mirrors the template", "statement": "Rendering creates one fresh node per template node (count copies for a repeat, one for a link), each element's template children list equals its attached children, ids are unique, and children have larger ids than their parent.", "quantifier": "every template", "why_tests_cant": "All template trees.", "anchors": ["src/rendering.rs: render, render_node, render_element, render_text"]}
{"id": "C28", "title": "Hover state is exact", "statement": "After every processed input the elements in hover state are exactly the displayed ones whose box contains the pointer, that are visible and accept pointer events; elements no longer displayed lose hover on the next update.", "quantifier": "every tree, every geometry, every history of inputs and tree changes", "why_tests_cant": "All event sequences and geometries.", "anchors": ["src/view_model.rs: handle_elements_input, calculate_mouse_hovers, hovers"]}
{"id": "C29", "title": "Enter and leave alternate", "statement": "For every element, the mouse-enter and mouse-leave events it is sent over any history strictly alternate, starting with enter.", "quantifier": "every history of updates", "why_tests_cant": "All histories.", "anchors": ["src/view_model.rs: handle_elements_input MouseMove"]}
{"id": "C30", "title": "At most one element has focus", "statement": "At any time at most one element is in focus state, it is the one keyboard input is delivered to, and focus/blur events are properly paired: each element that gets focus is blurred before another one is focused.", "quantifier": "every history of inputs", "why_tests_cant": "All histories, nested focusable elements, several presses in one update.", "anchors": ["src/view_model.rs: handle_elements_input MouseButtonDown"]}
{"id": "C31", "title": "Click requires a press on the same element", "statement": "An onclick is sent to an element only on a left release while the pointer is over it and only if a button was pressed over it since the previous release; active state is set exactly between press and release.", "quantifier": "every history of inputs", "why_tests_cant": "All interleavings of moves, presses and releases.", "anchors": ["src/view_model.rs: handle_elements_input MouseButtonUp"]}
{"id": "C32", "title": "A drag ends with the release of the button", "statement": "Releasing the mouse button ends a drag in progress; afterwards clicks work normally.", "quantifier": "every history of inputs", "why_tests_cant": "Needs a release away from any drop target.", "anchors": ["src/view_model.rs: handle_elements_input lines 362-396"]}
{"id": "C33", "title": "Drag lifecycle is well formed", "statement": "ondragenter/over/leave, ondrop and ondragend are only sent while a drag started by ondragstart is in progress; a drop is followed immediately by the dragend of the source and ends the drag.", "quantifier": "every history of inputs", "why_tests_cant": "All histories.", "anchors": ["src/view_model.rs: handle_elements_input"]}
{"id": "C34", "title": "Keyboard input goes to the focused element only", "statement": "KeyDown/KeyUp/Char produce a message exactly when some element has focus and has the matching listener, and only for that element.", "quantifier": "every state and event", "why_tests_cant": "All states.", "anchors": ["src/view_model.rs: handle_elements_input lines 403-423"]}
{"id": "C35", "title": "Messages have the documented shape", "statement": "A listener with k resolvable arguments after the keyword produces the plain keyword (k=0), {keyword: arg} (k=1) or {keyword: [args]} (k>=2), with arguments in order; elements without the listener produce nothing.", "quantifier": "every handler, model and event", "why_tests_cant": "Argument lists of any length.", "anchors": ["src/view_model.rs: emit"]}
{"id": "C36", "title": "Messages belong to their update", "statement": "The output of an update contains exactly the messages caused by that update's events, in event order; none is lost, duplicated or carried over, and processing a batch equals processing its events one after the other.", "quantifier": "every history of batches", "why_tests_cant": "All batchings of all event sequences.", "anchors": ["src/view_model.rs: handle_output"]}
{"id": "C37", "title": "Input capture flag", "statement": "is_input_captured is false exactly when the pointer is over no interactive element, nothing is dragged or focused and no press is pending.", "quantifier": "every history", "why_tests_cant": "All states.", "anchors": ["src/view_model.rs: handle_output lines 263-275"]}
{"id": "C38", "title": "Input handling never fails", "statement": "handle_output returns Ok for every tree produced by rendering and every history of updates.", "quantifier": "every rendered tree and history", "why_tests_cant": "All histories including elements hidden while hovered, pressed, focused or dragged.", "anchors": ["src/view_model.rs: handle_output"]}
{"id": "C39", "title": "Selector matching is CSS matching for the supported subset", "statement": "A selector built from type, id, class, attribute, universal and pseudo-class parts and child combinators matches an element exactly when CSS says so (each compound matches the element or the ancestor at the right distance); a rule matches when one of its selectors does.", "quantifier": "every selector and every tree", "why_tests_cant": "Unbounded selectors and trees.", "anchors": ["src/css/matching.rs: match_style, match_complex_selector, match_simple_selector"]}
{"id": "C40", "title": "Adjacent sibling combinator", "statement": "a + b matches b exactly when the immediately preceding sibling of b matches a.", "quantifier": "every tree and position", "why_tests_cant": "Wrong only at particular positions among siblings.", "anchors": ["src/css/matching.rs: find_next_target lines 50-59"]}
{"id": "C41", "title": "Unsupported combinators never match", "statement": "Selectors using the descendant or general sibling combinator never match any element.", "quantifier": "every selector and tree", "why_tests_cant": "All trees.", "anchors": ["src/css/matching.rs: find_next_target", "src/css/reader.rs: lines 79-84"]}
{"id": "C42", "title": "Precomputed rule lists are exact", "statement": "Whatever the history of attribute changes and pseudo-class states, the rules applied to an element are exactly the stylesheet rules that match it now, in stylesheet order.", "quantifier": "every stylesheet and every history of dynamic attribute values", "why_tests_cant": "A cache validity property over all histories.", "anchors": ["src/view.rs: calculate_elements_stylesheet", "src/styles/mod.rs: Cascade::apply_styles lines 78-91"]}
{"id": "C43", "title": "Last declaration wins", "statement": "For each longhand property the computed value is the one of the last declaration, in rule order then declaration order, that sets it; inline style comes after all rules.", "quantifier": "every list of matching rules and declarations", "why_tests_cant": "All lists.", "anchors": ["src/styles/mod.rs: compute_declaration_block, apply_styles", "src/styles/compute_style.rs"]}
{"id": "C44", "title": "Shorthand expansion", "statement": "Box shorthands (margin, padding, border-width, border-color, border-radius) with 1 to 4 values set the four sides as CSS prescribes and nothing else; the other shorthands set exactly their longhands.", "quantifier": "every value list", "why_tests_cant": "All values; all sides.", "anchors": ["src/styles/compute_style.rs: compute_style"]}
{"id": "C45", "title": "Variables resolve to the innermost definition", "statement": "var(--x) is replaced by the value of the last definition of --x in the element's rules so far, else the one inherited from the nearest ancestor; definitions of siblings are invisible; resolution terminates for acyclic definitions.", "quantifier": "every set of definitions and nesting", "why_tests_cant": "Unbounded chains of definitions.", "anchors": ["src/styles/mod.rs: compute_shorthand, set_variable, get_variable", "src/view.rs: apply_styles"]}
{"id": "C46", "title": "Styling terminates for every stylesheet", "statement": "Computing styles terminates for every stylesheet that parses.", "quantifier": "every stylesheet", "why_tests_cant": "Cyclic variable definitions.", "anchors": ["src/styles/mod.rs: compute_shorthand"]}
{"id": "C47", "title": "Style application is deterministic", "statement": "The outcome of applying the computed properties does not depend on the (random) iteration order of the hash map.", "quantifier": "every set of computed properties and every iteration order", "why_tests_cant": "n! iteration orders; the hash seed is random per process.", "anchors": ["src/styles/mod.rs: apply_styles lines 116-123", "src/styles/apply.rs"]}
{"id": "C48", "title": "Styles follow the rules that match now", "statement": "When a rule stops matching, the properties it set revert: appearance depends only on the currently matching rules, the inline style and the parent.", "quantifier": "every history of matching rule sets", "why_tests_cant": "All histories.", "anchors": ["src/styles/default.rs: reset_element_style", "src/view.rs: apply_styles line 373"]}
{"id": "C49", "title": "Length units", "statement": "Lengths resolve to px by their unit: px as is, em relative to the parent font size, rem to 16px, vw/vh/vmin/vmax to 1% of the viewport sizes; percentages are kept relative; Vmin <= Vmax resolution for non-negative values.", "quantifier": "every number, unit and viewport", "why_tests_cant": "Infinite numeric domain.", "anchors": ["src/styles/apply.rs: parse_dimension_length and friends"]}
{"id": "C50", "title": "Inheritance", "statement": "Color, font family/size/style/weight, line height and pointer-events of an element without declarations for them equal those of its parent, through any depth of text and elements.", "quantifier": "every tree and depth", "why_tests_cant": "Unbounded depth.", "anchors": ["src/styles/inherit.rs", "src/view.rs: apply_styles"]}
{"id": "C51", "title": "Animation progress stays in range", "statement": "With a positive duration the progress of an animation lies in [0,1], never plays before its delay, reaches exactly 1 at the end of a finite animation and stays there; time only moves forward while running.", "quantifier": "every duration, delay, iteration count and sequence of frame times", "why_tests_cant": "All frame schedules.", "anchors": ["src/animation.rs: Animator::update"]}
{"id": "C52", "title": "Animation update terminates", "statement": "Animator::update terminates for every animation definition.", "quantifier": "every duration, delay, iteration count", "why_tests_cant": "Non-termination occurs for particular combinations (negative duration).", "anchors": ["src/animation.rs: Animator::update lines 163-166"]}
{"id": "C53", "title": "Keyframe interpolation", "statement": "At progress p the animated property is the value of the keyframe at that percentage if one exists, otherwise the interpolation of the two surrounding keyframes; it never panics and the result lies between the two keyframe values.", "quantifier": "every keyframe set and progress", "why_tests_cant": "All keyframe tables.", "anchors": ["src/animation.rs: play_track, animate", "src/styles/compute_animation_tracks.rs"]}
{"id": "C54", "title": "Interpolation is bounded and exact at the ends", "statement": "animate(a,b,0)=a, animate(a,b,1)=b and for 0<=t<=1 every numeric result lies between a and b; color channels stay in 0..255 and between the endpoint channels; incompatible values switch at one half.", "quantifier": "every pair of values and t in [0,1]", "why_tests_cant": "Continuum of t.", "anchors": ["src/animation.rs: animate, number, percentage, dimension, color"]}
{"id": "C55", "title": "Transitions converge", "statement": "After a property with a transition changes to a new value and the value then stays the same, the displayed value starts from the old displayed value, stays between old and new and equals the new value once the transition time has elapsed.", "quantifier": "every pair of values, duration and sequence of frame times", "why_tests_cant": "All frame schedules.", "anchors": ["src/animation.rs: Transition::play, init_after_style_applied"]}
{"id": "C56", "title": "Transition playing terminates", "statement": "Playing transitions terminates on every frame.", "quantifier": "every transition state and computed style", "why_tests_cant": "Needs a property that first gets a value after the transition was created.", "anchors": ["src/animation.rs: Transition::play lines 55-66"]}
{"id": "C57", "title": "Final positions", "statement": "The absolute position of every displayed element is the sum of the layout offsets on its path from the body minus the scroll offsets of its strict ancestors.", "quantifier": "every tree and layout", "why_tests_cant": "Unbounded depth.", "anchors": ["src/view.rs: compute_final_positions_and_clipping"]}
{"id": "C58", "title": "Opacity and clipping", "statement": "The opacity of an element is the product of the self opacities on its path; it is clipped by its nearest scrolling strict ancestor and by nothing if there is none.", "quantifier": "every tree", "why_tests_cant": "Unbounded depth.", "anchors": ["src/view.rs: compute_final_positions_and_clipping"]}
{"id": "C59", "title": "Scroll offsets stay in range", "statement": "Scroll offsets always lie between 0 and the overflow of the content on each axis; an element scrolls only if its content overflows.", "quantifier": "every layout and every history of wheel offsets", "why_tests_cant": "All histories and geometries.", "anchors": ["src/styles/scrolling.rs: ensure, offset"]}
{"id": "C60", "title": "Whitespace normalisation of text", "statement": "Reading a text node never yields a line break in a static span, keeps binders in order, keeps single-line text unchanged and never changes non-blank characters.", "quantifier": "every text", "why_tests_cant": "All strings.", "anchors": ["src/html/reader.rs: parse_content Rule::Text"]}
{"id": "C61", "title": "Template links", "statement": "A link to a template behaves as the template root with the link's bindings handled first; the href itself is not a binding; unknown templates are reported as an error; only the first body and single-child templates with an id before it count.", "quantifier": "every document", "why_tests_cant": "All documents.", "anchors": ["src/html/reader.rs: as_template_link", "src/view.rs: from_html", "src/rendering.rs"]}
{"id": "C62", "title": "Pointer shape", "statement": "The reported cursor is that of the topmost hovered element that declares one, else auto.", "quantifier": "every stack of hovered elements", "why_tests_cant": "All stacks.", "anchors": ["src/view_model.rs: handle_output lines 263-270"]}
{"id": "C63", "title": "Property names are unambiguous", "statement": "Each supported CSS property name denotes one property and different names denote different properties.", "quantifier": "the whole property table", "why_tests_cant": "593 entries, checked pairwise.", "anchors": ["src/css/model.rs: PropertyKey::parse"]}
{"id": "C64", "title": "Colors", "statement": "A #rrggbb / #rrggbbaa literal denotes exactly its bytes (opaque without alpha); rgb()/rgba() components are clamped to 0..255.", "quantifier": "every color literal and component", "why_tests_cant": "All literals.", "anchors": ["src/css/reader.rs: read_color", "src/styles/compute_function.rs"]}
{"id": "C65", "title": "What a view shows is its template read with the last value", "statement": "After any updates, walking over a view from its body gives exactly the tree its template describes for the last value: each text with its expressions replaced, each element with its tag and attributes, conditional children where their condition holds and repeated children once for each item, in order. Earlier values leave no trace.", "quantifier": "every document, sequence of values and transformers", "why_tests_cant": "All templates, all values and all histories of values before the last one.", "anchors": ["src/view.rs: View::update, body, Fragment", "src/view_model.rs: bind, bind_value, Binding", "src/rendering.rs", "src/tree.rs"]}
{"id": "C66", "title": "Pointer events go to each element once, innermost first", "statement": "onmousedown and onmouseup are sent exactly once to every element under the pointer, innermost first, and onmousemove exactly once to every element the pointer is over after the move; none of them is sent at any other time.", "quantifier": "every document, history of updates, layout and event sequence", "why_tests_cant": "All nestings of elements and all event sequences.", "anchors": ["src/view_model.rs: handle_elements_input, calculate_mouse_hovers"]}
{"id": "C67", "title": "Styling a frame comes to an end", "statement": "Updating a view comes back from styling with a result and without panic, provided that no variable is defined (directly or indirectly) by itself, no rule uses the + combinator, animations and transitions have positive durations, and each transition has seen a value of its property or gets none in this frame.", "quantifier": "every document, stylesheet, state of animations and transitions, viewport and iteration order of hash maps", "why_tests_cant": "A hang or panic may need any combination of rules, values and states.", "anchors": ["src/styles/mod.rs: apply_styles", "src/view.rs: apply_styles", "src/animation.rs: Animator::play, Transition::play"]}
{"id": "C68", "title": "Reading a template comes to an end", "statement": "Reading any text as a template ends with a document or a syntax error; it never hangs and never panics.", "quantifier": "every text", "why_tests_cant": "All strings; the grammar is recursive and the reader unwraps what the grammar promises.", "anchors": ["src/html/html.pest", "src/html/reader.rs: read_html, parse_content, parse_binder, parse_element_bindings"]}
{"id": "C69", "title": "Templates are read as written", "statement": "Every document written in the documented syntax (elements, void elements, scripts, comments, texts with binders, all kinds of bindings, white space between them) is read as exactly that document: tags, bindings, binder paths, transformers, arguments, counts, spans and nesting; so no text stands for two documents.", "quantifier": "every document and every way of writing it", "why_tests_cant": "All documents of any depth and all choices of names, values, white space and comments.", "anchors": ["src/html/html.pest", "src/html/reader.rs: read_html"]}
{"id": "C70", "title": "Reading a stylesheet comes to an end", "statement": "Reading any text as a stylesheet ends with a stylesheet or a syntax error, and reading any text as the value of a style attribute ends with declarations; neither hangs or panics.", "quantifier": "every text", "why_tests_cant": "All strings; the grammar is recursive and the reader unwraps what the grammar promises.", "anchors": ["src/css/css.pest", "src/css/reader.rs: read_css, read_inline_css"]}
{"id": "C71", "title": "Stylesheets are read as written", "statement": "Every stylesheet written in the supported syntax (rules with all kinds of selectors and combinators, declarations of supported properties, variables and unknown properties, all kinds of values, functions, keyframes, white space and comments) is read as exactly those rules in order; of several animations with one name the last counts; the same holds for inline declarations; so no text stands for two stylesheets.", "quantifier": "every stylesheet and every way of writing it", "why_tests_cant": "All stylesheets of any size and nesting, and all choices of names, numbers, white space and comments.", "anchors": ["src/css/css.pest", "src/css/reader.rs: read_css, read_inline_css", "src/css/model.rs: PropertyKey::parse, Units::parse"]}
{"id": "C72", "title": "Keywords, colours and numbers mean what CSS says", "statement": "The keyword, colour or number that a displayed element is last given for a supported property means what CSS says: `justify-content: space-around` distributes the content with space around, `color: red` is red, `opacity: 50%` is one half, and so on for every supported property and word.", "quantifier": "every document, stylesheet, element, supported property and supported value, every hash-map iteration order", "why_tests_cant": "there are about a hundred pairs of property and word, and each has to survive the cascade, the other properties applied before and after in a random order, and any document around it", "anchors": ["src/styles/apply.rs: Cascade::apply, resolve_color, resolve_font_weight, map_align_items, map_align_content, resolve_overflow", "src/styles/mod.rs: Cascade::apply_styles"]}
{"id": "C73", "title": "Opening a view", "statement": "Opening a view from a document text and a stylesheet text comes to an end and gives the view of the document and the stylesheet these texts are written for; an error value is returned only if one of the texts is not well written or a link is to a template that does not exist; it never panics.", "quantifier": "every pair of texts, every document and stylesheet and every way of writing them, every translator, set of transformers and layout solver", "why_tests_cant": "all texts, trees and template graphs; termination", "anchors": ["src/view.rs: View::from_html, calculate_elements_stylesheet", "src/html/reader.rs: read_html", "src/css/reader.rs: read_css", "src/rendering.rs: Renderer::render"]}
{"id": "C74", "title": "Updating a view comes back", "statement": "A view that has been opened can be updated again and again: with values that fit its template every update comes back with its messages, whatever the input, the time and the window, and no update returns an error value.", "quantifier": "every document, stylesheet, sequence of values, input events, times, window sizes and hash-map iteration orders, of any length", "why_tests_cant": "unbounded histories, and every order in which hash maps are iterated", "anchors": ["src/view.rs: View::update, update_tree, apply_styles", "src/view_model.rs: ViewModel::bind", "src/styles/mod.rs: Cascade::apply_styles"]}
{"id": "C75", "title": "From texts to display", "statement": "A document and a stylesheet written as texts, opened and updated any number of times, show what the template describes for the last value; styles, times, window sizes and input do not change which elements, attributes and texts are shown.", "quantifier": "every document, stylesheet and way of writing them, every history of updates with values that fit, every input, time, window size and iteration order", "why_tests_cant": "the composition of reading, opening, binding, styling, placing and input over unbounded histories", "anchors": ["src/view.rs: View::from_html, View::update", "src/rendering.rs: Renderer::render", "src/view_model.rs: ViewModel::bind"]}
{"id": "C76", "title": "The view fills the window", "statement": "After every update the view is laid out for the window size given with that update.", "quantifier": "every document, stylesheet and sequence of updates with any window sizes", "why_tests_cant": "all histories of window sizes", "anchors": ["src/view.rs: View::update (detect viewport changes)"]}
{"id": "C77", "title": "From stylesheet to look", "statement": "After any history of updates, a displayed element without animations and transitions has, for every property, the value of the last declaration for it among the rules of the stylesheet whose selectors match it (as CSS says, in the document as it is displayed now) followed by its inline style, with lengths in pixels for the window of the last update and the font size of its displayed parent, and variables from itself or its displayed ancestors; an inherited property nobody declares is the parent's.", "quantifier": "every document and stylesheet, every sequence of updates with any values, inputs, window sizes, times and iteration orders, every element and every property", "why_tests_cant": "the composition of reading, binding, matching, variables, shorthands, styling and placing over unbounded documents and histories", "anchors": ["src/view.rs: View::from_html, View::update", "src/styles/: Cascade", "src/css/matching.rs: match_style"]}
{"id": "C78", "title": "Where things are", "statement": "After every update each displayed element is where the layout engine puts it for the styles of that update: its position is the sum of the engine's offsets on its path less what its ancestors are scrolled by, its size is the engine's, its opacity the product of the opacities on its path, and it is clipped by its nearest overflowing ancestor. If nothing is scrolled, an element is hovered exactly if it is visible, takes pointer events and the mouse is in the rectangle the engine computed for it.", "quantifier": "every document, stylesheet, layout engine and history of updates with any values, inputs, times, window sizes and iteration orders; every displayed element", "why_tests_cant": "unbounded depth and histories, every layout engine", "anchors": ["src/view.rs: View::update, compute_final_positions_and_clipping", "src/view_model.rs: ViewModel::handle_output, hover"]}
{"id": "C79", "title": "Scrolling with the wheel", "statement": "Turning the mouse wheel over an element whose content overflows scrolls it, within the range of its content.", "quantifier": "every document, stylesheet, layout engine and history of updates and input", "why_tests_cant": "all histories of input", "anchors": ["src/view_model.rs: handle_output (InputEvent::MouseWheel)", "src/styles/scrolling.rs: Scrolling::offset, ensure"]}
{"id": "C80", "title": "Images show their source", "statement": "After every update a displayed image shows the picture its current src attribute names: it has exactly one child, which fills it, has that picture as its only background and nothing else, whatever the stylesheet says.", "quantifier": "every document and stylesheet, every history of updates with any values, inputs, times, window sizes and iteration orders; every displayed image", "why_tests_cant": "all documents and histories, including repeats, conditionals and links", "anchors": ["src/rendering.rs: render_bg_image", "src/controls/img.rs: update_img_src", "src/view.rs: update_tree (Reaction::Bind), calculate_elements"]}
{"id": "C81", "title": "Animations follow the clock", "statement": "After any run of a program every animation has been playing for exactly the sum of the times of those updates in which its element was displayed and it was running; and the element looks as its keyframes say at the progress that belongs to that time, or as the stylesheet says before the delay has passed.", "quantifier": "every document and stylesheet, every history of updates with any values, inputs, times, window sizes and iteration orders; every displayed element with an animation", "why_tests_cant": "all histories of updates with arbitrary frame times, all keyframes", "anchors": ["src/view.rs: View::update, calculate_elements", "src/animation.rs: Animator::update, Animator::play", "src/styles/mod.rs: Cascade::apply_styles", "src/styles/compute_animation_tracks.rs"]}
{"id": "C82", "title": "Layouts are up to date", "statement": "Whatever results of earlier updates the layout engine has kept and uses, it never takes a node for one with another layout style, other children or another text than it has in this update; and the program does what it would do if every layout were computed again.", "quantifier": "every document and stylesheet, every history of updates, everything the engine may have kept and every choice it may make of what to use", "why_tests_cant": "all histories, and all choices of the engine among the results it has kept; a stale layout shows only after particular sequences of updates", "anchors": ["src/view.rs: View::update, update_tree, apply_styles (set_style), measure_text", "src/controls/img.rs: update_img_src"]}
{"id": "C83", "title": "Transitions follow the clock", "statement": "When the value that stylesheet and animations give a property of a displayed element with a transition changes in one update of a program and then stays, the element shows in the update of the change the value it had come to, and in each later update the value on the way from there to the new one that belongs to the time passed since the change; after the duration of the transition it shows the new value.", "quantifier": "every document and stylesheet, every history of updates before the change, any number of updates with any times before and after it, every displayed element and property with a transition", "why_tests_cant": "all histories of updates with arbitrary frame times and changes of the declared values at any moment, also in the middle of a running transition", "anchors": ["src/animation.rs: Transition::play, Transition::init_after_style_applied, Animator::update", "src/styles/mod.rs: Cascade::apply_styles", "src/view.rs: View::update"]}
{"id": "C84", "title": "A program does the same every time", "statement": "A program that is opened for the same document and stylesheet and gets the same values, inputs, times and window sizes sends the same messages and displays the same, in every run.", "quantifier": "every document and stylesheet, every history of updates, all orders in which the hash maps of each update may be iterated and all kept results the layout engine may use", "why_tests_cant": "the iteration order of hash maps is random in every run; all orders, all histories", "anchors": ["src/view.rs: View::update", "src/styles/mod.rs: Cascade::apply_styles", "src/styles/compute_animation_tracks.rs", "src/animation.rs: Animator::play"]}
{"id": "C85", "title": "A program left alone stays as it is", "statement": "When nothing new comes (the same value, no input, the same window size), a program without animations and transitions stays as it is, however often it is updated, and reports the same each time.", "quantifier": "every document and stylesheet without animations and transitions, every history of updates before, any number of idle updates at any times, all orders of hash maps and all kept results of the layout engine", "why_tests_cant": "styling, placing and hit testing feed back into the next update; that they have come to rest for good must hold for every program, state and number of updates", "anchors": ["src/view.rs: View::update", "src/styles/mod.rs: Cascade::apply_styles", "src/view.rs: compute_final_positions_and_clipping", "src/view_model.rs: handle_output"]}
{"id": "C86", "title": "The metrics count what happens", "statement": "The counters a view publishes say what the updates did: each update is counted once; so is each element or text shown by it, each element that gets a style of its own, each element whose layout style is another than before, each rule kept for those elements (by kind) and each property of their styles, by whether it could be applied; the number of rules is that of the stylesheet. Counting has no effect on the program.", "quantifier": "every document, stylesheet and history of updates, every further update (frame, value, order of hash maps) and every state of the counters", "why_tests_cant": "elements are reached by two different recursions over a tree that bindings rebuild; that each is counted exactly once must hold for every tree, history and style", "anchors": ["src/metrics.rs: ViewMetrics, CascadeMetrics", "src/styles/stats.rs: CascadeStats", "src/view.rs: View::update, apply_styles, compute_final_positions_and_clipping", "src/styles/mod.rs: Cascade::apply_styles"]}
{"id": "C87", "title": "A border that is shown has room in the layout", "statement": "Whenever an element shows a border on a side (Borders::top, right, bottom, left return one), the layout style the engine works with sets aside exactly the width of that border on that side, whatever rules, animations, transitions and inputs made the border what it is.", "quantifier": "every document, stylesheet, history of updates and inputs, every element and side, all iteration orders of hash maps", "why_tests_cant": "the width is kept in two places with different lifetimes (the element's is reset in every update, the layout's is not); that they never disagree about a border that is shown must hold for every history", "anchors": ["src/styles/apply.rs: Cascade::apply", "src/styles/default.rs: reset_element_style", "src/element.rs: Borders::top, right, bottom, left", "src/view.rs: apply_styles"]}
{"id": "C88", "title": "Animations and transitions are set up as declared", "statement": "After an update, the animation number i of a displayed element has the name, duration, delay, number of iterations, direction, fill mode, play state and timing function that the stylesheet and the inline style last declare for number i, its transition number i the property, duration, delay and timing function; a parameter about which nothing is declared stays as it was, and is the initial one for a new animation. When the animation plays, direction, fill mode and timing function shape its way as CSS says.", "quantifier": "every document and stylesheet, every history of updates, every displayed element, every i, every supported property of animations and transitions and every word or value for it, every hash-map iteration order", "why_tests_cant": "all combinations of declared parameters over all histories: each parameter has to survive the other declarations, which are applied in a random order, and the animations that are already running", "anchors": ["src/styles/apply.rs: Cascade::apply, resolve_timing, resolve_iterations", "src/element.rs: get_animator_mut, get_transition_mut", "src/styles/compute_style.rs", "src/animation.rs: Animator, Transition"]}
{"id": "C89", "title": "The duration pipe shows the duration", "statement": "Every view has a pipe named duration, until View::pipe registers another of that name. {place|duration} over a number of seconds shows a decimal number with a unit (s, ms, µs, ns) that differs from the number by at most half a nanosecond, in the longest unit that fits and without superfluous digits; what is not a number is shown as it is, and no value makes the update crash.", "quantifier": "every number and every other value, every sequence of fitting updates, every other registered pipe", "why_tests_cant": "numbers of all magnitudes, rounding and unit boundaries; the range is far beyond sampling", "anchors": ["src/view_model.rs: default_transformers, duration, react", "src/view.rs: View::pipe"]}
{"id": "C90", "title": "The inline style is what the style attribute says", "statement": "After any sequence of updates, the inline style with which an element is styled is the list of declarations its style attribute is written with now; an element without the attribute has no inline style. Exception: the text a bound @style has before anything was bound is not read.", "quantifier": "every document, stylesheet, sequence of updates, element and every way to write the declarations", "why_tests_cant": "the style text changes with every bound value, in any order, in repeated and hidden elements; all histories have to be covered", "anchors": ["src/rendering.rs: render_element", "src/view.rs: update_tree (Reaction::Bind)", "src/css/reader.rs: read_inline_css"]}
{"id": "C91", "title": "Animations play right in 32-bit arithmetic", "statement": "With every result rounded to a 32-bit number, the progress of an animation with a positive duration is a number from 0 to 1 in every frame, nothing is shown exactly before the delay has passed on its clock, and when its iterations are over it stands at 100%. The last part is false: with three iterations of 0.1s it ends at 0%.", "quantifier": "every 32-bit duration, delay, number of iterations, every sequence of frame lengths, every rounding to the nearest", "why_tests_cant": "rounding errors depend on the exact values of duration and times; every combination of 32-bit numbers has to be covered", "anchors": ["src/animation.rs: Animator::update, Animator::play"]}
{"id": "C92", "title": "Animation updates come to an end in 32-bit arithmetic", "statement": "The update of an animation with a positive duration comes to an end, and its clock goes on with every frame. Both are false for long runs: an infinite animation hangs when its clock has passed 2^26 iterations, and a clock stands still when the frames are shorter than 1/2^25 of it.", "quantifier": "every 32-bit duration and clock, every frame length, every rounding to the nearest", "why_tests_cant": "the failure appears after hours or days of running only; termination for all clock values is a statement about a loop", "anchors": ["src/animation.rs: Animator::update"]}
{"id": "C93", "title": "Interpolation and transitions stay in bounds in 32-bit arithmetic", "statement": "An interpolated value of 32-bit numbers lies between its ends, is exactly the ends at progress 0 and 1, does not go back as the progress grows, and a transition shows exactly its target when its duration has passed.", "quantifier": "every pair of 32-bit values and colours, every 32-bit progress, every sequence of frames, every rounding to the nearest", "why_tests_cant": "a + (b - a) * t is known to overshoot in other arithmetics; 2^96 combinations", "anchors": ["src/animation.rs: animate, number, percentage, dimension, color, Transition::play"]}
{"id": "C94", "title": "Scroll offsets stay in range in 32-bit arithmetic", "statement": "With every result rounded to a 32-bit number, a scroll offset is never negative and never larger than what the content sticks out by.", "quantifier": "every history of layouts and wheel events, every rounding to the nearest", "why_tests_cant": "all histories and all 32-bit sizes", "anchors": ["src/styles/scrolling.rs: Scrolling::ensure, Scrolling::offset"]}
{"id": "C95", "title": "Keyframes in 32-bit arithmetic", "statement": "In every frame of an animation with a positive duration, with the rounding of the crate's 32-bit numbers at every operation, playing the animation does not panic. It reaches a step of the keyframes that is at most 100 and is the progress in percent rounded down, or the next step when less than 2^-18 percent are missing. Every property that some keyframe sets is displayed with the value of its keyframe at that step, or, between two keyframes, with a value between theirs; all other properties keep their values. The clock behind it is the sum of the frame lengths up to half a last place for every frame.", "quantifier": "every animation and keyframes, every element style, every order of the tracks, every frame length and clock, every rounding to the nearest f32", "why_tests_cant": "Rounding errors depend on every bit of durations, frame lengths and keyframe values; tests see a few of 2^32 numbers per operand.", "anchors": ["src/animation.rs: Animator::play, Animator::play_track, Animator::update, Animator::animate", "src/styles/compute_animation_tracks.rs: compute_animation_tracks"]}
{"id": "C96", "title": "Positions, opacity and clipping in 32-bit arithmetic", "statement": "With the rounding of 32-bit numbers at every operation, after a frame: the opacity of every displayed element is from 0 to 1, not more than its own and not more than that of the element it is in (exactly that if its own is 1, and 0 if one above has 0); elements in one container keep the order the layout gave them on each axis, an element at the corner of an unscrolled container is exactly there, and the position is the sum of the layout's locations less the scrolling up to half a last place per operation; sizes, clipping and which elements scroll are not affected by rounding.", "quantifier": "every tree, every layout, every scrolling, every rounding to the nearest f32, every bound on positions", "why_tests_cant": "Errors add up along arbitrarily deep trees and depend on all bits of the layout's numbers.", "anchors": ["src/view.rs: View::compute_final_positions_and_clipping", "src/styles/scrolling.rs: Scrolling::ensure"]}
{"id": "C97", "title": "Lengths, percentages and times in 32-bit arithmetic", "statement": "With the rounding of 32-bit numbers at every operation: a number written in a stylesheet is read as the nearest 32-bit number; a length in px is that number, one in em or rem the nearest number to the exact product, one in vw, vh, vmin or vmax is off by at most one part in 2^22 and exact where 32 bits hold it and a hundred times it (1em is the font size, 1rem is 16, 100vw is the width of every viewport of whole pixels). Larger numbers, font sizes and viewports never give smaller lengths; vmin is the smaller and vmax the larger of vw and vh. n% is read exactly as the text of n/100 and n ms as n/1000 s for every n that 32 bits hold; percentages from 0 to 100 are from 0 to 1. A font size in percent up to 100 is never more than the one around.", "quantifier": "every written number and unit, every font size and viewport, every rounding to the nearest f32", "why_tests_cant": "All decimal texts times all 32-bit sizes; double rounding shows only for particular bit patterns.", "anchors": ["src/css/reader.rs: read_number, read_dimension, read_percentage, read_seconds", "src/styles/apply.rs: parse_dimension_length, resolve_length, dimension_length, dimension, lengthp_auto"]}
{"id": "C98", "title": "An animation starts and ends with what is shown without it", "statement": "Keyframe animations that have no keyframe at 0% or at 100% start from and end with a built-in initial value of the property. Giving a displayed property its initial value changes nothing of an element for which nothing is declared (apart from adding blank backgrounds), so such animations begin and end without a jump. False of the code for box-sizing, for border colours inside coloured elements, and for font size, font weight, font style and pointer events inside elements that have other than the default values.", "quantifier": "every displayed property, every parent element and layer number, every sizes in force", "why_tests_cant": "Ranges over every property and every inherited style; two independent tables (initial values, reset/inherit) must agree.", "anchors": ["src/styles/initial.rs: initial", "src/styles/apply.rs: Cascade::apply", "src/styles/default.rs: reset_element_style", "src/styles/inherit.rs: inherit", "src/styles/compute_animation_tracks.rs: compute_animation_tracks"]}
{"id": "C99", "title": "Pointing in 32-bit arithmetic", "statement": "With the rounding of 32-bit numbers: nothing is found under the pointer that is not displayed there, visible and accepting pointer events with the pointer inside its box. What is there and not found has its right or lower edge so near to the pointer that the distance is at most one part in 2^24 of that from the opposite edge. When pointer and positions are whole pixels, exactly the elements under the pointer are found.", "quantifier": "every displayed tree, every 32-bit pointer position, every rounding to the nearest", "why_tests_cant": "Depends on all bits of positions and pointer; the missed points are single numbers at the edges.", "anchors": ["src/view_model.rs: hovers, calculate_mouse_hovers"]}
{"id": "C100", "title": "Colour components in 32-bit arithmetic", "statement": "With the rounding of 32-bit numbers: a whole percentage from 0% to 100% in rgb() or rgba(), and an opacity of two decimals, gives exactly the byte the exact product gives without its fraction; any other part of 1 gives it up to 1/32768. Larger components never give less, components of 100% and more give 255, of 0 and less 0.", "quantifier": "every component, every rounding to the nearest", "why_tests_cant": "All 32-bit numbers; a single bit of rounding below a whole number changes the byte.", "anchors": ["src/styles/compute_function.rs: map_c, map_a, compute_function"]}
{"id": "C101", "title": "Data the document does not mention makes no difference", "statement": "A program that is given two series of values which agree on everything the document mentions (other keys may be added, changed or left out at any depth, objects may list their keys in another order, a missing key may stand for null and null for an empty array) does the same in both: every output, every failure, and everything that is shown and kept, now and later. Excepted are arrays given to a pipe as a whole: a transformer sees everything in them.", "quantifier": "every document and stylesheet, every history of updates, every pair of fitting values that agree, every order of hash maps and input", "why_tests_cant": "All pairs of values of any size and all histories; an unmentioned key may be read by mistake in any of the updates that follow.", "anchors": ["src/view.rs: update", "src/view_model.rs: bind, bind_value, react"]}
{"id": "C102", "title": "Rules that cannot match make no difference", "statement": "Rules that can never match anything of a document (in each selector something hopeless: a type no element has, an id, a class or an attribute that no element has and no element has bound, a pseudo class that does not exist, a pseudo element, a combinator that is not supported) can be put into its stylesheet anywhere, in any number, or taken out: opening fails alike or succeeds, and every series of updates fails alike or has the same outputs and ends with the same elements, bindings, input state and layout styles. Rules with + are excepted: they can panic.", "quantifier": "every document, every stylesheet, every set and place of such rules, every history of updates with every value, input and order of hash maps", "why_tests_cant": "All documents, stylesheets and histories: a rule that is kept for every frame could come to match, or disturb the order of the others, after any update.", "anchors": ["src/view.rs: calculate_elements_stylesheet, apply_styles", "src/css/matching.rs: match_style, match_complex_selector, has_pseudo_class_selector"]}
{"id": "C103", "title": "An input is what was asked for", "statement": "However an Input is built, its time is the last one given (0 if none was), its viewport the last one given (800 by 600 if none was), and its events are the last list given followed by every single event given after that, in the order of the calls.", "quantifier": "every chain of calls of any length in any order", "why_tests_cant": "All chains of calls of any length; an order of calls that loses or reorders events can be missed by any sample.", "anchors": ["src/input.rs: Input::new, time, viewport, events, event"]}
{"id": "C104", "title": "Rules written more than once make no difference", "statement": "A rule that is written again anywhere before the place where it stands (if it neither defines nor uses variables), or twice in a row (if it defines its variables before its properties), makes no difference: opening fails alike or succeeds, and every series of updates fails alike or has the same outputs and ends with the same elements, bindings, input state and layout styles. A rule that defines a variable after using it does make a difference when it is repeated.", "quantifier": "every document, every stylesheet, every number and place of such copies, every history of updates with every value, input and order of hash maps", "why_tests_cant": "All stylesheets, documents and histories: whether something is left over from a copy depends on everything computed between it and the rule.", "anchors": ["src/styles/mod.rs: apply_styles, compute_declaration_block", "src/styles/compute_style.rs: compute_style", "src/view.rs: calculate_elements_stylesheet, apply_styles"]}
{"id": "C105", "title": "Rules that have nothing to do with each other can change places", "statement": "Two neighbouring rules can be exchanged, any number of times anywhere in the stylesheet, if there is no property that both can set (directly or by a shorthand) and neither defines variables, or one neither defines nor uses them; where no rule, keyframe or inline style lists values for a property that takes one value. Opening fails alike or succeeds, and every series of updates fails alike or has the same outputs and ends with the same elements, bindings, input state and layout styles. Exchanging a shorthand with its longhand, or a definition of a variable with its use, does make a difference.", "quantifier": "every document, every stylesheet, every series of such exchanges, every history of updates with every value, input and order of hash maps", "why_tests_cant": "All stylesheets, documents and histories: the values written end up in a hash map in another order, and animations and transitions read it.", "anchors": ["src/styles/mod.rs: apply_styles, compute_declaration_block", "src/styles/compute_style.rs: compute_style", "src/view.rs: calculate_elements_stylesheet, apply_styles", "src/animation/mod.rs: Animator, Transition"]}
{"id": "C106", "title": "Of a document only the body and the templates it needs count", "statement": "Two documents with the same first body that agree on the templates it links to, directly or through other templates, open alike with every stylesheet, and every series of updates fails alike or has the same outputs and ends with the same elements, bindings, input state and layout styles. So anything can be added behind the body, and in front of it anything but bodies and templates that are needed.", "quantifier": "every two such documents, every stylesheet, every history of updates with every value, input and order of hash maps", "why_tests_cant": "All documents, including templates that link to each other in circles that nothing needs, and all histories.", "anchors": ["src/view.rs: View::from_html", "src/rendering.rs: render_element, Renderer", "src/html/reader.rs: as_template_link"]}
{"id": "C107", "title": "A link means the template it links to", "statement": "A document in which links are replaced by the templates they link to (with the bindings of the link, except its href, in front), in the body and in templates, any number of them, and in which children of elements that cannot have any are left out or changed, opens alike with every stylesheet, and every series of updates fails alike or has the same outputs and ends with the same elements, bindings, input state and layout styles. A template that is itself only a link is the exception: it is not followed any further.", "quantifier": "every document and every such replacement, at any depth, every stylesheet, every history of updates with every value, input and order of hash maps", "why_tests_cant": "All documents, all subsets of links and all histories; a link inside a template inside a repeat has to behave as if written out.", "anchors": ["src/rendering.rs: render_element", "src/html/reader.rs: as_template_link", "src/view.rs: View::from_html"]}
{"id": "C108", "title": "The order of parts and selectors makes no difference", "statement": "In the selectors of a rule, parts that say something of the same element can change places, be said twice and have `*` next to them, and the selectors of a rule without `+` can be listed in another order and several times: every document opens alike, and every series of updates fails alike or has the same outputs and ends with the same elements, bindings, input state and layout styles.", "quantifier": "every document, every two stylesheets whose rules are the same in these other words, every history of updates with every value, input and order of hash maps", "why_tests_cant": "All selectors of all lengths in all orders, decided once or in every frame, in all histories.", "anchors": ["src/css/matching.rs: match_style, match_complex_selector", "src/view.rs: View::from_html, compute_styles"]}
{"id": "C109", "title": "A rule with several selectors is a rule for each", "statement": "A rule whose declarations begin with its variables can be replaced by rules with the same declarations that have its selectors between them: opening fails alike or succeeds, and every series of updates fails alike or has the same outputs and ends with the same elements, bindings, input state and layout styles.", "quantifier": "every document, every stylesheet and every such replacement in it, every history of updates with every value, input and order of hash maps", "why_tests_cant": "The list is decided as a whole, once or in every frame depending on the bindings of each element and all its selectors together; all documents, lists and histories.", "anchors": ["src/css/matching.rs: match_style, has_class_selector, has_id_selector, has_attrs_selector", "src/view.rs: View::from_html, compute_styles"]}
{"id": "C110", "title": "Selectors that another one covers make no difference", "statement": "A selector of a rule that asks for everything another selector of the rule asks for (more parts, or more parents in front) can be left out or put in: opening fails alike or succeeds, and every series of updates fails alike or has the same outputs and ends with the same elements, bindings, input state and layout styles.", "quantifier": "every document, every stylesheet and every set of such selectors, every history of updates with every value, input and order of hash maps", "why_tests_cant": "All selectors and all histories: an additional selector changes which rules are decided once and which in every frame.", "anchors": ["src/css/matching.rs: match_style, match_complex_selector, has_class_selector, has_id_selector, has_attrs_selector", "src/view.rs: View::from_html, compute_styles"]}
{"id": "C111", "title": "Declarations that a later one overrides make no difference", "statement": "A declaration of a property (other than border) that is declared again with at least as many values later in the same rule, or in a later rule with the same selectors, can be left out, if the values of both are single words without variables: opening fails alike or succeeds, and every series of updates fails alike or has the same outputs and ends with the same elements, bindings, input state and layout styles.", "quantifier": "every document, every stylesheet and every set of such declarations, every history of updates with every value, input and order of hash maps", "why_tests_cant": "All properties, rules in between and histories: a declaration left out must be overwritten at every index it writes, in every frame in which its rule applies.", "anchors": ["src/styles/mod.rs: compute_declaration_block, compute_shorthand", "src/styles/compute_style.rs: compute_style", "src/view.rs: View::from_html, compute_styles"]}
{"id": "C112", "title": "Shorthands can be written out", "statement": "A rule with shorthands (padding, margin, border-width, border-color, border-radius with one to four values; overflow and background-position with one or two; border and its sides with width, style and colour; inset with one or four; gap with one; background with a colour; transition with property and duration) does the same as the rule with the longhands in their place: opening fails alike or succeeds, and every series of updates fails alike or has the same outputs and ends with the same elements, bindings, input state and layout styles.", "quantifier": "every document, every stylesheet and every set of such shorthands with every values, every history of updates with every value, input and order of hash maps", "why_tests_cant": "All values, stylesheets and histories: the longhands must go to the same places in the same order among all other declarations.", "anchors": ["src/styles/compute_style.rs: compute_style", "src/styles/mod.rs: compute_declaration_block, compute_shorthand"]}
{"id": "C113", "title": "Neighbouring rules with the same selectors can be joined", "statement": "Neighbouring rules with the same selectors do the same as one rule with all their declarations one after the other: opening fails alike or succeeds, and every series of updates fails alike or has the same outputs and ends with the same elements, bindings, input state and layout styles.", "quantifier": "every document, every stylesheet and every set of such rules, every history of updates with every value, input and order of hash maps", "why_tests_cant": "All rules and histories: whether a rule is kept, and whether it is checked in every frame, must be decided alike for both.", "anchors": ["src/view.rs: View::from_html, compute_styles", "src/css/matching.rs: match_style", "src/styles/mod.rs: compute_declaration_block"]}
{"id": "C114", "title": "Rules without declarations make no difference", "statement": "A rule without declarations can be put in or left out anywhere, if its selectors do not use +: opening fails alike or succeeds, and every series of updates fails alike or has the same outputs and ends with the same elements, bindings, input state and layout styles.", "quantifier": "every document, every stylesheet and every set of such rules, every history of updates with every value, input and order of hash maps", "why_tests_cant": "All selectors and histories: an empty rule is matched and kept like any other.", "anchors": ["src/view.rs: View::from_html, compute_styles", "src/css/matching.rs: match_style"]}
{"id": "C115", "title": "Variables can be replaced by their values", "statement": "Where a rule defines a variable as words and uses it in later declarations, the words can be written in place of var(), between other values too, up to the next definition of the variable: opening fails alike or succeeds, and every series of updates fails alike or has the same outputs and ends with the same elements, bindings, input state and layout styles.", "quantifier": "every document, every stylesheet and every set of such uses, every history of updates with every value, input and order of hash maps", "why_tests_cant": "All rules, values and histories: what a variable stands for depends on all definitions on the way, of all rules and of all ancestors.", "anchors": ["src/styles/mod.rs: compute_declaration_block, compute_shorthand", "src/styles/compute_style.rs: compute_style"]}
{"id": "C116", "title": "Variables defined again before they are used", "statement": "A definition of a variable makes no difference if the same rule defines the variable again, with only definitions and declarations without variables in between: opening fails alike or succeeds, and every series of updates fails alike or has the same outputs and ends with the same elements, bindings, input state and layout styles.", "quantifier": "every document, every stylesheet and every set of such definitions, every history of updates with every value, input and order of hash maps", "why_tests_cant": "All rules and histories: variables are inherited by children and live on in later rules.", "anchors": ["src/styles/mod.rs: compute_declaration_block, compute_shorthand"]}
