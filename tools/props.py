import json
P=[]
def p(id,title,statement,quantifier,why,anchors):
    P.append(dict(id=id,title=title,statement=statement,quantifier=quantifier,why_tests_cant=why,anchors=anchors))
# ---- values
p("C01","Truthiness of bound values","A value bound to a visibility (?/!) or tag (#) binding counts as false exactly when it is null, false, the number 0, the empty string or the empty array; every other JSON value, including every object, counts as true.","every JSON value, of any nesting and size","The JSON value space is infinite; a test checks a handful of literals.",["src/value.rs: ValueExtensions::eval_boolean"])
p("C02","Numeric evaluation of values","eval_u64/eval_usize return a value in [0, 2^64) for every JSON value, return n itself for every integer 0 <= n <= 2^53 and for every decimal string of a u64, return 0 for negative numbers, null, arrays, objects and unparsable strings.","every JSON value","2^64 integers and unboundedly many strings; saturation and rounding happen only at extremes a test rarely picks.",["src/value.rs: eval_u64, eval_usize"])
p("C03","Text of bound values","The text shown for a bound value is: empty for null, true/false for booleans, decimal digits for integers, the string itself for strings and fixed markers for arrays/objects; eval_array yields one string per array element in order and a singleton for anything else.","every JSON value","Infinite value space.",["src/value.rs: eval_string, eval_array"])
# ---- bind
p("C04","Re-binding the same value is a no-op","Calling update twice in a row with the same JSON value produces no reaction the second time and leaves the bound model unchanged, whatever values were bound before.","every template model, every binding table, every value, every prior history","Needs all pairs (model, value), including nested arrays/objects and type-mismatching values.",["src/view_model.rs: ViewModel::bind, bind_value"])
p("C05","Binding is history independent","For values that fit the template's shape, the bound model after an update depends only on the last value: it is the projection of that value on the shape of the template (missing keys become null, extra keys are ignored, null arrays become empty).","every template shape, every sequence of fitting values","Quantifies over all histories; stale state from an earlier value is exactly what a fixed test sequence misses.",["src/view_model.rs: bind_value, memorize_array_default"])
p("C06","Reactions are exactly the changes","During an update a bound path is notified if and only if what it denotes changed: a scalar path when its value differs from the previous one, an array path when its length changes, an object path when something inside changed; each path at most once, and every binding registered on a notified path reacts exactly once, in registration order.","every shape, binding table, pair of old model and new value","All (old,new) pairs and all paths; tests check a fixed list of reactions.",["src/view_model.rs: bind_value, react"])
p("C07","Binding never crashes","ViewModel::bind never panics for values that fit the template's shape. (It does for some non-fitting histories: a path bound as a scalar that receives an array and then a shorter array.)","every shape and every finite history of values","The panic needs a particular history of two values of different lengths at a non-repeated path.",["src/view_model.rs: bind_value lines 97-124"])
p("C08","Extra keys of the value are invisible","Object keys that no template expression mentions never influence the model, the reactions or any later update; a missing key is indistinguishable from an explicit null.","every shape, every value, every set of extra keys","Ranges over arbitrary extra data at any depth.",["src/view_model.rs: bind_value lines 144-173"])
p("C09","Nested repeats rebind correctly after shrink and grow","After any sequence of fitting arrays, each item of a repeated array (also an array directly inside an array) is bound item by item, so every item path is notified of its new value.","every history of array lengths and contents","Depends on the history of lengths; the default element memorised for the array is only used when the array grows again.",["src/view_model.rs: memorize_array_default, bind_value lines 97-124"])
p("C10","Repeat reactions stay inside their slots","The reaction of a repeat binding with n slots starting at s always designates s <= cursor <= end = s+n with cursor = s + min(len, n) for an array and cursor = s for anything else.","every array length, slot count and start index","Unbounded lengths.",["src/view_model.rs: Binding::react_value_change"])
p("C11","Value pipes apply in order","A binding with a pipe reacts with the composition of its registered transformers applied left to right to the new value; unknown transformer names are skipped and do not disturb the others; the same holds for callback arguments.","every pipe, transformer table and value","Pipes of any length and any mix of known and unknown names.",["src/view_model.rs: react, emit"])
p("C12","A present object is shown, a null object is hidden","An element conditioned on an object is shown exactly when the object is non-null.","every object shape and every history of object values","Depends on the transition taken (null to all-null object and back), not on the current value alone.",["src/view_model.rs: bind_value lines 144-195"])
# ---- tree
p("C13","Conditional children keep document order","After any sequence of show/hide reactions on the conditional children of an element, the children it displays are exactly the currently shown ones, in the order of the template.","every children list and every finite sequence of visibility reactions","2^n visibility patterns and all toggle orders.",["src/view.rs: update_tree Reaction::Reattach"])
p("C14","Repeated children are exactly the first k","After a repeat reaction the displayed members of the repeated block are exactly its first min(len,count) slots and other children are untouched.","every children list, block, history of lengths","All histories of growth and shrinkage.",["src/view.rs: update_tree Reaction::Repeat"])
p("C15","Repeated children keep document order","Children of an element always appear in template order, also when a repeated block grows and has siblings after it.","every children list and every sequence of reactions","Needs a shrink followed by a growth with trailing siblings.",["src/view.rs: update_tree Reaction::Repeat lines 241-245"])
p("C16","The displayed tree stays a tree","After any sequence of reactions every displayed child has exactly one parent, occurs once in its children list, belongs to the template children of that parent, and parent and child links agree; no reaction derived from template bindings fails or panics.","every rendered template and every history of reactions","An invariant over all histories.",["src/view.rs: update_tree","src/rendering.rs: render_element"])
p("C17","Spans of a text are independent","Setting one span of a text or attribute changes that span only; the text shown is the concatenation of its spans, so after any sequence of settings every span shows its last written value; an out-of-range span is ignored.","every span list and every finite sequence of writes","All write orders.",["src/element.rs: TextContent","src/view.rs: update_tree Type/Bind"])
p("C18","Bound text shows the bound value","After every update with fitting values, every text span bound to a path whose current value is not null shows exactly the text of that value (after its pipe).","every template, every history of fitting values","End-to-end over rendering, binding and tree updates and all histories.",["src/view.rs: update","src/view_model.rs: bind","src/rendering.rs: render_text"])
p("C19","Bound text is empty for null","A text span bound to a path whose value is null or missing shows the empty text.","every template and every history","Depends on history: before the first non-null value and after an array shrinks and grows the span keeps a placeholder or stale text.",["src/view_model.rs: bind_value","src/rendering.rs: render_text"])
p("C20","Conditional display follows the condition","After every update an element conditioned on a scalar path (?) is displayed iff the current value of the path is truthy, and a negated one (!) iff it is falsy.","every template and every history of fitting values","All histories; the initial state matters.",["src/view.rs: apply_default_bindings_state, update_tree","src/view_model.rs: react_value_change"])
p("C21","Boolean attributes follow their value","A tag binding (#name) makes attribute name present (with its own name as value) exactly when the last notified value is truthy, and no reaction alters any other attribute.","every element and every sequence of reactions","All sequences of reactions.",["src/view.rs: update_tree Reaction::Tag/Bind"])
p("C22","Lookup by id finds the element that has the id","get_element_by_id(x) returns an element whose current id attribute is x.","every template and every history of dynamic ids","Depends on histories of dynamic id values.",["src/view.rs: get_element_by_id, update_tree Bind","src/rendering.rs: static_id"])
# ---- renderer
p("C23","Aliases and loop variables do not leak","Rendering any template subtree leaves the set of visible local names (aliases and loop variables) exactly as before, so siblings never see each other's locals.","every template tree","Unbounded nesting and arbitrary alias names.",["src/rendering.rs: render_element lines 219-291"])
p("C24","Loop variables denote their items","In a repeat over array path A the loop variable of slot n denotes A/n for every n.","every repeat count, array expression and set of locals","Every count and name combination, including a loop variable named like the array.",["src/rendering.rs: render_element lines 253-277","src/view_model.rs: Schema::index"])
p("C25","Every referenced path exists in the bound model","After rendering, every path used by a binding or a callback argument resolves in the bound model, so callback arguments never get lost.","every template","All combinations of expressions; later expressions may overwrite earlier ones.",["src/view_model.rs: Schema::define_value, index, field","src/rendering.rs"])
p("C26","Rendering terminates","View::from_html terminates for every document whose templates do not refer to themselves.","every template set","Recursion depth is unbounded.",["src/rendering.rs: render_element lines 218-231"])
p("C27","Rendered tree mirrors the template","Rendering creates one fresh node per template node (count copies for a repeat, one for a link), each element's template children list equals its attached children, ids are unique, and children have larger ids than their parent.","every template","All template trees.",["src/rendering.rs: render, render_node, render_element, render_text"])
# ---- events
p("C28","Hover state is exact","After every processed input the elements in hover state are exactly the displayed ones whose box contains the pointer, that are visible and accept pointer events; elements no longer displayed lose hover on the next update.","every tree, every geometry, every history of inputs and tree changes","All event sequences and geometries.",["src/view_model.rs: handle_elements_input, calculate_mouse_hovers, hovers"])
p("C29","Enter and leave alternate","For every element, the mouse-enter and mouse-leave events it is sent over any history strictly alternate, starting with enter.","every history of updates","All histories.",["src/view_model.rs: handle_elements_input MouseMove"])
p("C30","At most one element has focus","At any time at most one element is in focus state, it is the one keyboard input is delivered to, and focus/blur events are properly paired: each element that gets focus is blurred before another one is focused.","every history of inputs","All histories, nested focusable elements, several presses in one update.",["src/view_model.rs: handle_elements_input MouseButtonDown"])
p("C31","Click requires a press on the same element","An onclick is sent to an element only on a left release while the pointer is over it and only if a button was pressed over it since the previous release; active state is set exactly between press and release.","every history of inputs","All interleavings of moves, presses and releases.",["src/view_model.rs: handle_elements_input MouseButtonUp"])
p("C32","A drag ends with the release of the button","Releasing the mouse button ends a drag in progress; afterwards clicks work normally.","every history of inputs","Needs a release away from any drop target.",["src/view_model.rs: handle_elements_input lines 362-396"])
p("C33","Drag lifecycle is well formed","ondragenter/over/leave, ondrop and ondragend are only sent while a drag started by ondragstart is in progress; a drop is followed immediately by the dragend of the source and ends the drag.","every history of inputs","All histories.",["src/view_model.rs: handle_elements_input"])
p("C34","Keyboard input goes to the focused element only","KeyDown/KeyUp/Char produce a message exactly when some element has focus and has the matching listener, and only for that element.","every state and event","All states.",["src/view_model.rs: handle_elements_input lines 403-423"])
p("C35","Messages have the documented shape","A listener with k resolvable arguments after the keyword produces the plain keyword (k=0), {keyword: arg} (k=1) or {keyword: [args]} (k>=2), with arguments in order; elements without the listener produce nothing.","every handler, model and event","Argument lists of any length.",["src/view_model.rs: emit"])
p("C36","Messages belong to their update","The output of an update contains exactly the messages caused by that update's events, in event order; none is lost, duplicated or carried over, and processing a batch equals processing its events one after the other.","every history of batches","All batchings of all event sequences.",["src/view_model.rs: handle_output"])
p("C37","Input capture flag","is_input_captured is false exactly when the pointer is over no interactive element, nothing is dragged or focused and no press is pending.","every history","All states.",["src/view_model.rs: handle_output lines 263-275"])
p("C38","Input handling never fails","handle_output returns Ok for every tree produced by rendering and every history of updates.","every rendered tree and history","All histories including elements hidden while hovered, pressed, focused or dragged.",["src/view_model.rs: handle_output"])
# ---- css matching
p("C39","Selector matching is CSS matching for the supported subset","A selector built from type, id, class, attribute, universal and pseudo-class parts and child combinators matches an element exactly when CSS says so (each compound matches the element or the ancestor at the right distance); a rule matches when one of its selectors does.","every selector and every tree","Unbounded selectors and trees.",["src/css/matching.rs: match_style, match_complex_selector, match_simple_selector"])
p("C40","Adjacent sibling combinator","a + b matches b exactly when the immediately preceding sibling of b matches a.","every tree and position","Wrong only at particular positions among siblings.",["src/css/matching.rs: find_next_target lines 50-59"])
p("C41","Unsupported combinators never match","Selectors using the descendant or general sibling combinator never match any element.","every selector and tree","All trees.",["src/css/matching.rs: find_next_target","src/css/reader.rs lines 79-84"])
p("C42","Precomputed rule lists are exact","Whatever the history of attribute changes and pseudo-class states, the rules applied to an element are exactly the stylesheet rules that match it now, in stylesheet order.","every stylesheet and every history of dynamic attribute values","A cache validity property over all histories.",["src/view.rs: calculate_elements_stylesheet","src/styles/mod.rs: Cascade::apply_styles lines 78-91"])
# ---- cascade
p("C43","Last declaration wins","For each longhand property the computed value is the one of the last declaration, in rule order then declaration order, that sets it; inline style comes after all rules.","every list of matching rules and declarations","All lists.",["src/styles/mod.rs: compute_declaration_block, apply_styles","src/styles/compute_style.rs"])
p("C44","Shorthand expansion","Box shorthands (margin, padding, border-width, border-color, border-radius) with 1 to 4 values set the four sides as CSS prescribes and nothing else; the other shorthands set exactly their longhands.","every value list","All values; all sides.",["src/styles/compute_style.rs: compute_style"])
p("C45","Variables resolve to the innermost definition","var(--x) is replaced by the value of the last definition of --x in the element's rules so far, else the one inherited from the nearest ancestor; definitions of siblings are invisible; resolution terminates for acyclic definitions.","every set of definitions and nesting","Unbounded chains of definitions.",["src/styles/mod.rs: compute_shorthand, set_variable, get_variable","src/view.rs: apply_styles"])
p("C46","Styling terminates for every stylesheet","Computing styles terminates for every stylesheet that parses.","every stylesheet","Cyclic variable definitions.",["src/styles/mod.rs: compute_shorthand"])
p("C47","Style application is deterministic","The outcome of applying the computed properties does not depend on the (random) iteration order of the hash map.","every set of computed properties and every iteration order","n! iteration orders; the hash seed is random per process.",["src/styles/mod.rs: apply_styles lines 116-123","src/styles/apply.rs"])
p("C48","Styles follow the rules that match now","When a rule stops matching, the properties it set revert: appearance depends only on the currently matching rules, the inline style and the parent.","every history of matching rule sets","All histories.",["src/styles/default.rs: reset_element_style","src/view.rs: apply_styles line 373"])
p("C49","Length units","Lengths resolve to px by their unit: px as is, em relative to the parent font size, rem to 16px, vw/vh/vmin/vmax to 1% of the viewport sizes; percentages are kept relative; Vmin <= Vmax resolution for non-negative values.","every number, unit and viewport","Infinite numeric domain.",["src/styles/apply.rs: parse_dimension_length and friends"])
p("C50","Inheritance","Color, font family/size/style/weight, line height and pointer-events of an element without declarations for them equal those of its parent, through any depth of text and elements.","every tree and depth","Unbounded depth.",["src/styles/inherit.rs","src/view.rs: apply_styles"])
# ---- animation
p("C51","Animation progress stays in range","With a positive duration the progress of an animation lies in [0,1], never plays before its delay, reaches exactly 1 at the end of a finite animation and stays there; time only moves forward while running.","every duration, delay, iteration count and sequence of frame times","All frame schedules.",["src/animation.rs: Animator::update"])
p("C52","Animation update terminates","Animator::update terminates for every animation definition.","every duration, delay, iteration count","Non-termination occurs for particular combinations (negative duration).",["src/animation.rs: Animator::update lines 163-166"])
p("C53","Keyframe interpolation","At progress p the animated property is the value of the keyframe at that percentage if one exists, otherwise the interpolation of the two surrounding keyframes; it never panics and the result lies between the two keyframe values.","every keyframe set and progress","All keyframe tables.",["src/animation.rs: play_track, animate","src/styles/compute_animation_tracks.rs"])
p("C54","Interpolation is bounded and exact at the ends","animate(a,b,0)=a, animate(a,b,1)=b and for 0<=t<=1 every numeric result lies between a and b; color channels stay in 0..255 and between the endpoint channels; incompatible values switch at one half.","every pair of values and t in [0,1]","Continuum of t.",["src/animation.rs: animate, number, percentage, dimension, color"])
p("C55","Transitions converge","After a property with a transition changes to a new value and the value then stays the same, the displayed value starts from the old displayed value, stays between old and new and equals the new value once the transition time has elapsed.","every pair of values, duration and sequence of frame times","All frame schedules.",["src/animation.rs: Transition::play, init_after_style_applied"])
p("C56","Transition playing terminates","Playing transitions terminates on every frame.","every transition state and computed style","Needs a property that first gets a value after the transition was created.",["src/animation.rs: Transition::play lines 55-66"])
# ---- layout
p("C57","Final positions","The absolute position of every displayed element is the sum of the layout offsets on its path from the body minus the scroll offsets of its strict ancestors.","every tree and layout","Unbounded depth.",["src/view.rs: compute_final_positions_and_clipping"])
p("C58","Opacity and clipping","The opacity of an element is the product of the self opacities on its path; it is clipped by its nearest scrolling strict ancestor and by nothing if there is none.","every tree","Unbounded depth.",["src/view.rs: compute_final_positions_and_clipping"])
p("C59","Scroll offsets stay in range","Scroll offsets always lie between 0 and the overflow of the content on each axis; an element scrolls only if its content overflows.","every layout and every history of wheel offsets","All histories and geometries.",["src/styles/scrolling.rs: ensure, offset"])
# ---- html/css reading
p("C60","Whitespace normalisation of text","Reading a text node never yields a line break in a static span, keeps binders in order, keeps single-line text unchanged and never changes non-blank characters.","every text","All strings.",["src/html/reader.rs: parse_content Rule::Text"])
p("C61","Template links","A link to a template behaves as the template root with the link's bindings handled first; the href itself is not a binding; unknown templates are reported as an error; only the first body and single-child templates with an id before it count.","every document","All documents.",["src/html/reader.rs: as_template_link","src/view.rs: from_html","src/rendering.rs"])
p("C62","Pointer shape","The reported cursor is that of the topmost hovered element that declares one, else auto.","every stack of hovered elements","All stacks.",["src/view_model.rs: handle_output lines 263-270"])
p("C63","Property names are unambiguous","Each supported CSS property name denotes one property and different names denote different properties.","the whole property table","593 entries, checked pairwise.",["src/css/model.rs: PropertyKey::parse"])
p("C64","Colors","A #rrggbb / #rrggbbaa literal denotes exactly its bytes (opaque without alpha); rgb()/rgba() components are clamped to 0..255.","every color literal and component","All literals.",["src/css/reader.rs: read_color","src/styles/compute_function.rs"])
if __name__=="__main__":
    with open("/verif/properties.jsonl","w") as f:
        for x in P: f.write(json.dumps(x)+"\n")
    print(len(P))
