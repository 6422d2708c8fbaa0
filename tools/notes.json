{
 "C01": [
  "proved",
  ""
 ],
 "C02": [
  "proved",
  "Range, exactness and the sharp bound 2^53 (C02_bound_sharp)."
 ],
 "C03": [
  "proved",
  ""
 ],
 "C04": [
  "proved",
  ""
 ],
 "C05": [
  "proved",
  ""
 ],
 "C06": [
  "proved",
  ""
 ],
 "C07": [
  "proved",
  "Proved for fitting histories, as stated; C07_panic_on_non_fitting is the witness for the other half."
 ],
 "C08": [
  "proved",
  ""
 ],
 "C09": [
  "partial",
  "False for an array directly inside an array (C09_array_in_array is the counterexample of the code); proved for the shapes without it."
 ],
 "C10": [
  "proved",
  ""
 ],
 "C11": [
  "proved",
  ""
 ],
 "C12": [
  "partial",
  "False when the object becomes null and nothing inside changes (C12_null_object_not_noticed); proved for the other case."
 ],
 "C15": [
  "partial",
  "False for a repeat followed by siblings (C15_repeat_before_sibling is the counterexample of the code); proved when the repeat is the last child."
 ],
 "C19": [
  "partial",
  "False before the first non-null value (C19_placeholder_stays) and for an item that disappeared and came back (C19_stale_after_regrow), both counterexamples of the code; proved otherwise."
 ],
 "C20": [
  "partial",
  "False for ! on a place that was never set (C20_not_stays_hidden) and for items that came back (C20_stale_after_regrow), both counterexamples of the code; proved whenever the value is not null, and for null otherwise."
 ],
 "C22": [
  "partial",
  "False when a bound id changes (C22_stale_id); proved for histories where each id is written once. For whole programs (every document with at most one id per element, every stylesheet, every run): a lookup returns an element with the id or with a bound id, and an unbound id that an element has is found (C22_programs_partial); without bound ids the lookup is exact (C22_static_ids). C22_stale_program and C22_text_id show what fails in runs."
 ],
 "C23": [
  "partial",
  "False when one element declares the same alias twice (C23_duplicate_alias_leaks is the counterexample of the code); proved for documents whose aliases are distinct per element."
 ],
 "C24": [
  "partial",
  "False when the loop variable shadows a name its own array path starts with (C24_shadowed_array, counterexample of the code); proved for documents without that shadowing."
 ],
 "C25": [
  "partial",
  "False when one path is used both as a scalar and as a container, for index-like keys with a leading zero and for the reserved name (C25_mixed_use, C25_leading_zero, C25_this: counterexamples of the code); proved for consistently used plain keys."
 ],
 "C26": [
  "proved",
  "C26_self_reference_diverges shows that the hypothesis is needed."
 ],
 "C27": [
  "proved",
  "C27_stands (structure) and C27_fresh_tree hold for every document; C27_mirrors_scoped adds names and bindings (and that no other bindings are registered) under the conditions of C23/C24."
 ],
 "C28": [
  "proved",
  "For every session (any document, values, styling/layout between updates, events). The layout itself is arbitrary: positions and sizes are whatever layout wrote."
 ],
 "C29": [
  "proved",
  ""
 ],
 "C30": [
  "proved",
  "Also which element gets the focus (C30_focus_target): the outermost input listener under the pointer."
 ],
 "C31": [
  "proved",
  "Necessity (C31_click_needs_press) and sufficiency with nothing dragged (C31_release_sends)."
 ],
 "C32": [
  "partial",
  "A release over an element with ondrop ends the drag (proved); elsewhere it does not, and later clicks are lost: C32_drag_survives_release is the counterexample to the full claim."
 ],
 "C33": [
  "proved",
  ""
 ],
 "C34": [
  "proved",
  ""
 ],
 "C35": [
  "proved",
  ""
 ],
 "C36": [
  "partial",
  "Messages of an update proved in full; batch splitting holds for batches with a mouse move up to the event payload; C36_batch_matters is the counterexample to the full claim."
 ],
 "C37": [
  "proved",
  ""
 ],
 "C38": [
  "proved",
  ""
 ],
 "C39": [
  "partial",
  "Missing: :root, [a|=v], empty values for ^= *= $=, white space other than the space; the code differs from CSS there (C39_dash_match, C39_tab_separates, C39_empty_value, C39_root_never)."
 ],
 "C40": [
  "partial",
  "The claim is false of the code except for first children: see C40_second_child, C40_two_back, C40_counterexample, which say exactly what the code does instead."
 ],
 "C41": [
  "proved",
  "For every tree; in views also without panic if there is no +."
 ],
 "C42": [
  "partial",
  "Missing: rules with +, #class/#id on the element, rules with > testing an attribute bound on an ancestor; the code is wrong there (C42_dynamic_parent, C42_tag_class)."
 ],
 "C43": [
  "proved",
  "For every property: the value of the last declaration (C43_*), and that it is what the styled element and its layout style have afterwards (C43_shown, C43_shown_values)."
 ],
 "C44": [
  "partial",
  "Box shorthands (margin, padding, inset with 1 or 4 values, border-width, border-color ...) proved; C44_gap_order_counterexample and C44_inset_counterexample are the cases where the code is not CSS."
 ],
 "C45": [
  "proved",
  "In a block, and in whole trees: the nearest ancestor that gives the variable a value (C45_nearest)."
 ],
 "C46": [
  "partial",
  "False for cyclic variables (C46_cyclic_counterexample: no number of steps is enough); proved for acyclic ones."
 ],
 "C47": [
  "partial",
  "False when a list of values is given to a property that takes one (C47_order_matters is the counterexample of the code); proved for whole frames otherwise."
 ],
 "C48": [
  "partial",
  "False for layout properties, cursor and visibility, which stay (C48_hover_stays is the counterexample of the code); proved for backgrounds, borders, colour, font, opacity, pointer-events, given the animators and transitions."
 ],
 "C49": [
  "proved",
  "Through the styled tree: relative to the displayed font size of the parent and the viewport. C49_bare: zero and bare numbers for borders and font sizes."
 ],
 "C50": [
  "proved",
  "One step and any depth."
 ],
 "C51": [
  "proved",
  "Iteration counts are assumed not negative. Exact arithmetic; C91 and C92 say what is left of it with rounded f32."
 ],
 "C52": [
  "partial",
  "False in general: C52_exactly says for which definitions the update hangs, C52_hangs_counterexample is an instance; proved for positive durations. Exact arithmetic; C91 and C92 say what is left of it with rounded f32."
 ],
 "C53": [
  "proved",
  "Two keyframes for one percentage: the later replaces the earlier one as a whole, in the code and in keyframeValue."
 ],
 "C55": [
  "partial",
  "False with a delay (C55_delay_counterexample) and with a duration of zero (C55_zero_duration_counterexample); proved for one value, positive duration, no delay, also from the start of the transition (C55_start_partial)."
 ],
 "C56": [
  "partial",
  "False for the first value of the property (C56_first_value_counterexample); proved otherwise."
 ],
 "C57": [
  "proved",
  "For every tree and every result of the layout solver (a parameter); C57_succeeds: placing never fails."
 ],
 "C58": [
  "proved",
  "Opacity and clipping along the whole path."
 ],
 "C59": [
  "partial",
  "False when the content overflows on one axis and is smaller than the element on the other (C59_other_axis, C59_child_shifted are counterexamples of the code); proved axis by axis for every history otherwise."
 ],
 "C60": [
  "proved",
  "All texts; C60_joins shows that words are not kept across a binder (a line break between a word and a binder is lost in the last text of an element)."
 ],
 "C61": [
  "proved",
  ""
 ],
 "C62": [
  "proved",
  ""
 ],
 "C63": [
  "proved",
  "The whole table (591 names), and every name can be written and is read. Findings: border-style, outline-style, list-style, transform-style and others are only known with a final s; background-position-x/-y have keys but no names (C63_misspelled)."
 ],
 "C64": [
  "proved",
  "Literals end to end through the reader; components as exact rationals (f32 idealised). Finding: short literals like #f00 are read as white (C64_short)."
 ],
 "C65": [
  "partial",
  "C65_display_partial: the whole displayed tree, for all documents and histories under stated conditions. Missing because false of the code: an inner array of an item that vanished and came back (C65_nested_array_counterexample), values that are null and never were anything else (C19), repeats with siblings after them (C15), name clashes as in C23-C25; an attribute given twice has no meaning in the specification."
 ],
 "C66": [
  "proved",
  ""
 ],
 "C67": [
  "proved",
  "Whole frames, all rules, trees and iteration orders; C46_frame_hangs and C56_frame_hangs show that the conditions are needed."
 ],
 "C68": [
  "proved",
  "Every text; pest is modelled by a parsing-expression machine over the grammar."
 ],
 "C69": [
  "proved",
  "All documents of the written syntax of Spec/Written; the conditions there that are not in the documentation are shown to be needed by counterexamples (space after a transformer, void prefixes, unquoted values, ...)."
 ],
 "C70": [
  "proved",
  "Every text; pest is modelled by a parsing-expression machine over the grammar."
 ],
 "C71": [
  "proved",
  "All stylesheets of the written syntax of Spec/Sheet; its conditions are shown to be needed by counterexamples of the code (two blanks between values, missing last semicolon, leading zeros, :rooted, ...)."
 ],
 "C72": [
  "partial",
  "C72_words covers every keyword of 19 properties, C72_numbers the numbers, radii and images, C72_colours_partial the colours. Missing because false of the code: the name `green` is shown as rgb(0,255,0) instead of rgb(0,128,0), and `currentcolor` of a border or background is the colour of the parent instead of the colour of the element (C72_green_counterexample)."
 ],
 "C73": [
  "partial",
  "C73_opens_as_written for all written texts, C73_opens_partial and C73_opening_ends_partial for texts whose templates do not contain themselves and whose rules have no `+`. Missing because false of the code: a template that contains itself is never opened (C73_self_reference_counterexample), and a rule with `+` panics in builds with overflow checks (C73_plus_counterexample). C73_one_outcome: the outcome does not depend on the fuel of the model."
 ],
 "C74": [
  "partial",
  "C74_no_error_values and C74_runs_are_sessions for every update. C74_update_succeeds_partial for styles that are tame in the frame; C74_runs_forever_partial for histories of any length with values that fit the shape of the template and smooth styles: animations and transitions included, as long as durations are positive and written out, a transition's property has a value in the same block, and no variable is defined by itself. Without these conditions the claim is false of the code (C07, C46_frame_hangs, C52, C56_frame_hangs). Inline styles may be fixed in the document or bound (`@style=\"width:{w}px;\"`): the condition is then on what they are read as in this history (Spec/Inline; C84_bound_example). Exact arithmetic; C91 and C92 say what is left of it with rounded f32."
 ],
 "C75": [
  "partial",
  "C75_texts_to_display_partial from texts (with smooth styles: animations and transitions included) and C75_run_shows_partial for arbitrary styles. Missing because false of the code: what C65 misses (arrays that vanish and come back, C65_nested_array_counterexample), and C73 and C74. Inline styles may be fixed in the document or bound (`@style=\"width:{w}px;\"`): the condition is then on what they are read as in this history (Spec/Inline; C84_bound_example)."
 ],
 "C76": [
  "partial",
  "Proved when the window never changes only its width or only its height. Otherwise false of the code: C76_resize_counterexample."
 ],
 "C77": [
  "partial",
  "C77_look_partial, C77_values_partial, C77_lengths_partial, C77_inherits_partial for selectors without combinators other than `>` and whose parts the crate reads as CSS does. Missing because false of the code: other selectors (C39, C40), attributes bound with `#class` or `#id` (C42), lists of values for properties that take one (C47). Animations and transitions are C51-C56. C77_nothing_moves derives the absence of animations and transitions from stylesheet and inline styles, bound ones included."
 ],
 "C78": [
  "proved",
  "All documents and histories, the layout engine as a parameter that may use results it has kept (C82). C78_example shows an element that is clipped away (outside the frame of the element that clips it) and is hovered all the same."
 ],
 "C79": [
  "partial",
  "False of the code: C79_wheel_counterexample. C79_wheel_ignored: a program whose wheel events are all taken out does exactly the same, always. C79_never_scrolls_partial and C79_at_rest_partial are what is left of the claim: the offset is never positive, and 0 if the content is never smaller than the element."
 ],
 "C80": [
  "partial",
  "C80_pictures_partial for documents without #src. With #src it is false of the code: C80_tag_counterexample. C80_example shows besides that the picture of a hidden image is visible."
 ],
 "C81": [
  "partial",
  "C81_clock and C81_update are full. C81_look_partial is for elements with any number of animations and with transitions; only the properties that have a transition are left out (see C83), and what C77 leaves out. C81_undeclared_counterexample: an animation goes on playing when no rule declares it any more. Exact arithmetic; C91 and C92 say what is left of it with rounded f32."
 ],
 "C82": [
  "partial",
  "C82_never_outdated, C82_engine_goes_on and C82_measured_by_content are full. C82_as_if_computed_partial is for runs in which every text has the same font whenever it is displayed; C82_font_counterexample shows that the code does not mark a text whose font changes, so that it keeps its old box. C82_steady_fonts derives that condition from document and stylesheet (and, for bound inline styles, from what they are read as): font properties only with fixed values in inline styles and in rules whose selectors have no pseudo-class and test no bound attribute; animations and transitions are of other properties. C82_fixed_fonts_partial is the claim for all such programs, C82_fixed_fonts_runs that engines with kept results run them all. Examples: C82_example_fixed_run, C82_example_glide (a transition of a width from a bound inline style)."
 ],
 "C83": [
  "partial",
  "For whole programs: any history, any number of updates before and after the change. Left out, because the code is wrong there (C55): a delay, a duration of zero, properties with several values; and what C77 leaves out. Exact arithmetic; C91 and C92 say what is left of it with rounded f32."
 ],
 "C84": [
  "partial",
  "C84_reproducible_partial: equality of whole runs, failures included. Missing: lists of values for properties that take one value (false of the code, C84_order_counterexample); and for the kept layouts (C84_engines_partial) texts whose font changes (C82). C84_one_outcome: nor does that of a run. C84_fixed_fonts_partial has conditions on document, stylesheet and bound inline styles only; animations and transitions of other properties than fonts are allowed. Inline styles may be fixed in the document or bound (`@style=\"width:{w}px;\"`): the condition is then on what they are read as in this history (Spec/Inline; C84_bound_example)."
 ],
 "C85": [
  "partial",
  "C85_idle_partial: any number of idle updates leave the program exactly as it is. Needed, because false of the code otherwise (C85_flicker_counterexample): the last update with something new has not changed what the pseudo classes of the stylesheet hold of; C85_settled_partial for stylesheets without pseudo classes. Missing: lists of values (C84); and for kept layouts (C85_engine_partial) texts whose font changes (C82). C85_fixed_fonts_partial replaces the condition about fonts by conditions on document and stylesheet. Inline styles may be fixed in the document or bound (`@style=\"width:{w}px;\"`): the condition is then on what they are read as in this history (Spec/Inline; C84_bound_example)."
 ],
 "C86": [
  "proved",
  "Counters of updates that return an error are not modelled. C86_idle_partial (an idle program changes no layout styles) is an addition and has the limits of C85."
 ],
 "C87": [
  "proved",
  "C87_room for all runs. The converse is false: room for a border of a rule that no longer applies stays (C87_room_stays)."
 ],
 "C88": [
  "partial",
  "C88_animations_partial and C88_transitions_partial: every parameter and word, read from what the element is told (stylesheet, inline style, running animations: Spec/SetUp, built on C81's vocabulary); C88_declared_partial: that is what the stylesheet says unless a keyframe or transition is about the same property; C88_kept_partial: parameters about which nothing is told. Conditions: as C81 (no lists of values for properties that take one, selectors read as CSS does). The last sentence is false of the code: C88_shape_counterexample (a reversed ease-in animation plays forward and evenly) and C88_shape_ignored (in general)."
 ],
 "C89": [
  "partial",
  "Proved for every number from 0 to 2^64-1 seconds, for everything that is not a number, and for what a view shows. False for negative numbers: Duration::from_secs_f64 panics and so does the update (C89_negative_counterexample)."
 ],
 "C90": [
  "partial",
  "Proved for all runs; the texts of bound styles before the first binding are excepted, because the code does not read them: with @style=\"left:0;\" (no expression) the style is never read (C90_text_counterexample), and @style=\"left:0;width:{w}px;\" not until w is bound. Complete for unbound styles (C90_static). Programs with #style, which sets and removes the attribute, are excepted by hypothesis."
 ],
 "C91": [
  "partial",
  "Range and begin are proved for all roundings. The end at 100% holds when the multiples of the duration are 32-bit numbers (all durations for 1 and 2 iterations); it is false otherwise: C91_end_counterexample, C91_end_shown (0.1s, 3 iterations, ends at the first keyframe). Overflow and not-a-number are not modelled."
 ],
 "C92": [
  "partial",
  "False of the code: C92_exactly and C92_exactly_even say for every duration and time whether the update comes to an end or hangs (every positive time is in one of their ranges, exists_range). C92_finite, C92_infinite_partial and C92_hangs are readable consequences: up to 2^23 iterations it ends, beyond 2^26 it hangs; C92_sleep_counterexample: 1ms infinite, a frame of ten hours; C92_stops: clocks stop (at 60 frames a second after seven days)."
 ],
 "C93": [
  "partial",
  "Interpolation is proved in full; transitions for positive durations, no delay and single values, as C55, which is false otherwise."
 ],
 "C94": [
  "partial",
  "As C59: false when the content is smaller than the element on one axis and larger on the other (C59_other_axis)."
 ],
 "C95": [
  "proved",
  "C53 once more with rounding (Float/Model); the values between keyframes are those of C93."
 ],
 "C96": [
  "proved",
  "C57, C58 and which elements scroll, with rounding (Float/Placed; without rounding it is placeTree, placeTreeIn_id). The layout engine is a parameter as before; no overflow or NaN."
 ],
 "C97": [
  "proved",
  "C49 and the numbers of C71 once more with rounding (Float/Lengths, Float/Reads; without rounding they are the functions of Css/Apply and Css/Reader). C97_example shows where rounding is visible: 100vw in a viewport of fractional width, ten columns of 10vw, 0.7% against 0.007."
 ],
 "C98": [
  "partial",
  "False of the code for box-sizing (initial content-box, default border-box), for border colours (initial is the parent's colour, default transparent) and for the inherited font-size, font-weight, font-style and pointer-events (C98_counterexample; C98_program_counterexample is a whole program whose text jumps from 32 to 16 pixels). Neutral lists exactly these cases; C98_complete says no other property does anything."
 ],
 "C99": [
  "proved",
  "C28 once more with rounding (Float/Pointing; without rounding it is underMouse, underMouseIn_id). C99_edge_example is a point inside a box that is not found."
 ],
 "C100": [
  "proved",
  "C64's functions once more with rounding (Float/Pointing). C100_example shows where rounding is visible: a number a little below 3/255 gives 3."
 ],
 "C101": [
  "proved",
  "C101_unmentioned_data_invisible: equality of whole runs, failures included (shapes without an array directly in an array, as C05-C09). C101_example: its conditions are met; C101_piped_array_counterexample: why arrays in pipes are excepted in the statement."
 ],
 "C102": [
  "proved",
  "With C102_plus_counterexample for why rules with + are excepted."
 ],
 "C103": [
  "proved",
  ""
 ],
 "C104": [
  "proved",
  "With C104_late_variable_counterexample for why variables have to be defined first."
 ],
 "C105": [
  "proved",
  "With C105_apart_counterexample for why both conditions on the exchanged rules are needed. Lists of values for properties that take one are excluded since C84_order_counterexample shows that their effect is up to the order of a hash map."
 ],
 "C106": [
  "proved",
  "C106_more_elements is the same in terms of the text of the document."
 ],
 "C107": [
  "proved",
  "With C107_chain_counterexample for why what a link is replaced by must not be a link itself."
 ],
 "C108": [
  "proved",
  "With C108_plus_counterexample for why the order of selectors matters for rules with `+`."
 ],
 "C109": [
  "partial",
  "Proved under the conditions of C42 for the whole program (`Css.Steady`): no `+`, no `#class` or `#id`, and rules with `>` do not test attributes bound on elements with children. C109_counterexample shows that the last is needed: without it the full claim is false of the code."
 ],
 "C110": [
  "partial",
  "Proved under the conditions of C42 for the whole program (`Css.Steady`), as C109. C110_counterexample shows that they are needed: without them the full claim is false of the code."
 ],
 "C111": [
  "proved",
  "For every stylesheet, without the conditions of C42: the rules keep their selectors. C111_list_counterexample and C111_words_counterexample show why as many values and single words are asked for."
 ],
 "C112": [
  "proved",
  "For every stylesheet; values are written out (no variables). `Spec/Spelled` lists what each shorthand stands for, as CSS has it; `gap` with two values and `inset` with two or three are left out, since the code does not follow CSS there (C44)."
 ],
 "C113": [
  "proved",
  "For every stylesheet, without the conditions of C42."
 ],
 "C114": [
  "proved",
  "For every stylesheet, without the conditions of C42. C114_plus_counterexample: an empty rule with `+` can keep a document from opening."
 ],
 "C115": [
  "proved",
  "For every stylesheet; `2 ≤ fuel` says that the stack has room for the two calls that look up one variable."
 ],
 "C116": [
  "proved",
  "For every stylesheet."
 ]
}