{
 "claims": [
  {
   "property": "C01",
   "status": "proved",
   "theorems": [
    "Verif.C01_truthiness",
    "Verif.C01_objects_true"
   ],
   "note": ""
  },
  {
   "property": "C02",
   "status": "proved",
   "theorems": [
    "Verif.C02_range",
    "Verif.C02_int_exact",
    "Verif.C02_decimal_string",
    "Verif.C02_zero",
    "Verif.C02_usize",
    "Verif.C02_bound_sharp"
   ],
   "note": "Range, exactness and the sharp bound 2^53 (C02_bound_sharp)."
  },
  {
   "property": "C03",
   "status": "proved",
   "theorems": [
    "Verif.C03_text",
    "Verif.C03_text_roundtrip",
    "Verif.C03_text_injective",
    "Verif.C03_array"
   ],
   "note": ""
  },
  {
   "property": "C04",
   "status": "proved",
   "theorems": [
    "Verif.C04_rebind_same_is_noop"
   ],
   "note": ""
  },
  {
   "property": "C05",
   "status": "proved",
   "theorems": [
    "Verif.C05_history_independent",
    "Verif.C05_same_last_value"
   ],
   "note": ""
  },
  {
   "property": "C06",
   "status": "proved",
   "theorems": [
    "Verif.C06_reactions_are_changes",
    "Verif.C06_prior_defined",
    "Verif.C06_each_binding_once"
   ],
   "note": ""
  },
  {
   "property": "C07",
   "status": "proved",
   "theorems": [
    "Verif.C07_fitting_never_panics",
    "Verif.C07_panic_on_non_fitting"
   ],
   "note": "Proved for fitting histories, as stated; C07_panic_on_non_fitting is the witness for the other half."
  },
  {
   "property": "C08",
   "status": "proved",
   "theorems": [
    "Verif.C08_extra_keys_invisible_model",
    "Verif.C08_extra_keys_invisible",
    "Verif.C08_missing_is_null"
   ],
   "note": ""
  },
  {
   "property": "C09",
   "status": "partial",
   "theorems": [
    "Verif.C09_items_bound_partial",
    "Verif.C09_array_in_array"
   ],
   "note": "False for an array directly inside an array (C09_array_in_array is the counterexample of the code); proved for the shapes without it."
  },
  {
   "property": "C10",
   "status": "proved",
   "theorems": [
    "Verif.C10_repeat_in_slots"
   ],
   "note": ""
  },
  {
   "property": "C11",
   "status": "proved",
   "theorems": [
    "Verif.C11_pipe_left_to_right",
    "Verif.C11_unknown_skipped"
   ],
   "note": ""
  },
  {
   "property": "C12",
   "status": "partial",
   "theorems": [
    "Verif.C12_object_condition_partial",
    "Verif.C12_null_object_not_noticed"
   ],
   "note": "False when the object becomes null and nothing inside changes (C12_null_object_not_noticed); proved for the other case."
  },
  {
   "property": "C13",
   "status": "proved",
   "theorems": [
    "Verif.C13_conditional_order"
   ],
   "note": ""
  },
  {
   "property": "C14",
   "status": "proved",
   "theorems": [
    "Verif.C14_first_k_slots",
    "Verif.C14_history"
   ],
   "note": ""
  },
  {
   "property": "C15",
   "status": "partial",
   "theorems": [
    "Verif.C15_order_partial",
    "Verif.C15_repeat_before_sibling"
   ],
   "note": "False for a repeat followed by siblings (C15_repeat_before_sibling is the counterexample of the code); proved when the repeat is the last child."
  },
  {
   "property": "C16",
   "status": "proved",
   "theorems": [
    "Verif.C16_open",
    "Verif.C16_update",
    "Verif.C16_fitting_updates_succeed",
    "Verif.C16_tree_stays_tree",
    "Verif.C16_one_parent",
    "Verif.C16_acyclic"
   ],
   "note": ""
  },
  {
   "property": "C17",
   "status": "proved",
   "theorems": [
    "Verif.C17_set",
    "Verif.C17_concatenation",
    "Verif.C17_spans_independent"
   ],
   "note": ""
  },
  {
   "property": "C18",
   "status": "proved",
   "theorems": [
    "Verif.C18_text_shows_value"
   ],
   "note": ""
  },
  {
   "property": "C19",
   "status": "partial",
   "theorems": [
    "Verif.C19_null_text_partial",
    "Verif.C19_placeholder_stays",
    "Verif.C19_stale_after_regrow"
   ],
   "note": "False before the first non-null value (C19_placeholder_stays) and for an item that disappeared and came back (C19_stale_after_regrow), both counterexamples of the code; proved otherwise."
  },
  {
   "property": "C20",
   "status": "partial",
   "theorems": [
    "Verif.C20_condition_not_null",
    "Verif.C20_condition_partial",
    "Verif.C20_not_stays_hidden",
    "Verif.C20_stale_after_regrow"
   ],
   "note": "False for ! on a place that was never set (C20_not_stays_hidden) and for items that came back (C20_stale_after_regrow), both counterexamples of the code; proved whenever the value is not null, and for null otherwise."
  },
  {
   "property": "C21",
   "status": "proved",
   "theorems": [
    "Verif.C21_boolean_attribute",
    "Verif.C21_other_attributes_untouched"
   ],
   "note": ""
  },
  {
   "property": "C22",
   "status": "partial",
   "theorems": [
    "Verif.C22_lookup_partial",
    "Verif.C22_stale_id",
    "Verif.C22_programs_partial",
    "Verif.C22_static_ids",
    "Verif.C22_example",
    "Verif.C22_stale_program",
    "Verif.C22_text_id"
   ],
   "note": "False when a bound id changes (C22_stale_id); proved for histories where each id is written once. For whole programs (every document with at most one id per element, every stylesheet, every run): a lookup returns an element with the id or with a bound id, and an unbound id that an element has is found (C22_programs_partial); without bound ids the lookup is exact (C22_static_ids). C22_stale_program and C22_text_id show what fails in runs."
  },
  {
   "property": "C23",
   "status": "partial",
   "theorems": [
    "Verif.C23_locals_restored_partial",
    "Verif.C23_lexical_partial",
    "Verif.C23_duplicate_alias_leaks"
   ],
   "note": "False when one element declares the same alias twice (C23_duplicate_alias_leaks is the counterexample of the code); proved for documents whose aliases are distinct per element."
  },
  {
   "property": "C24",
   "status": "partial",
   "theorems": [
    "Verif.C24_loop_variable_partial",
    "Verif.C24_shadowed_array"
   ],
   "note": "False when the loop variable shadows a name its own array path starts with (C24_shadowed_array, counterexample of the code); proved for documents without that shadowing."
  },
  {
   "property": "C25",
   "status": "partial",
   "theorems": [
    "Verif.C25_paths_resolve_partial",
    "Verif.C25_update_resolves",
    "Verif.C25_mixed_use",
    "Verif.C25_leading_zero",
    "Verif.C25_this"
   ],
   "note": "False when one path is used both as a scalar and as a container, for index-like keys with a leading zero and for the reserved name (C25_mixed_use, C25_leading_zero, C25_this: counterexamples of the code); proved for consistently used plain keys."
  },
  {
   "property": "C26",
   "status": "proved",
   "theorems": [
    "Verif.C26_rendering_terminates",
    "Verif.C26_self_reference_diverges"
   ],
   "note": "C26_self_reference_diverges shows that the hypothesis is needed."
  },
  {
   "property": "C27",
   "status": "proved",
   "theorems": [
    "Verif.C27_mirrors_scoped",
    "Verif.C27_stands",
    "Verif.C27_fresh_tree"
   ],
   "note": "C27_stands (structure) and C27_fresh_tree hold for every document; C27_mirrors_scoped adds names and bindings (and that no other bindings are registered) under the conditions of C23/C24."
  },
  {
   "property": "C28",
   "status": "proved",
   "theorems": [
    "Verif.C28_hover_exact",
    "Verif.C28_under_pointer_in_batch"
   ],
   "note": "For every session (any document, values, styling/layout between updates, events). The layout itself is arbitrary: positions and sizes are whatever layout wrote."
  },
  {
   "property": "C29",
   "status": "proved",
   "theorems": [
    "Verif.C29_enter_leave_alternate",
    "Verif.C29_under_is_entered"
   ],
   "note": ""
  },
  {
   "property": "C30",
   "status": "proved",
   "theorems": [
    "Verif.C30_one_focus",
    "Verif.C30_focus_target"
   ],
   "note": "Also which element gets the focus (C30_focus_target): the outermost input listener under the pointer."
  },
  {
   "property": "C31",
   "status": "proved",
   "theorems": [
    "Verif.C31_click_needs_press",
    "Verif.C31_release_sends"
   ],
   "note": "Necessity (C31_click_needs_press) and sufficiency with nothing dragged (C31_release_sends)."
  },
  {
   "property": "C32",
   "status": "partial",
   "theorems": [
    "Verif.C32_drop_ends_drag_partial",
    "Verif.C32_drag_survives_release"
   ],
   "note": "A release over an element with ondrop ends the drag (proved); elsewhere it does not, and later clicks are lost: C32_drag_survives_release is the counterexample to the full claim."
  },
  {
   "property": "C33",
   "status": "proved",
   "theorems": [
    "Verif.C33_drag_lifecycle"
   ],
   "note": ""
  },
  {
   "property": "C34",
   "status": "proved",
   "theorems": [
    "Verif.C34_keys_to_focus"
   ],
   "note": ""
  },
  {
   "property": "C35",
   "status": "proved",
   "theorems": [
    "Verif.C35_message_shape",
    "Verif.C35_dynamic_name"
   ],
   "note": ""
  },
  {
   "property": "C36",
   "status": "partial",
   "theorems": [
    "Verif.C36_messages_of_update",
    "Verif.C36_split_batch_partial",
    "Verif.C36_batch_matters"
   ],
   "note": "Messages of an update proved in full; batch splitting holds for batches with a mouse move up to the event payload; C36_batch_matters is the counterexample to the full claim."
  },
  {
   "property": "C37",
   "status": "proved",
   "theorems": [
    "Verif.C37_captured"
   ],
   "note": ""
  },
  {
   "property": "C38",
   "status": "proved",
   "theorems": [
    "Verif.C38_input_total"
   ],
   "note": ""
  },
  {
   "property": "C39",
   "status": "partial",
   "theorems": [
    "Verif.C39_child_selectors_partial",
    "Verif.C39_rules_partial",
    "Verif.C39_pseudo_classes",
    "Verif.C39_pseudo_classes_witness",
    "Verif.C39_dash_match",
    "Verif.C39_tab_separates",
    "Verif.C39_empty_value",
    "Verif.C39_root_never"
   ],
   "note": "Missing: :root, [a|=v], empty values for ^= *= $=, white space other than the space; the code differs from CSS there (C39_dash_match, C39_tab_separates, C39_empty_value, C39_root_never)."
  },
  {
   "property": "C40",
   "status": "partial",
   "theorems": [
    "Verif.C40_first_child_partial",
    "Verif.C40_second_child",
    "Verif.C40_two_back",
    "Verif.C40_counterexample"
   ],
   "note": "The claim is false of the code except for first children: see C40_second_child, C40_two_back, C40_counterexample, which say exactly what the code does instead."
  },
  {
   "property": "C41",
   "status": "proved",
   "theorems": [
    "Verif.C41_unsupported_never_match",
    "Verif.C41_rule_never_matches"
   ],
   "note": "For every tree; in views also without panic if there is no +."
  },
  {
   "property": "C42",
   "status": "partial",
   "theorems": [
    "Verif.C42_rules_exact_partial",
    "Verif.C42_dynamic_parent",
    "Verif.C42_tag_class",
    "Verif.C42_program_partial"
   ],
   "note": "Missing: rules with +, #class/#id on the element, rules with > testing an attribute bound on an ancestor; the code is wrong there (C42_dynamic_parent, C42_tag_class)."
  },
  {
   "property": "C43",
   "status": "proved",
   "theorems": [
    "Verif.C43_last_declaration_wins",
    "Verif.C43_inline_wins",
    "Verif.C43_shown",
    "Verif.C43_shown_values"
   ],
   "note": "For every property: the value of the last declaration (C43_*), and that it is what the styled element and its layout style have afterwards (C43_shown, C43_shown_values)."
  },
  {
   "property": "C44",
   "status": "partial",
   "theorems": [
    "Verif.C44_box_shorthands",
    "Verif.C44_other_shorthands_partial",
    "Verif.C44_gap_order_counterexample",
    "Verif.C44_inset_counterexample"
   ],
   "note": "Box shorthands (margin, padding, inset with 1 or 4 values, border-width, border-color ...) proved; C44_gap_order_counterexample and C44_inset_counterexample are the cases where the code is not CSS."
  },
  {
   "property": "C45",
   "status": "proved",
   "theorems": [
    "Verif.C45_scope",
    "Verif.C45_nearest"
   ],
   "note": "In a block, and in whole trees: the nearest ancestor that gives the variable a value (C45_nearest)."
  },
  {
   "property": "C46",
   "status": "partial",
   "theorems": [
    "Verif.C46_acyclic_terminates_partial",
    "Verif.C46_blocks_terminate_partial",
    "Verif.C46_cyclic_counterexample",
    "Verif.C46_frame_hangs"
   ],
   "note": "False for cyclic variables (C46_cyclic_counterexample: no number of steps is enough); proved for acyclic ones."
  },
  {
   "property": "C47",
   "status": "partial",
   "theorems": [
    "Verif.C47_order_matters",
    "Verif.C47_order_irrelevant_partial"
   ],
   "note": "False when a list of values is given to a property that takes one (C47_order_matters is the counterexample of the code); proved for whole frames otherwise."
  },
  {
   "property": "C48",
   "status": "partial",
   "theorems": [
    "Verif.C48_hover_stays",
    "Verif.C48_look_partial"
   ],
   "note": "False for layout properties, cursor and visibility, which stay (C48_hover_stays is the counterexample of the code); proved for backgrounds, borders, colour, font, opacity, pointer-events, given the animators and transitions."
  },
  {
   "property": "C49",
   "status": "proved",
   "theorems": [
    "Verif.C49_units",
    "Verif.C49_bare",
    "Verif.C49_vmin_vmax"
   ],
   "note": "Through the styled tree: relative to the displayed font size of the parent and the viewport. C49_bare: zero and bare numbers for borders and font sizes."
  },
  {
   "property": "C50",
   "status": "proved",
   "theorems": [
    "Verif.C50_inherits",
    "Verif.C50_any_depth"
   ],
   "note": "One step and any depth."
  },
  {
   "property": "C51",
   "status": "proved",
   "theorems": [
    "Verif.C51_progress",
    "Verif.C51_ends_at_one",
    "Verif.C51_clock",
    "Verif.C51_witness"
   ],
   "note": "Iteration counts are assumed not negative. Exact arithmetic; C91 and C92 say what is left of it with rounded f32."
  },
  {
   "property": "C52",
   "status": "partial",
   "theorems": [
    "Verif.C52_terminates_partial",
    "Verif.C52_exactly",
    "Verif.C52_hangs_counterexample"
   ],
   "note": "False in general: C52_exactly says for which definitions the update hangs, C52_hangs_counterexample is an instance; proved for positive durations. Exact arithmetic; C91 and C92 say what is left of it with rounded f32."
  },
  {
   "property": "C53",
   "status": "proved",
   "theorems": [
    "Verif.C53_play",
    "Verif.C53_keyframe_style",
    "Verif.C53_witness"
   ],
   "note": "Two keyframes for one percentage: the later replaces the earlier one as a whole, in the code and in keyframeValue."
  },
  {
   "property": "C54",
   "status": "proved",
   "theorems": [
    "Verif.C54_ends",
    "Verif.C54_between",
    "Verif.C54_bytes",
    "Verif.C54_linear",
    "Verif.C54_channels",
    "Verif.C54_switch",
    "Verif.C54_witness"
   ],
   "note": ""
  },
  {
   "property": "C55",
   "status": "partial",
   "theorems": [
    "Verif.C55_transition_partial",
    "Verif.C55_converges_partial",
    "Verif.C55_start_partial",
    "Verif.C55_witness",
    "Verif.C55_delay_counterexample",
    "Verif.C55_zero_duration_counterexample"
   ],
   "note": "False with a delay (C55_delay_counterexample) and with a duration of zero (C55_zero_duration_counterexample); proved for one value, positive duration, no delay, also from the start of the transition (C55_start_partial)."
  },
  {
   "property": "C56",
   "status": "partial",
   "theorems": [
    "Verif.C56_terminates_partial",
    "Verif.C56_first_value_counterexample",
    "Verif.C56_frame_hangs"
   ],
   "note": "False for the first value of the property (C56_first_value_counterexample); proved otherwise."
  },
  {
   "property": "C57",
   "status": "proved",
   "theorems": [
    "Verif.C57_position",
    "Verif.C57_succeeds"
   ],
   "note": "For every tree and every result of the layout solver (a parameter); C57_succeeds: placing never fails."
  },
  {
   "property": "C58",
   "status": "proved",
   "theorems": [
    "Verif.C58_opacity",
    "Verif.C58_clipping"
   ],
   "note": "Opacity and clipping along the whole path."
  },
  {
   "property": "C59",
   "status": "partial",
   "theorems": [
    "Verif.C59_scrolls_iff",
    "Verif.C59_frame_event",
    "Verif.C59_in_range_partial",
    "Verif.C59_in_range_x_partial",
    "Verif.C59_in_range_y_partial",
    "Verif.C59_other_axis",
    "Verif.C59_child_shifted"
   ],
   "note": "False when the content overflows on one axis and is smaller than the element on the other (C59_other_axis, C59_child_shifted are counterexamples of the code); proved axis by axis for every history otherwise."
  },
  {
   "property": "C60",
   "status": "proved",
   "theorems": [
    "Verif.C60_no_line_break",
    "Verif.C60_words",
    "Verif.C60_binders",
    "Verif.C60_single_line",
    "Verif.C60_joins"
   ],
   "note": "All texts; C60_joins shows that words are not kept across a binder (a line break between a word and a binder is lost in the last text of an element)."
  },
  {
   "property": "C61",
   "status": "proved",
   "theorems": [
    "Verif.C61_link_meaning",
    "Verif.C61_reported_template",
    "Verif.C61_document_meaning"
   ],
   "note": ""
  },
  {
   "property": "C62",
   "status": "proved",
   "theorems": [
    "Verif.C62_pointer_shape"
   ],
   "note": ""
  },
  {
   "property": "C63",
   "status": "proved",
   "theorems": [
    "Verif.C63_unambiguous",
    "Verif.C63_parse",
    "Verif.C63_written",
    "Verif.C63_misspelled"
   ],
   "note": "The whole table (591 names), and every name can be written and is read. Findings: border-style, outline-style, list-style, transform-style and others are only known with a final s; background-position-x/-y have keys but no names (C63_misspelled)."
  },
  {
   "property": "C64",
   "status": "proved",
   "theorems": [
    "Verif.C64_opaque",
    "Verif.C64_alpha",
    "Verif.C64_byte",
    "Verif.C64_rgb",
    "Verif.C64_rgba",
    "Verif.C64_short"
   ],
   "note": "Literals end to end through the reader; components as exact rationals (f32 idealised). Finding: short literals like #f00 are read as white (C64_short)."
  },
  {
   "property": "C65",
   "status": "partial",
   "theorems": [
    "Verif.C65_display_partial",
    "Verif.C65_last_value_partial",
    "Verif.C65_nested_array_counterexample"
   ],
   "note": "C65_display_partial: the whole displayed tree, for all documents and histories under stated conditions. Missing because false of the code: an inner array of an item that vanished and came back (C65_nested_array_counterexample), values that are null and never were anything else (C19), repeats with siblings after them (C15), name clashes as in C23-C25; an attribute given twice has no meaning in the specification."
  },
  {
   "property": "C66",
   "status": "proved",
   "theorems": [
    "Verif.C66_pointer_order"
   ],
   "note": ""
  },
  {
   "property": "C67",
   "status": "proved",
   "theorems": [
    "Verif.C67_frame_succeeds"
   ],
   "note": "Whole frames, all rules, trees and iteration orders; C46_frame_hangs and C56_frame_hangs show that the conditions are needed."
  },
  {
   "property": "C68",
   "status": "proved",
   "theorems": [
    "Verif.C68_reading_ends"
   ],
   "note": "Every text; pest is modelled by a parsing-expression machine over the grammar."
  },
  {
   "property": "C69",
   "status": "proved",
   "theorems": [
    "Verif.C69_written_documents_are_read",
    "Verif.C69_unambiguous",
    "Verif.C69_example",
    "Verif.C69_space_after_transformer",
    "Verif.C69_space_in_attribute",
    "Verif.C69_space_after_element",
    "Verif.C69_void_prefix",
    "Verif.C69_unquoted",
    "Verif.C69_script_comment",
    "Verif.C69_closing_tag",
    "Verif.C69_second_element"
   ],
   "note": "All documents of the written syntax of Spec/Written; the conditions there that are not in the documentation are shown to be needed by counterexamples (space after a transformer, void prefixes, unquoted values, ...)."
  },
  {
   "property": "C70",
   "status": "proved",
   "theorems": [
    "Verif.C70_stylesheet",
    "Verif.C70_inline"
   ],
   "note": "Every text; pest is modelled by a parsing-expression machine over the grammar."
  },
  {
   "property": "C71",
   "status": "proved",
   "theorems": [
    "Verif.C71_read_as_written",
    "Verif.C71_unambiguous",
    "Verif.C71_inline",
    "Verif.C71_example",
    "Verif.C71_animation_example",
    "Verif.C71_two_blanks",
    "Verif.C71_semicolon",
    "Verif.C71_inline_blank",
    "Verif.C71_leading_zero",
    "Verif.C71_rooted",
    "Verif.C71_pseudo_argument",
    "Verif.C71_attribute_flag",
    "Verif.C71_fallback",
    "Verif.C71_unknown_unit",
    "Verif.C71_step_blank",
    "Verif.C71_no_selector",
    "Verif.C71_empty_selector"
   ],
   "note": "All stylesheets of the written syntax of Spec/Sheet; its conditions are shown to be needed by counterexamples of the code (two blanks between values, missing last semicolon, leading zeros, :rooted, ...)."
  },
  {
   "property": "C72",
   "status": "partial",
   "theorems": [
    "Verif.C72_words",
    "Verif.C72_colours_partial",
    "Verif.C72_numbers",
    "Verif.C72_green_counterexample"
   ],
   "note": "C72_words covers every keyword of 19 properties, C72_numbers the numbers, radii and images, C72_colours_partial the colours. Missing because false of the code: the name `green` is shown as rgb(0,255,0) instead of rgb(0,128,0), and `currentcolor` of a border or background is the colour of the parent instead of the colour of the element (C72_green_counterexample)."
  },
  {
   "property": "C73",
   "status": "partial",
   "theorems": [
    "Verif.C73_plus_counterexample",
    "Verif.C73_self_reference_counterexample",
    "Verif.C73_opens_as_written",
    "Verif.C73_opens_partial",
    "Verif.C73_opening_ends_partial",
    "Verif.C73_one_outcome"
   ],
   "note": "C73_opens_as_written for all written texts, C73_opens_partial and C73_opening_ends_partial for texts whose templates do not contain themselves and whose rules have no `+`. Missing because false of the code: a template that contains itself is never opened (C73_self_reference_counterexample), and a rule with `+` panics in builds with overflow checks (C73_plus_counterexample). C73_one_outcome: the outcome does not depend on the fuel of the model."
  },
  {
   "property": "C74",
   "status": "partial",
   "theorems": [
    "Verif.C74_runs_are_sessions",
    "Verif.C74_no_error_values",
    "Verif.C74_update_succeeds_partial",
    "Verif.C74_runs_forever_partial"
   ],
   "note": "C74_no_error_values and C74_runs_are_sessions for every update. C74_update_succeeds_partial for styles that are tame in the frame; C74_runs_forever_partial for histories of any length with values that fit the shape of the template and smooth styles: animations and transitions included, as long as durations are positive and written out, a transition's property has a value in the same block, and no variable is defined by itself. Without these conditions the claim is false of the code (C07, C46_frame_hangs, C52, C56_frame_hangs). Inline styles may be fixed in the document or bound (`@style=\"width:{w}px;\"`): the condition is then on what they are read as in this history (Spec/Inline; C84_bound_example). Exact arithmetic; C91 and C92 say what is left of it with rounded f32."
  },
  {
   "property": "C75",
   "status": "partial",
   "theorems": [
    "Verif.C75_example",
    "Verif.C75_run_shows_partial",
    "Verif.C75_texts_to_display_partial"
   ],
   "note": "C75_texts_to_display_partial from texts (with smooth styles: animations and transitions included) and C75_run_shows_partial for arbitrary styles. Missing because false of the code: what C65 misses (arrays that vanish and come back, C65_nested_array_counterexample), and C73 and C74. Inline styles may be fixed in the document or bound (`@style=\"width:{w}px;\"`): the condition is then on what they are read as in this history (Spec/Inline; C84_bound_example)."
  },
  {
   "property": "C76",
   "status": "partial",
   "theorems": [
    "Verif.C76_resize_counterexample",
    "Verif.C76_fills_window_partial"
   ],
   "note": "Proved when the window never changes only its width or only its height. Otherwise false of the code: C76_resize_counterexample."
  },
  {
   "property": "C77",
   "status": "partial",
   "theorems": [
    "Verif.C77_example",
    "Verif.C77_example_still",
    "Verif.C77_look_partial",
    "Verif.C77_values_partial",
    "Verif.C77_lengths_partial",
    "Verif.C77_inherits_partial",
    "Verif.C77_nothing_moves"
   ],
   "note": "C77_look_partial, C77_values_partial, C77_lengths_partial, C77_inherits_partial for selectors without combinators other than `>` and whose parts the crate reads as CSS does. Missing because false of the code: other selectors (C39, C40), attributes bound with `#class` or `#id` (C42), lists of values for properties that take one (C47). Animations and transitions are C51-C56. C77_nothing_moves derives the absence of animations and transitions from stylesheet and inline styles, bound ones included."
  },
  {
   "property": "C78",
   "status": "proved",
   "theorems": [
    "Verif.C78_example",
    "Verif.C78_places",
    "Verif.C78_hover"
   ],
   "note": "All documents and histories, the layout engine as a parameter that may use results it has kept (C82). C78_example shows an element that is clipped away (outside the frame of the element that clips it) and is hovered all the same."
  },
  {
   "property": "C79",
   "status": "partial",
   "theorems": [
    "Verif.C79_wheel_counterexample",
    "Verif.C79_never_scrolls_partial",
    "Verif.C79_at_rest_partial",
    "Verif.C79_wheel_ignored"
   ],
   "note": "False of the code: C79_wheel_counterexample. C79_wheel_ignored: a program whose wheel events are all taken out does exactly the same, always. C79_never_scrolls_partial and C79_at_rest_partial are what is left of the claim: the offset is never positive, and 0 if the content is never smaller than the element."
  },
  {
   "property": "C80",
   "status": "partial",
   "theorems": [
    "Verif.C80_pictures_partial",
    "Verif.C80_example",
    "Verif.C80_tag_counterexample"
   ],
   "note": "C80_pictures_partial for documents without #src. With #src it is false of the code: C80_tag_counterexample. C80_example shows besides that the picture of a hidden image is visible."
  },
  {
   "property": "C81",
   "status": "partial",
   "theorems": [
    "Verif.C81_clock",
    "Verif.C81_update",
    "Verif.C81_look_partial",
    "Verif.C81_example",
    "Verif.C81_undeclared_counterexample"
   ],
   "note": "C81_clock and C81_update are full. C81_look_partial is for elements with any number of animations and with transitions; only the properties that have a transition are left out (see C83), and what C77 leaves out. C81_undeclared_counterexample: an animation goes on playing when no rule declares it any more. Exact arithmetic; C91 and C92 say what is left of it with rounded f32."
  },
  {
   "property": "C82",
   "status": "partial",
   "theorems": [
    "Verif.C82_example_fixed",
    "Verif.C82_example_fixed_run",
    "Verif.C82_example_glide",
    "Verif.C82_never_outdated",
    "Verif.C82_as_if_computed_partial",
    "Verif.C82_engine_goes_on",
    "Verif.C82_measured_by_content",
    "Verif.C82_steady_fonts",
    "Verif.C82_fixed_fonts_partial",
    "Verif.C82_fixed_fonts_runs",
    "Verif.C82_font_counterexample",
    "Verif.C82_example"
   ],
   "note": "C82_never_outdated, C82_engine_goes_on and C82_measured_by_content are full. C82_as_if_computed_partial is for runs in which every text has the same font whenever it is displayed; C82_font_counterexample shows that the code does not mark a text whose font changes, so that it keeps its old box. C82_steady_fonts derives that condition from document and stylesheet (and, for bound inline styles, from what they are read as): font properties only with fixed values in inline styles and in rules whose selectors have no pseudo-class and test no bound attribute; animations and transitions are of other properties. C82_fixed_fonts_partial is the claim for all such programs, C82_fixed_fonts_runs that engines with kept results run them all. Examples: C82_example_fixed_run, C82_example_glide (a transition of a width from a bound inline style)."
  },
  {
   "property": "C83",
   "status": "partial",
   "theorems": [
    "Verif.C83_example",
    "Verif.C83_transition_partial",
    "Verif.C83_steady_partial"
   ],
   "note": "For whole programs: any history, any number of updates before and after the change. Left out, because the code is wrong there (C55): a delay, a duration of zero, properties with several values; and what C77 leaves out. Exact arithmetic; C91 and C92 say what is left of it with rounded f32."
  },
  {
   "property": "C84",
   "status": "partial",
   "theorems": [
    "Verif.C84_reproducible_partial",
    "Verif.C84_engines_partial",
    "Verif.C84_one_outcome",
    "Verif.C84_bound_example",
    "Verif.C84_fixed_fonts_partial",
    "Verif.C84_example",
    "Verif.C84_order_counterexample"
   ],
   "note": "C84_reproducible_partial: equality of whole runs, failures included. Missing: lists of values for properties that take one value (false of the code, C84_order_counterexample); and for the kept layouts (C84_engines_partial) texts whose font changes (C82). C84_one_outcome: nor does that of a run. C84_fixed_fonts_partial has conditions on document, stylesheet and bound inline styles only; animations and transitions of other properties than fonts are allowed. Inline styles may be fixed in the document or bound (`@style=\"width:{w}px;\"`): the condition is then on what they are read as in this history (Spec/Inline; C84_bound_example)."
  },
  {
   "property": "C85",
   "status": "partial",
   "theorems": [
    "Verif.C85_example",
    "Verif.C85_flicker_counterexample",
    "Verif.C85_idle_partial",
    "Verif.C85_settled_partial",
    "Verif.C85_engine_partial",
    "Verif.C85_fixed_fonts_partial"
   ],
   "note": "C85_idle_partial: any number of idle updates leave the program exactly as it is. Needed, because false of the code otherwise (C85_flicker_counterexample): the last update with something new has not changed what the pseudo classes of the stylesheet hold of; C85_settled_partial for stylesheets without pseudo classes. Missing: lists of values (C84); and for kept layouts (C85_engine_partial) texts whose font changes (C82). C85_fixed_fonts_partial replaces the condition about fonts by conditions on document and stylesheet. Inline styles may be fixed in the document or bound (`@style=\"width:{w}px;\"`): the condition is then on what they are read as in this history (Spec/Inline; C84_bound_example)."
  },
  {
   "property": "C86",
   "status": "proved",
   "theorems": [
    "Verif.C86_idle_partial",
    "Verif.C86_example",
    "Verif.C86_counting_changes_nothing",
    "Verif.C86_updates",
    "Verif.C86_elements_shown",
    "Verif.C86_cascades",
    "Verif.C86_styles",
    "Verif.C86_layouts",
    "Verif.C86_rules",
    "Verif.C86_properties"
   ],
   "note": "Counters of updates that return an error are not modelled. C86_idle_partial (an idle program changes no layout styles) is an addition and has the limits of C85."
  },
  {
   "property": "C87",
   "status": "proved",
   "theorems": [
    "Verif.C87_room",
    "Verif.C87_room_stays"
   ],
   "note": "C87_room for all runs. The converse is false: room for a border of a rule that no longer applies stays (C87_room_stays)."
  },
  {
   "property": "C88",
   "status": "partial",
   "theorems": [
    "Verif.C88_shape_counterexample",
    "Verif.C88_shape_ignored",
    "Verif.C88_animations_partial",
    "Verif.C88_transitions_partial",
    "Verif.C88_declared_partial",
    "Verif.C88_kept_partial"
   ],
   "note": "C88_animations_partial and C88_transitions_partial: every parameter and word, read from what the element is told (stylesheet, inline style, running animations: Spec/SetUp, built on C81's vocabulary); C88_declared_partial: that is what the stylesheet says unless a keyframe or transition is about the same property; C88_kept_partial: parameters about which nothing is told. Conditions: as C81 (no lists of values for properties that take one, selectors read as CSS does). The last sentence is false of the code: C88_shape_counterexample (a reversed ease-in animation plays forward and evenly) and C88_shape_ignored (in general)."
  },
  {
   "property": "C89",
   "status": "partial",
   "theorems": [
    "Verif.C89_number_partial",
    "Verif.C89_other",
    "Verif.C89_negative_counterexample",
    "Verif.C89_registered",
    "Verif.C89_shown_partial"
   ],
   "note": "Proved for every number from 0 to 2^64-1 seconds, for everything that is not a number, and for what a view shows. False for negative numbers: Duration::from_secs_f64 panics and so does the update (C89_negative_counterexample)."
  },
  {
   "property": "C90",
   "status": "partial",
   "theorems": [
    "Verif.C90_inline_partial",
    "Verif.C90_written_partial",
    "Verif.C90_static",
    "Verif.C90_look_partial",
    "Verif.C90_text_counterexample",
    "Verif.C90_example"
   ],
   "note": "Proved for all runs; the texts of bound styles before the first binding are excepted, because the code does not read them: with @style=\"left:0;\" (no expression) the style is never read (C90_text_counterexample), and @style=\"left:0;width:{w}px;\" not until w is bound. Complete for unbound styles (C90_static). Programs with #style, which sets and removes the attribute, are excepted by hypothesis."
  },
  {
   "property": "C91",
   "status": "partial",
   "theorems": [
    "Verif.C91_progress",
    "Verif.C91_begins",
    "Verif.C91_ends_partial",
    "Verif.C91_ends_once",
    "Verif.C91_end_counterexample",
    "Verif.C91_end_shown",
    "Verif.C91_example",
    "Verif.C91_clock",
    "Verif.C91_clock_example"
   ],
   "note": "Range and begin are proved for all roundings. The end at 100% holds when the multiples of the duration are 32-bit numbers (all durations for 1 and 2 iterations); it is false otherwise: C91_end_counterexample, C91_end_shown (0.1s, 3 iterations, ends at the first keyframe). Overflow and not-a-number are not modelled."
  },
  {
   "property": "C92",
   "status": "partial",
   "theorems": [
    "Verif.C92_finite",
    "Verif.C92_infinite_partial",
    "Verif.C92_hangs",
    "Verif.C92_sleep_counterexample",
    "Verif.C92_stops",
    "Verif.C92_stops_example",
    "Verif.C92_exactly",
    "Verif.C92_exactly_even",
    "Verif.C92_exactly_example"
   ],
   "note": "False of the code: C92_exactly and C92_exactly_even say for every duration and time whether the update comes to an end or hangs (every positive time is in one of their ranges, exists_range). C92_finite, C92_infinite_partial and C92_hangs are readable consequences: up to 2^23 iterations it ends, beyond 2^26 it hangs; C92_sleep_counterexample: 1ms infinite, a frame of ten hours; C92_stops: clocks stop (at 60 frames a second after seven days)."
  },
  {
   "property": "C93",
   "status": "partial",
   "theorems": [
    "Verif.C93_ends",
    "Verif.C93_between",
    "Verif.C93_forward",
    "Verif.C93_transition_partial",
    "Verif.C93_example"
   ],
   "note": "Interpolation is proved in full; transitions for positive durations, no delay and single values, as C55, which is false otherwise."
  },
  {
   "property": "C94",
   "status": "partial",
   "theorems": [
    "Verif.C94_scroll_partial",
    "Verif.C94_example"
   ],
   "note": "As C59: false when the content is smaller than the element on one axis and larger on the other (C59_other_axis)."
  },
  {
   "property": "C95",
   "status": "proved",
   "theorems": [
    "Verif.C95_play",
    "Verif.C95_waits",
    "Verif.C95_example"
   ],
   "note": "C53 once more with rounding (Float/Model); the values between keyframes are those of C93."
  },
  {
   "property": "C96",
   "status": "proved",
   "theorems": [
    "Verif.C96_opacity",
    "Verif.C96_hidden",
    "Verif.C96_order",
    "Verif.C96_corner",
    "Verif.C96_position",
    "Verif.C96_clipping",
    "Verif.C96_example"
   ],
   "note": "C57, C58 and which elements scroll, with rounding (Float/Placed; without rounding it is placeTree, placeTreeIn_id). The layout engine is a parameter as before; no overflow or NaN."
  },
  {
   "property": "C97",
   "status": "proved",
   "theorems": [
    "Verif.C97_lengths",
    "Verif.C97_exact",
    "Verif.C97_whole",
    "Verif.C97_order",
    "Verif.C97_vmin_vmax",
    "Verif.C97_percent",
    "Verif.C97_times",
    "Verif.C97_written",
    "Verif.C97_font",
    "Verif.C97_used",
    "Verif.C97_example"
   ],
   "note": "C49 and the numbers of C71 once more with rounding (Float/Lengths, Float/Reads; without rounding they are the functions of Css/Apply and Css/Reader). C97_example shows where rounding is visible: 100vw in a viewport of fractional width, ten columns of 10vw, 0.7% against 0.007."
  },
  {
   "property": "C98",
   "status": "partial",
   "theorems": [
    "Verif.C98_initial_partial",
    "Verif.C98_complete",
    "Verif.C98_counterexample",
    "Verif.C98_program_counterexample"
   ],
   "note": "False of the code for box-sizing (initial content-box, default border-box), for border colours (initial is the parent's colour, default transparent) and for the inherited font-size, font-weight, font-style and pointer-events (C98_counterexample; C98_program_counterexample is a whole program whose text jumps from 32 to 16 pixels). Neutral lists exactly these cases; C98_complete says no other property does anything."
  },
  {
   "property": "C99",
   "status": "proved",
   "theorems": [
    "Verif.C99_pointing",
    "Verif.C99_whole",
    "Verif.C99_edge_example",
    "Verif.C99_example"
   ],
   "note": "C28 once more with rounding (Float/Pointing; without rounding it is underMouse, underMouseIn_id). C99_edge_example is a point inside a box that is not found."
  },
  {
   "property": "C100",
   "status": "proved",
   "theorems": [
    "Verif.C100_near",
    "Verif.C100_order",
    "Verif.C100_percent",
    "Verif.C100_functions",
    "Verif.C100_example"
   ],
   "note": "C64's functions once more with rounding (Float/Pointing). C100_example shows where rounding is visible: a number a little below 3/255 gives 3."
  },
  {
   "property": "C101",
   "status": "proved",
   "theorems": [
    "Verif.C101_example",
    "Verif.C101_piped_array_counterexample",
    "Verif.C101_unmentioned_data_invisible"
   ],
   "note": "C101_unmentioned_data_invisible: equality of whole runs, failures included (shapes without an array directly in an array, as C05-C09). C101_example: its conditions are met; C101_piped_array_counterexample: why arrays in pipes are excepted in the statement."
  },
  {
   "property": "C102",
   "status": "proved",
   "theorems": [
    "Verif.C102_example",
    "Verif.C102_plus_counterexample",
    "Verif.C102_useless_rules"
   ],
   "note": "With C102_plus_counterexample for why rules with + are excepted."
  },
  {
   "property": "C103",
   "status": "proved",
   "theorems": [
    "Verif.C103_input_as_built",
    "Verif.C103_example"
   ],
   "note": ""
  },
  {
   "property": "C104",
   "status": "proved",
   "theorems": [
    "Verif.C104_copied_rules",
    "Verif.C104_example",
    "Verif.C104_late_variable_counterexample"
   ],
   "note": "With C104_late_variable_counterexample for why variables have to be defined first."
  },
  {
   "property": "C105",
   "status": "proved",
   "theorems": [
    "Verif.C105_swapped_rules",
    "Verif.C105_example",
    "Verif.C105_apart_counterexample"
   ],
   "note": "With C105_apart_counterexample for why both conditions on the exchanged rules are needed. Lists of values for properties that take one are excluded since C84_order_counterexample shows that their effect is up to the order of a hash map."
  },
  {
   "property": "C106",
   "status": "proved",
   "theorems": [
    "Verif.C106_only_what_is_needed",
    "Verif.C106_more_elements",
    "Verif.C106_example"
   ],
   "note": "C106_more_elements is the same in terms of the text of the document."
  },
  {
   "property": "C107",
   "status": "proved",
   "theorems": [
    "Verif.C107_links_inlined",
    "Verif.C107_example",
    "Verif.C107_chain_counterexample"
   ],
   "note": "With C107_chain_counterexample for why what a link is replaced by must not be a link itself."
  },
  {
   "property": "C108",
   "status": "proved",
   "theorems": [
    "Verif.C108_reworded_rules",
    "Verif.C108_example",
    "Verif.C108_plus_counterexample"
   ],
   "note": "With C108_plus_counterexample for why the order of selectors matters for rules with `+`."
  },
  {
   "property": "C109",
   "status": "partial",
   "theorems": [
    "Verif.C109_rule_per_selector_partial",
    "Verif.C109_example",
    "Verif.C109_counterexample"
   ],
   "note": "Proved under the conditions of C42 for the whole program (`Css.Steady`): no `+`, no `#class` or `#id`, and rules with `>` do not test attributes bound on elements with children. C109_counterexample shows that the last is needed: without it the full claim is false of the code."
  },
  {
   "property": "C110",
   "status": "partial",
   "theorems": [
    "Verif.C110_example",
    "Verif.C110_counterexample",
    "Verif.C110_covered_selectors_partial"
   ],
   "note": "Proved under the conditions of C42 for the whole program (`Css.Steady`), as C109. C110_counterexample shows that they are needed: without them the full claim is false of the code."
  },
  {
   "property": "C111",
   "status": "proved",
   "theorems": [
    "Verif.C111_outdone_declarations",
    "Verif.C111_example",
    "Verif.C111_list_counterexample",
    "Verif.C111_words_counterexample"
   ],
   "note": "For every stylesheet, without the conditions of C42: the rules keep their selectors. C111_list_counterexample and C111_words_counterexample show why as many values and single words are asked for."
  },
  {
   "property": "C112",
   "status": "proved",
   "theorems": [
    "Verif.C112_example",
    "Verif.C112_shorthands"
   ],
   "note": "For every stylesheet; values are written out (no variables). `Spec/Spelled` lists what each shorthand stands for, as CSS has it; `gap` with two values and `inset` with two or three are left out, since the code does not follow CSS there (C44)."
  },
  {
   "property": "C113",
   "status": "proved",
   "theorems": [
    "Verif.C113_joined_rules",
    "Verif.C113_example"
   ],
   "note": "For every stylesheet, without the conditions of C42."
  },
  {
   "property": "C114",
   "status": "proved",
   "theorems": [
    "Verif.C114_empty_rules",
    "Verif.C114_example",
    "Verif.C114_plus_counterexample"
   ],
   "note": "For every stylesheet, without the conditions of C42. C114_plus_counterexample: an empty rule with `+` can keep a document from opening."
  },
  {
   "property": "C115",
   "status": "proved",
   "theorems": [
    "Verif.C115_inlined_variables",
    "Verif.C115_example"
   ],
   "note": "For every stylesheet; `2 \u2264 fuel` says that the stack has room for the two calls that look up one variable."
  },
  {
   "property": "C116",
   "status": "proved",
   "theorems": [
    "Verif.C116_redefined_variables",
    "Verif.C116_example"
   ],
   "note": "For every stylesheet."
  }
 ]
}