# Axioms of each theorem of the manifest

Generated by `tools/axioms.py` with `#print axioms`.

| theorem | axioms |
|---|---|
| Verif.C01_truthiness | propext, Classical.choice, Quot.sound |
| Verif.C01_objects_true | propext, Quot.sound |
| Verif.C02_range | propext, Classical.choice, Quot.sound |
| Verif.C02_int_exact | propext, Classical.choice, Quot.sound |
| Verif.C02_decimal_string | propext, Classical.choice, Quot.sound |
| Verif.C02_zero | propext, Classical.choice, Quot.sound |
| Verif.C02_usize | propext, Classical.choice, Quot.sound |
| Verif.C02_bound_sharp | propext, Classical.choice, Quot.sound |
| Verif.C03_text | propext |
| Verif.C03_text_roundtrip | propext, Classical.choice, Quot.sound |
| Verif.C03_text_injective | propext, Classical.choice, Quot.sound |
| Verif.C03_array | propext |
| Verif.C04_rebind_same_is_noop | propext, Classical.choice, Quot.sound |
| Verif.C05_history_independent | propext, Classical.choice, Quot.sound |
| Verif.C05_same_last_value | propext, Classical.choice, Quot.sound |
| Verif.C06_reactions_are_changes | propext, Classical.choice, Quot.sound |
| Verif.C06_prior_defined | propext, Classical.choice, Quot.sound |
| Verif.C06_each_binding_once | propext, Quot.sound |
| Verif.C07_fitting_never_panics | propext, Classical.choice, Quot.sound |
| Verif.C07_panic_on_non_fitting | propext, Classical.choice, Quot.sound |
| Verif.C08_extra_keys_invisible_model | propext, Classical.choice, Quot.sound |
| Verif.C08_extra_keys_invisible | propext, Classical.choice, Quot.sound |
| Verif.C08_missing_is_null | propext, Classical.choice, Quot.sound |
| Verif.C09_items_bound_partial | propext, Classical.choice, Quot.sound |
| Verif.C09_array_in_array | propext, Classical.choice, Quot.sound |
| Verif.C10_repeat_in_slots | propext, Classical.choice, Quot.sound |
| Verif.C11_pipe_left_to_right | propext, Quot.sound |
| Verif.C11_unknown_skipped | propext |
| Verif.C12_object_condition_partial | propext, Quot.sound |
| Verif.C12_null_object_not_noticed | propext, Classical.choice, Quot.sound |
| Verif.C13_conditional_order | propext, Classical.choice, Quot.sound |
| Verif.C14_first_k_slots | propext, Classical.choice, Quot.sound |
| Verif.C14_history | propext, Classical.choice, Quot.sound |
| Verif.C15_order_partial | propext, Classical.choice, Quot.sound |
| Verif.C15_repeat_before_sibling | propext, Quot.sound |
| Verif.C16_open | propext, Classical.choice, Quot.sound |
| Verif.C16_update | propext, Classical.choice, Quot.sound |
| Verif.C16_fitting_updates_succeed | propext, Classical.choice, Quot.sound |
| Verif.C16_tree_stays_tree | propext, Classical.choice, Quot.sound |
| Verif.C16_one_parent | none |
| Verif.C16_acyclic | none |
| Verif.C17_set | propext, Quot.sound |
| Verif.C17_concatenation | propext, Classical.choice, Quot.sound |
| Verif.C17_spans_independent | propext, Classical.choice, Quot.sound |
| Verif.C18_text_shows_value | propext, Classical.choice, Quot.sound |
| Verif.C19_null_text_partial | propext, Classical.choice, Quot.sound |
| Verif.C19_placeholder_stays | propext, Classical.choice, Quot.sound |
| Verif.C19_stale_after_regrow | propext, Classical.choice, Quot.sound |
| Verif.C20_condition_not_null | propext, Classical.choice, Quot.sound |
| Verif.C20_condition_partial | propext, Classical.choice, Quot.sound |
| Verif.C20_not_stays_hidden | propext, Classical.choice, Quot.sound |
| Verif.C20_stale_after_regrow | propext, Classical.choice, Quot.sound |
| Verif.C21_boolean_attribute | propext, Classical.choice, Quot.sound |
| Verif.C21_other_attributes_untouched | propext, Classical.choice, Quot.sound |
| Verif.C22_lookup_partial | propext, Classical.choice, Quot.sound |
| Verif.C22_stale_id | propext, Quot.sound |
| Verif.C22_programs_partial | propext, Classical.choice, Quot.sound |
| Verif.C22_static_ids | propext, Classical.choice, Quot.sound |
| Verif.C22_example | propext, Classical.choice, Quot.sound |
| Verif.C22_stale_program | propext, Classical.choice, Quot.sound |
| Verif.C22_text_id | propext, Classical.choice, Quot.sound |
| Verif.C23_locals_restored_partial | propext, Classical.choice, Quot.sound |
| Verif.C23_lexical_partial | propext, Classical.choice, Quot.sound |
| Verif.C23_duplicate_alias_leaks | propext, Classical.choice, Quot.sound |
| Verif.C24_loop_variable_partial | propext, Classical.choice, Quot.sound |
| Verif.C24_shadowed_array | propext, Classical.choice, Quot.sound |
| Verif.C25_paths_resolve_partial | propext, Classical.choice, Quot.sound |
| Verif.C25_update_resolves | propext, Classical.choice, Quot.sound |
| Verif.C25_mixed_use | propext, Classical.choice, Quot.sound |
| Verif.C25_leading_zero | propext, Classical.choice, Quot.sound |
| Verif.C25_this | propext, Classical.choice, Quot.sound |
| Verif.C26_rendering_terminates | propext, Classical.choice, Quot.sound |
| Verif.C26_self_reference_diverges | propext, Classical.choice, Quot.sound |
| Verif.C27_mirrors_scoped | propext, Classical.choice, Quot.sound |
| Verif.C27_stands | propext, Classical.choice, Quot.sound |
| Verif.C27_fresh_tree | propext, Classical.choice, Quot.sound |
| Verif.C28_hover_exact | propext, Classical.choice, Quot.sound |
| Verif.C28_under_pointer_in_batch | propext, Classical.choice, Quot.sound |
| Verif.C29_enter_leave_alternate | propext, Classical.choice, Quot.sound |
| Verif.C29_under_is_entered | propext, Classical.choice, Quot.sound |
| Verif.C30_one_focus | propext, Classical.choice, Quot.sound |
| Verif.C30_focus_target | propext, Classical.choice, Quot.sound |
| Verif.C31_click_needs_press | propext, Classical.choice, Quot.sound |
| Verif.C31_release_sends | propext, Classical.choice, Quot.sound |
| Verif.C32_drop_ends_drag_partial | propext, Classical.choice, Quot.sound |
| Verif.C32_drag_survives_release | propext, Classical.choice, Quot.sound |
| Verif.C33_drag_lifecycle | propext, Classical.choice, Quot.sound |
| Verif.C34_keys_to_focus | propext, Classical.choice, Quot.sound |
| Verif.C35_message_shape | propext, Classical.choice, Quot.sound |
| Verif.C35_dynamic_name | propext, Classical.choice, Quot.sound |
| Verif.C36_messages_of_update | propext, Classical.choice, Quot.sound |
| Verif.C36_split_batch_partial | propext, Classical.choice, Quot.sound |
| Verif.C36_batch_matters | propext, Classical.choice, Quot.sound |
| Verif.C37_captured | propext, Classical.choice, Quot.sound |
| Verif.C38_input_total | propext, Classical.choice, Quot.sound |
| Verif.C39_child_selectors_partial | propext, Classical.choice, Quot.sound |
| Verif.C39_rules_partial | propext, Classical.choice, Quot.sound |
| Verif.C39_pseudo_classes | propext, Classical.choice, Quot.sound |
| Verif.C39_pseudo_classes_witness | propext, Classical.choice, Quot.sound |
| Verif.C39_dash_match | propext, Classical.choice, Quot.sound |
| Verif.C39_tab_separates | propext, Classical.choice, Quot.sound |
| Verif.C39_empty_value | propext, Classical.choice, Quot.sound |
| Verif.C39_root_never | propext, Classical.choice, Quot.sound |
| Verif.C40_first_child_partial | propext, Classical.choice, Quot.sound |
| Verif.C40_second_child | propext, Classical.choice, Quot.sound |
| Verif.C40_two_back | propext, Classical.choice, Quot.sound |
| Verif.C40_counterexample | propext, Classical.choice, Quot.sound |
| Verif.C41_unsupported_never_match | propext, Classical.choice, Quot.sound |
| Verif.C41_rule_never_matches | propext, Classical.choice, Quot.sound |
| Verif.C42_rules_exact_partial | propext, Classical.choice, Quot.sound |
| Verif.C42_dynamic_parent | propext, Classical.choice, Quot.sound |
| Verif.C42_tag_class | propext, Classical.choice, Quot.sound |
| Verif.C42_program_partial | propext, Classical.choice, Quot.sound |
| Verif.C43_last_declaration_wins | propext, Classical.choice, Quot.sound |
| Verif.C43_inline_wins | propext, Classical.choice, Quot.sound |
| Verif.C43_shown | propext, Classical.choice, Quot.sound |
| Verif.C43_shown_values | propext, Classical.choice, Quot.sound |
| Verif.C44_box_shorthands | propext, Classical.choice, Quot.sound |
| Verif.C44_other_shorthands_partial | propext, Quot.sound |
| Verif.C44_gap_order_counterexample | propext |
| Verif.C44_inset_counterexample | propext |
| Verif.C45_scope | propext, Classical.choice, Quot.sound |
| Verif.C45_nearest | propext, Classical.choice, Quot.sound |
| Verif.C46_acyclic_terminates_partial | propext, Classical.choice, Quot.sound |
| Verif.C46_blocks_terminate_partial | propext, Classical.choice, Quot.sound |
| Verif.C46_cyclic_counterexample | propext, Classical.choice, Quot.sound |
| Verif.C46_frame_hangs | propext, Classical.choice, Quot.sound |
| Verif.C47_order_matters | propext, Classical.choice, Quot.sound |
| Verif.C47_order_irrelevant_partial | propext, Classical.choice, Quot.sound |
| Verif.C48_hover_stays | propext, Classical.choice, Quot.sound |
| Verif.C48_look_partial | propext, Classical.choice, Quot.sound |
| Verif.C49_units | propext, Classical.choice, Quot.sound |
| Verif.C49_bare | propext, Classical.choice, Quot.sound |
| Verif.C49_vmin_vmax | propext, Classical.choice, Quot.sound |
| Verif.C50_inherits | propext, Classical.choice, Quot.sound |
| Verif.C50_any_depth | propext, Classical.choice, Quot.sound |
| Verif.C51_progress | propext, Classical.choice, Quot.sound |
| Verif.C51_ends_at_one | propext, Classical.choice, Quot.sound |
| Verif.C51_clock | propext, Classical.choice, Quot.sound |
| Verif.C51_witness | propext, Classical.choice, Quot.sound |
| Verif.C52_terminates_partial | propext, Classical.choice, Quot.sound |
| Verif.C52_exactly | propext, Classical.choice, Quot.sound |
| Verif.C52_hangs_counterexample | propext, Classical.choice, Quot.sound |
| Verif.C53_play | propext, Classical.choice, Quot.sound |
| Verif.C53_keyframe_style | propext, Classical.choice, Quot.sound |
| Verif.C53_witness | propext, Classical.choice, Quot.sound |
| Verif.C54_ends | propext, Classical.choice, Quot.sound |
| Verif.C54_between | propext, Classical.choice, Quot.sound |
| Verif.C54_bytes | propext, Classical.choice, Quot.sound |
| Verif.C54_linear | propext, Classical.choice, Quot.sound |
| Verif.C54_channels | propext, Classical.choice, Quot.sound |
| Verif.C54_switch | propext, Classical.choice, Quot.sound |
| Verif.C54_witness | propext, Classical.choice, Quot.sound |
| Verif.C55_transition_partial | propext, Classical.choice, Quot.sound |
| Verif.C55_converges_partial | propext, Classical.choice, Quot.sound |
| Verif.C55_start_partial | propext, Classical.choice, Quot.sound |
| Verif.C55_witness | propext, Classical.choice, Quot.sound |
| Verif.C55_delay_counterexample | propext, Classical.choice, Quot.sound |
| Verif.C55_zero_duration_counterexample | propext, Classical.choice, Quot.sound |
| Verif.C56_terminates_partial | propext, Classical.choice, Quot.sound |
| Verif.C56_first_value_counterexample | propext, Classical.choice, Quot.sound |
| Verif.C56_frame_hangs | propext, Classical.choice, Quot.sound |
| Verif.C57_position | propext, Classical.choice, Quot.sound |
| Verif.C57_succeeds | propext, Classical.choice, Quot.sound |
| Verif.C58_opacity | propext, Classical.choice, Quot.sound |
| Verif.C58_clipping | propext, Classical.choice, Quot.sound |
| Verif.C59_scrolls_iff | propext, Classical.choice, Quot.sound |
| Verif.C59_frame_event | propext, Classical.choice, Quot.sound |
| Verif.C59_in_range_partial | propext, Classical.choice, Quot.sound |
| Verif.C59_in_range_x_partial | propext, Classical.choice, Quot.sound |
| Verif.C59_in_range_y_partial | propext, Classical.choice, Quot.sound |
| Verif.C59_other_axis | propext, Classical.choice, Quot.sound |
| Verif.C59_child_shifted | propext, Classical.choice, Quot.sound |
| Verif.C60_no_line_break | propext, Classical.choice, Quot.sound |
| Verif.C60_words | propext, Classical.choice, Quot.sound |
| Verif.C60_binders | propext, Classical.choice, Quot.sound |
| Verif.C60_single_line | propext, Classical.choice, Quot.sound |
| Verif.C60_joins | propext, Classical.choice, Quot.sound |
| Verif.C61_link_meaning | propext, Classical.choice, Quot.sound |
| Verif.C61_reported_template | propext, Classical.choice, Quot.sound |
| Verif.C61_document_meaning | propext, Classical.choice, Quot.sound |
| Verif.C62_pointer_shape | propext, Classical.choice, Quot.sound |
| Verif.C63_unambiguous | propext, Classical.choice, Quot.sound |
| Verif.C63_parse | propext, Classical.choice, Quot.sound |
| Verif.C63_written | propext, Classical.choice, Quot.sound |
| Verif.C63_misspelled | none |
| Verif.C64_opaque | propext, Classical.choice, Quot.sound |
| Verif.C64_alpha | propext, Classical.choice, Quot.sound |
| Verif.C64_byte | propext, Classical.choice, Quot.sound |
| Verif.C64_rgb | propext, Classical.choice, Quot.sound |
| Verif.C64_rgba | propext, Classical.choice, Quot.sound |
| Verif.C64_short | propext, Classical.choice, Quot.sound |
| Verif.C65_display_partial | propext, Classical.choice, Quot.sound |
| Verif.C65_last_value_partial | propext, Classical.choice, Quot.sound |
| Verif.C65_nested_array_counterexample | propext, Classical.choice, Quot.sound |
| Verif.C66_pointer_order | propext, Classical.choice, Quot.sound |
| Verif.C67_frame_succeeds | propext, Classical.choice, Quot.sound |
| Verif.C68_reading_ends | propext, Classical.choice, Quot.sound |
| Verif.C69_written_documents_are_read | propext, Classical.choice, Quot.sound |
| Verif.C69_unambiguous | propext, Classical.choice, Quot.sound |
| Verif.C69_example | propext, Classical.choice, Quot.sound |
| Verif.C69_space_after_transformer | propext, Classical.choice, Quot.sound |
| Verif.C69_space_in_attribute | propext, Classical.choice, Quot.sound |
| Verif.C69_space_after_element | propext, Classical.choice, Quot.sound |
| Verif.C69_void_prefix | propext, Classical.choice, Quot.sound |
| Verif.C69_unquoted | propext, Classical.choice, Quot.sound |
| Verif.C69_script_comment | propext, Classical.choice, Quot.sound |
| Verif.C69_closing_tag | propext, Classical.choice, Quot.sound |
| Verif.C69_second_element | propext, Classical.choice, Quot.sound |
| Verif.C70_stylesheet | propext, Classical.choice, Quot.sound |
| Verif.C70_inline | propext, Classical.choice, Quot.sound |
| Verif.C71_read_as_written | propext, Classical.choice, Quot.sound |
| Verif.C71_unambiguous | propext, Classical.choice, Quot.sound |
| Verif.C71_inline | propext, Classical.choice, Quot.sound |
| Verif.C71_example | propext, Classical.choice, Quot.sound |
| Verif.C71_animation_example | propext, Classical.choice, Quot.sound |
| Verif.C71_two_blanks | propext, Classical.choice, Quot.sound |
| Verif.C71_semicolon | propext, Classical.choice, Quot.sound |
| Verif.C71_inline_blank | propext, Classical.choice, Quot.sound |
| Verif.C71_leading_zero | propext, Classical.choice, Quot.sound |
| Verif.C71_rooted | propext, Classical.choice, Quot.sound |
| Verif.C71_pseudo_argument | propext, Classical.choice, Quot.sound |
| Verif.C71_attribute_flag | propext, Classical.choice, Quot.sound |
| Verif.C71_fallback | propext, Classical.choice, Quot.sound |
| Verif.C71_unknown_unit | propext, Classical.choice, Quot.sound |
| Verif.C71_step_blank | propext, Classical.choice, Quot.sound |
| Verif.C71_no_selector | propext, Classical.choice, Quot.sound |
| Verif.C71_empty_selector | propext, Classical.choice, Quot.sound |
| Verif.C72_words | propext, Classical.choice, Quot.sound |
| Verif.C72_colours_partial | propext, Classical.choice, Quot.sound |
| Verif.C72_numbers | propext, Classical.choice, Quot.sound |
| Verif.C72_green_counterexample | propext, Classical.choice, Quot.sound |
| Verif.C73_plus_counterexample | propext, Classical.choice, Quot.sound |
| Verif.C73_self_reference_counterexample | propext, Classical.choice, Quot.sound |
| Verif.C73_opens_as_written | propext, Classical.choice, Quot.sound |
| Verif.C73_opens_partial | propext, Classical.choice, Quot.sound |
| Verif.C73_opening_ends_partial | propext, Classical.choice, Quot.sound |
| Verif.C73_one_outcome | propext, Classical.choice, Quot.sound |
| Verif.C74_runs_are_sessions | propext, Classical.choice, Quot.sound |
| Verif.C74_no_error_values | propext, Classical.choice, Quot.sound |
| Verif.C74_update_succeeds_partial | propext, Classical.choice, Quot.sound |
| Verif.C74_runs_forever_partial | propext, Classical.choice, Quot.sound |
| Verif.C75_example | propext, Classical.choice, Quot.sound |
| Verif.C75_run_shows_partial | propext, Classical.choice, Quot.sound |
| Verif.C75_texts_to_display_partial | propext, Classical.choice, Quot.sound |
| Verif.C76_resize_counterexample | propext, Classical.choice, Quot.sound |
| Verif.C76_fills_window_partial | propext, Classical.choice, Quot.sound |
| Verif.C77_example | propext, Classical.choice, Quot.sound |
| Verif.C77_example_still | propext, Classical.choice, Quot.sound |
| Verif.C77_look_partial | propext, Classical.choice, Quot.sound |
| Verif.C77_values_partial | propext, Classical.choice, Quot.sound |
| Verif.C77_lengths_partial | propext, Classical.choice, Quot.sound |
| Verif.C77_inherits_partial | propext, Classical.choice, Quot.sound |
| Verif.C77_nothing_moves | propext, Classical.choice, Quot.sound |
| Verif.C78_example | propext, Classical.choice, Quot.sound |
| Verif.C78_places | propext, Classical.choice, Quot.sound |
| Verif.C78_hover | propext, Classical.choice, Quot.sound |
| Verif.C79_wheel_counterexample | propext, Classical.choice, Quot.sound |
| Verif.C79_never_scrolls_partial | propext, Classical.choice, Quot.sound |
| Verif.C79_at_rest_partial | propext, Classical.choice, Quot.sound |
| Verif.C79_wheel_ignored | propext, Classical.choice, Quot.sound |
| Verif.C80_pictures_partial | propext, Classical.choice, Quot.sound |
| Verif.C80_example | propext, Classical.choice, Quot.sound |
| Verif.C80_tag_counterexample | propext, Classical.choice, Quot.sound |
| Verif.C81_clock | propext, Classical.choice, Quot.sound |
| Verif.C81_update | propext, Classical.choice, Quot.sound |
| Verif.C81_look_partial | propext, Classical.choice, Quot.sound |
| Verif.C81_example | propext, Classical.choice, Quot.sound |
| Verif.C81_undeclared_counterexample | propext, Classical.choice, Quot.sound |
| Verif.C82_example_fixed | propext, Classical.choice, Quot.sound |
| Verif.C82_example_fixed_run | propext, Classical.choice, Quot.sound |
| Verif.C82_example_glide | propext, Classical.choice, Quot.sound |
| Verif.C82_never_outdated | propext, Classical.choice, Quot.sound |
| Verif.C82_as_if_computed_partial | propext, Classical.choice, Quot.sound |
| Verif.C82_engine_goes_on | propext, Classical.choice, Quot.sound |
| Verif.C82_measured_by_content | propext, Quot.sound |
| Verif.C82_steady_fonts | propext, Classical.choice, Quot.sound |
| Verif.C82_fixed_fonts_partial | propext, Classical.choice, Quot.sound |
| Verif.C82_fixed_fonts_runs | propext, Classical.choice, Quot.sound |
| Verif.C82_font_counterexample | propext, Classical.choice, Quot.sound |
| Verif.C82_example | propext, Classical.choice, Quot.sound |
| Verif.C83_example | propext, Classical.choice, Quot.sound |
| Verif.C83_transition_partial | propext, Classical.choice, Quot.sound |
| Verif.C83_steady_partial | propext, Classical.choice, Quot.sound |
| Verif.C84_reproducible_partial | propext, Classical.choice, Quot.sound |
| Verif.C84_engines_partial | propext, Classical.choice, Quot.sound |
| Verif.C84_one_outcome | propext, Classical.choice, Quot.sound |
| Verif.C84_bound_example | propext, Classical.choice, Quot.sound |
| Verif.C84_fixed_fonts_partial | propext, Classical.choice, Quot.sound |
| Verif.C84_example | propext, Classical.choice, Quot.sound |
| Verif.C84_order_counterexample | propext, Classical.choice, Quot.sound |
| Verif.C85_example | propext, Classical.choice, Quot.sound |
| Verif.C85_flicker_counterexample | propext, Classical.choice, Quot.sound |
| Verif.C85_idle_partial | propext, Classical.choice, Quot.sound |
| Verif.C85_settled_partial | propext, Classical.choice, Quot.sound |
| Verif.C85_engine_partial | propext, Classical.choice, Quot.sound |
| Verif.C85_fixed_fonts_partial | propext, Classical.choice, Quot.sound |
| Verif.C86_idle_partial | propext, Classical.choice, Quot.sound |
| Verif.C86_example | propext, Classical.choice, Quot.sound |
| Verif.C86_counting_changes_nothing | propext, Classical.choice, Quot.sound |
| Verif.C86_updates | propext, Classical.choice, Quot.sound |
| Verif.C86_elements_shown | propext, Classical.choice, Quot.sound |
| Verif.C86_cascades | propext, Classical.choice, Quot.sound |
| Verif.C86_styles | propext, Classical.choice, Quot.sound |
| Verif.C86_layouts | propext, Classical.choice, Quot.sound |
| Verif.C86_rules | propext, Classical.choice, Quot.sound |
| Verif.C86_properties | propext, Classical.choice, Quot.sound |
| Verif.C87_room | propext, Classical.choice, Quot.sound |
| Verif.C87_room_stays | propext, Classical.choice, Quot.sound |
| Verif.C88_shape_counterexample | propext, Classical.choice, Quot.sound |
| Verif.C88_shape_ignored | propext, Classical.choice, Quot.sound |
| Verif.C88_animations_partial | propext, Classical.choice, Quot.sound |
| Verif.C88_transitions_partial | propext, Classical.choice, Quot.sound |
| Verif.C88_declared_partial | propext, Classical.choice, Quot.sound |
| Verif.C88_kept_partial | propext, Classical.choice, Quot.sound |
| Verif.C89_number_partial | propext, Classical.choice, Quot.sound |
| Verif.C89_other | propext, Classical.choice, Quot.sound |
| Verif.C89_negative_counterexample | propext, Classical.choice, Quot.sound |
| Verif.C89_registered | propext, Classical.choice, Quot.sound |
| Verif.C89_shown_partial | propext, Classical.choice, Quot.sound |
| Verif.C90_inline_partial | propext, Classical.choice, Quot.sound |
| Verif.C90_written_partial | propext, Classical.choice, Quot.sound |
| Verif.C90_static | propext, Classical.choice, Quot.sound |
| Verif.C90_look_partial | propext, Classical.choice, Quot.sound |
| Verif.C90_text_counterexample | propext, Classical.choice, Quot.sound |
| Verif.C90_example | propext, Classical.choice, Quot.sound |
| Verif.C91_progress | propext, Classical.choice, Quot.sound |
| Verif.C91_begins | propext, Classical.choice, Quot.sound |
| Verif.C91_ends_partial | propext, Classical.choice, Quot.sound |
| Verif.C91_ends_once | propext, Classical.choice, Quot.sound |
| Verif.C91_end_counterexample | propext, Classical.choice, Quot.sound |
| Verif.C91_end_shown | propext, Classical.choice, Quot.sound |
| Verif.C91_example | propext, Classical.choice, Quot.sound |
| Verif.C91_clock | propext, Classical.choice, Quot.sound |
| Verif.C91_clock_example | propext, Classical.choice, Quot.sound |
| Verif.C92_finite | propext, Classical.choice, Quot.sound |
| Verif.C92_infinite_partial | propext, Classical.choice, Quot.sound |
| Verif.C92_hangs | propext, Classical.choice, Quot.sound |
| Verif.C92_sleep_counterexample | propext, Classical.choice, Quot.sound |
| Verif.C92_stops | propext, Classical.choice, Quot.sound |
| Verif.C92_stops_example | propext, Classical.choice, Quot.sound |
| Verif.C92_exactly | propext, Classical.choice, Quot.sound |
| Verif.C92_exactly_even | propext, Classical.choice, Quot.sound |
| Verif.C92_exactly_example | propext, Classical.choice, Quot.sound |
| Verif.C93_ends | propext, Classical.choice, Quot.sound |
| Verif.C93_between | propext, Classical.choice, Quot.sound |
| Verif.C93_forward | propext, Classical.choice, Quot.sound |
| Verif.C93_transition_partial | propext, Classical.choice, Quot.sound |
| Verif.C93_example | propext, Classical.choice, Quot.sound |
| Verif.C94_scroll_partial | propext, Classical.choice, Quot.sound |
| Verif.C94_example | propext, Classical.choice, Quot.sound |
| Verif.C95_play | propext, Classical.choice, Quot.sound |
| Verif.C95_waits | propext, Classical.choice, Quot.sound |
| Verif.C95_example | propext, Classical.choice, Quot.sound |
| Verif.C96_opacity | propext, Classical.choice, Quot.sound |
| Verif.C96_hidden | propext, Classical.choice, Quot.sound |
| Verif.C96_order | propext, Classical.choice, Quot.sound |
| Verif.C96_corner | propext, Classical.choice, Quot.sound |
| Verif.C96_position | propext, Classical.choice, Quot.sound |
| Verif.C96_clipping | propext, Classical.choice, Quot.sound |
| Verif.C96_example | propext, Classical.choice, Quot.sound |
| Verif.C97_lengths | propext, Classical.choice, Quot.sound |
| Verif.C97_exact | propext, Classical.choice, Quot.sound |
| Verif.C97_whole | propext, Classical.choice, Quot.sound |
| Verif.C97_order | propext, Classical.choice, Quot.sound |
| Verif.C97_vmin_vmax | propext, Classical.choice, Quot.sound |
| Verif.C97_percent | propext, Classical.choice, Quot.sound |
| Verif.C97_times | propext, Classical.choice, Quot.sound |
| Verif.C97_written | propext, Classical.choice, Quot.sound |
| Verif.C97_font | propext, Classical.choice, Quot.sound |
| Verif.C97_used | propext, Classical.choice, Quot.sound |
| Verif.C97_example | propext, Classical.choice, Quot.sound |
| Verif.C98_initial_partial | propext, Classical.choice, Quot.sound |
| Verif.C98_complete | propext, Classical.choice, Quot.sound |
| Verif.C98_counterexample | propext, Classical.choice, Quot.sound |
| Verif.C98_program_counterexample | propext, Classical.choice, Quot.sound |
| Verif.C99_pointing | propext, Classical.choice, Quot.sound |
| Verif.C99_whole | propext, Classical.choice, Quot.sound |
| Verif.C99_edge_example | propext, Classical.choice, Quot.sound |
| Verif.C99_example | propext, Classical.choice, Quot.sound |
| Verif.C100_near | propext, Classical.choice, Quot.sound |
| Verif.C100_order | propext, Classical.choice, Quot.sound |
| Verif.C100_percent | propext, Classical.choice, Quot.sound |
| Verif.C100_functions | propext, Classical.choice, Quot.sound |
| Verif.C100_example | propext, Classical.choice, Quot.sound |
| Verif.C101_example | propext, Classical.choice, Quot.sound |
| Verif.C101_piped_array_counterexample | propext, Classical.choice, Quot.sound |
| Verif.C101_unmentioned_data_invisible | propext, Classical.choice, Quot.sound |
| Verif.C102_example | propext, Classical.choice, Quot.sound |
| Verif.C102_plus_counterexample | propext, Classical.choice, Quot.sound |
| Verif.C102_useless_rules | propext, Classical.choice, Quot.sound |
| Verif.C103_input_as_built | propext, Quot.sound |
| Verif.C103_example | propext, Quot.sound |
| Verif.C104_copied_rules | propext, Classical.choice, Quot.sound |
| Verif.C104_example | propext, Classical.choice, Quot.sound |
| Verif.C104_late_variable_counterexample | propext, Classical.choice, Quot.sound |
| Verif.C105_swapped_rules | propext, Classical.choice, Quot.sound |
| Verif.C105_example | propext, Classical.choice, Quot.sound |
| Verif.C105_apart_counterexample | propext, Classical.choice, Quot.sound |
| Verif.C106_only_what_is_needed | propext, Classical.choice, Quot.sound |
| Verif.C106_more_elements | propext, Classical.choice, Quot.sound |
| Verif.C106_example | propext, Classical.choice, Quot.sound |
| Verif.C107_links_inlined | propext, Classical.choice, Quot.sound |
| Verif.C107_example | propext, Classical.choice, Quot.sound |
| Verif.C107_chain_counterexample | propext, Classical.choice, Quot.sound |
| Verif.C108_reworded_rules | propext, Classical.choice, Quot.sound |
| Verif.C108_example | propext, Classical.choice, Quot.sound |
| Verif.C108_plus_counterexample | propext, Classical.choice, Quot.sound |
| Verif.C109_rule_per_selector_partial | propext, Classical.choice, Quot.sound |
| Verif.C109_example | propext, Classical.choice, Quot.sound |
| Verif.C109_counterexample | propext, Classical.choice, Quot.sound |
| Verif.C110_example | propext, Classical.choice, Quot.sound |
| Verif.C110_counterexample | propext, Classical.choice, Quot.sound |
| Verif.C110_covered_selectors_partial | propext, Classical.choice, Quot.sound |
| Verif.C111_outdone_declarations | propext, Classical.choice, Quot.sound |
| Verif.C111_example | propext, Classical.choice, Quot.sound |
| Verif.C111_list_counterexample | propext, Classical.choice, Quot.sound |
| Verif.C111_words_counterexample | propext, Classical.choice, Quot.sound |
| Verif.C112_example | propext, Classical.choice, Quot.sound |
| Verif.C112_shorthands | propext, Classical.choice, Quot.sound |
| Verif.C113_joined_rules | propext, Classical.choice, Quot.sound |
| Verif.C113_example | propext, Classical.choice, Quot.sound |
| Verif.C114_empty_rules | propext, Classical.choice, Quot.sound |
| Verif.C114_example | propext, Classical.choice, Quot.sound |
| Verif.C114_plus_counterexample | propext, Classical.choice, Quot.sound |
| Verif.C115_inlined_variables | propext, Classical.choice, Quot.sound |
| Verif.C115_example | propext, Classical.choice, Quot.sound |
| Verif.C116_redefined_variables | propext, Classical.choice, Quot.sound |
| Verif.C116_example | propext, Classical.choice, Quot.sound |
