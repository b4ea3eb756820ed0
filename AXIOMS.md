# Axioms of the theorems of the manifest

As printed by `#print axioms`; no other axiom is used.

## none

* `Axl.AxlList.C02_equal_string_stores_duplicate`
* `Axl.AxlList.C03_exists_false_for_equal_string`
* `Axl.AxlHash.C09_capacity_null`
* `Axl.Dtd.C49_walk_unclosed`
* `Axl.C70_not_hash_new`
* `Axl.Err.C82_not_new_without_memory`

## `propext`

* `Axl.C13_first_on_emptied_hash_keeps_item`
* `Axl.C13_last_misses_slot_zero`
* `Axl.C13_cursor_remove_revisits`
* `Axl.C26_no_pi_content`
* `Axl.C26_empty_comment`
* `Axl.C26_negative_tabular`
* `Axl.Dump.C26_no_document`
* `Axl.Heap.C31_content_at_empty`
* `Axl.Heap.C31_no_slash`
* `Axl.Heap.C31_empty_name`
* `Axl.Heap.C31_star_is_a_name`
* `Axl.Heap.C31_star_inside`
* `Axl.C32_doc_are_equal_trims`
* `Axl.C32_items_not_compared`
* `Axl.C32_pi_without_content`
* `Axl.C33_reference`
* `Axl.Notes.C34_typed`
* `Axl.Dtd.C35_left_out`
* `Axl.Dtd.C35_half_matched`
* `Axl.Dtd.C35_plus_of_nothing`
* `Axl.Dtd.C35_refused`
* `Axl.Dtd.C36_never_ends`
* `Axl.Dtd.C37_no_attlist`
* `Axl.C39_wrong_arguments`
* `Axl.C40_expansion`
* `Axl.C40_memory`
* `Axl.C40_not_initialised`
* `Axl.C44_split_terminator`
* `Axl.C44_last_byte`
* `Axl.C44_utf8_split`
* `Axl.Dtd.C46_separator_of_group`
* `Axl.Dtd.C46_choice_of_groups`
* `Axl.Dtd.C46_recursive`
* `Axl.Dtd.C47_recursive_entity`
* `Axl.Dtd.C48_not_xml`
* `Axl.Dtd.C49_no_constraints`
* `Axl.Dtd.C50_safe_partial`
* `Axl.Dtd.C50_other_names`
* `Axl.Dtd.C50_more_items`
* `Axl.Dtd.C50_other_default`
* `Axl.Dtd.C50_not_itself`
* `Axl.StreamPush.C63_not_after_peek`
* `Axl.C64_not_value`
* `Axl.C64_not_reference`
* `Axl.C64_not_empty`
* `Axl.C64_not_instruction`
* `Axl.C65_not_last_byte`
* `Axl.C65_not_place`
* `Axl.C66_invalid`
* `Axl.C66_not_backslash`
* `Axl.C66_not_name`
* `Axl.C66_not_dtd`
* `Axl.C67_not_exclusion`
* `Axl.C67_not_dependency`
* `Axl.C67_not_negative`
* `Axl.C67_not_help`
* `Axl.C67_not_short`
* `Axl.C67_not_path`
* `Axl.C68_not_both`
* `Axl.C68_not_status`
* `Axl.C70_not_list_copy`
* `Axl.C70_not_list_copy_leak`
* `Axl.C70_not_binary_stack`
* `Axl.C70_hash_first_table`
* `Axl.C70_not_hash_growth_visits`
* `Axl.C70_not_hash_block`
* `Axl.C70_not_hash_remove`
* `Axl.C70_hash_remove_asks`
* `Axl.C70_not_hash_next_block`
* `Axl.C72_missing`
* `Axl.Dtd.C75_not_white`
* `Axl.Dtd.C75_not_reference`
* `Axl.Dtd.C75_not_definitions`
* `Axl.Dtd.C75_not_content`
* `Axl.Dtd.C75_not_declarations`
* `Axl.Dtd.C75_not_names`
* `Axl.C78_no_description`
* `Axl.C78_not_disabled`
* `Axl.Err.C82_report_nowhere`
* `Axl.Link.C83_linked_twice`
* `Axl.Link.C83_parse`
* `Axl.Dtd.C84_first_counts`

## `Quot.sound`, `propext`

* `Axl.C09_string_functions_consistent`
* `Axl.C11_copy_null_string_key_crashes`
* `Axl.C14_factory_large_out_of_bounds`
* `Axl.C15_string_factory_disjoint`
* `Axl.C17_empty_string_lost`
* `Axl.C17_clean_split`
* `Axl.C19_cmp`
* `Axl.C19_casecmp`
* `Axl.C19_stream_casecmp`
* `Axl.C19_to_lower`
* `Axl.C19_to_upper`
* `Axl.Dump.C26_no_root_size`
* `Axl.C28_text_after_root`
* `Axl.C28_late_slash`
* `Axl.Notes.C34_old_parent`
* `Axl.Dtd.C36_repeated_optional`
* `Axl.Dtd.C36_any_root`
* `Axl.Dtd.C36_any_never_ends`
* `Axl.NsState.C38_not_a_declaration`
* `Axl.NsState.C38_xml_prefix`
* `Axl.C39_form_only`
* `Axl.C41_end_of_element`
* `Axl.C41_two_attributes`
* `Axl.C41_empty_element`
* `Axl.C41_after_comment`
* `Axl.C43_short_standalone`
* `Axl.C45_slash_content`
* `Axl.C45_empty_comment`
* `Axl.C45_end_tag`
* `Axl.C45_around_equal`
* `Axl.Dtd.C48_well_formed`
* `Axl.Dtd.C49_entity`
* `Axl.Dtd.C49_entity_exists`
* `Axl.Dtd.C49_walk`
* `Axl.Dtd.C49_walk_limits`
* `Axl.C52_eleven_attributes`
* `Axl.C52_instructions`
* `Axl.C52_instruction_without_content`
* `Axl.C52_preserved`
* `Axl.C52_slash_content`
* `Axl.C53_null`
* `Axl.C53_global_index`
* `Axl.Babel.C54_unknown`
* `Axl.Babel.C54_short`
* `Axl.Babel.C54_white_before`
* `Axl.Babel.C54_second_mark`
* `Axl.Babel.C54_cut`
* `Axl.C55_missing`
* `Axl.C55_leading_white`
* `Axl.C55_split_comment`
* `Axl.C57_name_leaks`
* `Axl.C57_item_leaks`
* `Axl.C57_free_full_leaves_children`
* `Axl.C57_deattached_dies_with_document`
* `Axl.C57_neither_first`
* `Axl.C58_strdup_printf`
* `Axl.C58_strdup_printf_len_partial`
* `Axl.C58_printf_len_failure`
* `Axl.C58_printfv_twice`
* `Axl.C58_printf_buffer_partial`
* `Axl.C58_printf_buffer_size`
* `Axl.C58_printf_len_partial`
* `Axl.C58_printf_len_failure_is_zero`
* `Axl.C58_strdup_n`
* `Axl.C58_strv_num`
* `Axl.C58_null`
* `Axl.C59_error_not_optional`
* `Axl.C59_no_strings`
* `Axl.C59_node_parse_no_text`
* `Axl.C61_not_doc_attribute`
* `Axl.C61_not_new_root`
* `Axl.C61_not_parent_dropped`
* `Axl.C61_not_three_deep`
* `Axl.C61_not_cursor`
* `Axl.C61_not_removed`
* `Axl.C61_not_root_none`
* `Axl.C61_not_replaced_root`
* `Axl.C70_memory_given`
* `Axl.C71_missing`
* `Axl.C71_iso`
* `Axl.C72_split_comment`
* `Axl.C74_not_text`
* `Axl.C74_not_undeclared`
* `Axl.C74_not_empty`
* `Axl.C74_not_fixed`
* `Axl.C74_not_references`
* `Axl.C78_basename`
* `Axl.Err.C82_second_report_leaks`
* `Axl.Err.C82_report_without_vasprintf`
* `Axl.Dtd.C84_root`
* `Axl.Dtd.C84_only_root`

## `Classical.choice`, `Quot.sound`, `propext`

* `Axl.AxlList.C01_list_is_sequence`
* `Axl.AxlList.C02_add_keeps_order`
* `Axl.AxlList.C02_add_stores_each_once`
* `Axl.AxlList.C02_equal_int_orders`
* `Axl.AxlList.C02_order_string_orders`
* `Axl.AxlList.C02_always_return_1_appends`
* `Axl.AxlList.C03_remove_first_equal`
* `Axl.AxlList.C03_remove_ptr`
* `Axl.AxlList.C03_exists_sound`
* `Axl.AxlList.C03_exists_partial`
* `Axl.AxlList.C03_exists_only_ends`
* `Axl.AxlList.C03_exists_equal_ptr_only_first`
* `Axl.AxlList.C03_exists_at`
* `Axl.AxlList.C04_destroy_exactly_once`
* `Axl.AxlList.C04_no_destroy_function`
* `Axl.AxlList.C05_copy_ordered`
* `Axl.AxlList.C05_copy_appending`
* `Axl.AxlList.C05_copy_equal_ptr_reverses`
* `Axl.AxlList.C06_cursor`
* `Axl.C07_stack_lifo`
* `Axl.C08_binary_stack_lifo`
* `Axl.C09_hash_is_a_map`
* `Axl.C09_int_functions_consistent`
* `Axl.C09_null_string_key_found_under_other_key`
* `Axl.AxlHash.C09_capacity`
* `Axl.C10_foreach_visits_each_pair_once`
* `Axl.C11_copy_is_equal`
* `Axl.C12_destroyed_exactly_once`
* `Axl.C13_cursor_reads_each_pair_once`
* `Axl.C13_cursor_last_partial`
* `Axl.C13_cursor_remove_all`
* `Axl.C14_factory_disjoint_partial`
* `Axl.C14_spares`
* `Axl.C14_no_spares`
* `Axl.C16_trim`
* `Axl.C17_join_split_partial`
* `Axl.C17_split_many`
* `Axl.C17_split_join`
* `Axl.C18_replace`
* `Axl.C18_remove_first`
* `Axl.C18_remove_all_partial`
* `Axl.C18_remove_deletes_too_much`
* `Axl.C18_remove_writes_out_of_bounds`
* `Axl.C19_memcmp`
* `Axl.C19_stream_cmp_partial`
* `Axl.C19_stream_cmp_zero_and_empty`
* `Axl.C20_content_round_trip`
* `Axl.C20_attribute_round_trip`
* `Axl.C20_translate`
* `Axl.C20_cdata_round_trip_partial`
* `Axl.C20_cdata_end_not_restored`
* `Axl.C20_cdata_is_escaped`
* `Axl.C21_escape_size_partial`
* `Axl.C21_escape_size_c_string`
* `Axl.C21_cut_inside_cdata_end_overflows`
* `Axl.C22_attributes_are_a_map_partial`
* `Axl.C22_names`
* `Axl.C22_text_comes_back_partial`
* `Axl.C22_value_encoded_again_at_ten`
* `Axl.C22_value_trimmed`
* `Axl.C22_trimmed_lookup_changes_document`
* `Axl.C23_foreach`
* `Axl.C23_names_once`
* `Axl.C23_cursor`
* `Axl.Heap.C24_tree_partial`
* `Axl.Heap.C24_one_place`
* `Axl.Heap.C24_first_text_removed`
* `Axl.Heap.C24_last_text_removed`
* `Axl.Heap.C24_first_text_replaced`
* `Axl.Heap.C24_mixed_content_emptied`
* `Axl.Heap.C24_second_removal_loses_children`
* `Axl.Heap.C24_parent_after_deattach`
* `Axl.Heap.C24_transfer_to_itself`
* `Axl.Heap.C25_navigation`
* `Axl.Heap.C25_siblings`
* `Axl.Heap.C25_find_called`
* `Axl.Heap.C25_root_has_no_siblings`
* `Axl.Heap.C25_items`
* `Axl.C26_node_dump_partial`
* `Axl.C26_doc_dump_partial`
* `Axl.C26_dump_at_partial`
* `Axl.C26_writable`
* `Axl.Dump.C26_flat_size_partial`
* `Axl.Dump.C26_no_root_refused`
* `Axl.C27_round_trip_partial`
* `Axl.C27_round_trip_pretty_partial`
* `Axl.C27_attrs_fine`
* `Axl.C27_empty_fine`
* `Axl.C27_example_fine`
* `Axl.C27_read_eq`
* `Axl.C27_white_text`
* `Axl.C27_slash_text`
* `Axl.C27_two_texts`
* `Axl.C27_text_after_comment`
* `Axl.C27_reference`
* `Axl.C27_section_end`
* `Axl.C27_instructions`
* `Axl.C28_accepts_partial`
* `Axl.C28_rejects_partial`
* `Axl.C29_parse_ends`
* `Axl.Heap.C30_iterate`
* `Axl.Heap.C30_deep_order`
* `Axl.Heap.C30_wide_order`
* `Axl.Heap.C30_stops`
* `Axl.Heap.C30_start_removed`
* `Axl.Heap.C30_start_parent`
* `Axl.Heap.C30_start_parent_case`
* `Axl.Heap.C31_content_at`
* `Axl.Heap.C31_get`
* `Axl.C32_documents_partial`
* `Axl.C32_equivalence_partial`
* `Axl.C32_nodes_partial`
* `Axl.C33_copy_partial`
* `Axl.C33_copy_equal`
* `Axl.Heap.C33_apart`
* `Axl.Heap.C33_freed_apart`
* `Axl.Heap.C33_without_childs`
* `Axl.Notes.C34_annotate_get_partial`
* `Axl.Notes.C34_int`
* `Axl.Dtd.C35_accepted_partial`
* `Axl.Dtd.C35_words_accepted_partial`
* `Axl.Dtd.C35_conforms_partial`
* `Axl.Dtd.C35_parsed_partial`
* `Axl.Dtd.C36_terminates_partial`
* `Axl.Dtd.C36_children_partial`
* `Axl.Dtd.C36_parsed_partial`
* `Axl.Dtd.C37_attributes_partial`
* `Axl.Dtd.C37_under_any`
* `Axl.Dtd.C37_missing_id`
* `Axl.Dtd.C37_missing_id_refused`
* `Axl.Dtd.C37_parsed_partial`
* `Axl.NsState.C38_validate_partial`
* `Axl.NsState.C38_cmp_partial`
* `Axl.NsState.C38_called_partial`
* `Axl.NsState.C38_find_partial`
* `Axl.NsState.C38_removed_declaration`
* `Axl.C39_accepts`
* `Axl.C39_rejects`
* `Axl.C39_answers`
* `Axl.C39_string`
* `Axl.C39_text`
* `Axl.C40_decoder`
* `Axl.C40_file_partial`
* `Axl.C40_any_reader_partial`
* `Axl.C41_scope_partial`
* `Axl.C42_document`
* `Axl.C42_node`
* `Axl.C43_no_undefined_behaviour_partial`
* `Axl.C44_open`
* `Axl.C44_refill`
* `Axl.C44_remains`
* `Axl.C44_skip`
* `Axl.C44_inspect_partial`
* `Axl.C44_inspect_sound`
* `Axl.C44_until_character_partial`
* `Axl.C44_until_buffered_partial`
* `Axl.C45_accepts_partial`
* `Axl.Dtd.C46_declarations`
* `Axl.Dtd.C46_accepted_partial`
* `Axl.Dtd.C46_only_valid`
* `Axl.Dtd.C46_exactly_partial`
* `Axl.Dtd.C46_both_separators`
* `Axl.Dtd.C47_ends_entities_partial`
* `Axl.Dtd.C47_safe`
* `Axl.Dtd.C47_ends_partial`
* `Axl.Dtd.C47_one_answer`
* `Axl.Dtd.C49_element`
* `Axl.Dtd.C49_attr`
* `Axl.Dtd.C49_constraints_partial`
* `Axl.Dtd.C49_top_level`
* `Axl.Dtd.C49_root`
* `Axl.Dtd.C49_walk_text`
* `Axl.Dtd.C50_compares_partial`
* `Axl.Dtd.C50_itself_partial`
* `Axl.Dtd.C50_same_text_partial`
* `Axl.C51_history_partial`
* `Axl.C51_texts`
* `Axl.C51_cdata_size`
* `Axl.C51_cdata_size_negative`
* `Axl.C52_read_again_partial`
* `Axl.C52_same_text_partial`
* `Axl.C52_pretty_partial`
* `Axl.C53_parse_memory_partial`
* `Axl.C53_all_released_partial`
* `Axl.C53_defined`
* `Axl.C53_ending_left`
* `Axl.C53_leak`
* `Axl.Babel.C54_utf8_partial`
* `Axl.Babel.C54_other`
* `Axl.Babel.C54_undeclared`
* `Axl.Babel.C54_iso_partial`
* `Axl.Babel.C54_iso_seven_bits`
* `Axl.Babel.C54_utf16`
* `Axl.Babel.C54_mark_not_checked`
* `Axl.Babel.C54_unknown_encoding`
* `Axl.Babel.C54_no_error`
* `Axl.C55_fits_partial`
* `Axl.C55_any_size_partial`
* `Axl.C55_last_tag`
* `Axl.C56_doc_written_partial`
* `Axl.C56_node_written_partial`
* `Axl.C56_close`
* `Axl.C56_node_lines`
* `Axl.C56_read_back_partial`
* `Axl.C56_read_back_pretty_partial`
* `Axl.C56_lost`
* `Axl.C57_released_once_partial`
* `Axl.C57_all_can_be_freed_partial`
* `Axl.C58_strdup_n_undefined`
* `Axl.C58_freev`
* `Axl.C59_doc_strings`
* `Axl.C59_doc_of_pieces_partial`
* `Axl.C59_cuts_do_not_matter`
* `Axl.C59_node_of_pieces_partial`
* `Axl.C59_node_parse_partial`
* `Axl.C60_reading`
* `Axl.C60_stable`
* `Axl.C60_root_name`
* `Axl.C61_careful_partial`
* `Axl.DtdMem.C62_parse`
* `Axl.DtdMem.C62_free`
* `Axl.DtdMem.C62_error_partial`
* `Axl.DtdMem.C62_safe`
* `Axl.DtdMem.C62_not_wrong_model`
* `Axl.DtdMem.C62_not_twice`
* `Axl.StreamPush.C63_history`
* `Axl.StreamPush.C63_push_partial`
* `Axl.C64_tags`
* `Axl.C64_shown_partial`
* `Axl.C65_memory`
* `Axl.C65_file_partial`
* `Axl.C65_call`
* `Axl.C66_header_partial`
* `Axl.C67_reading_partial`
* `Axl.C67_accepts`
* `Axl.C67_one_reading`
* `Axl.C67_safe`
* `Axl.C67_long_names`
* `Axl.C67_define`
* `Axl.C67_undef`
* `Axl.C68_actions_partial`
* `Axl.C68_input`
* `Axl.C68_safe_partial`
* `Axl.C68_current`
* `Axl.C69_nodes_in_memory`
* `Axl.C69_destroyed_exactly_once`
* `Axl.C69_cursor_reads_each_pair_once`
* `Axl.C69_cursor_remove_all`
* `Axl.C69_copy_is_equal`
* `Axl.C69_cursor_last`
* `Axl.C70_list`
* `Axl.C70_list_reuses`
* `Axl.C70_list_copy`
* `Axl.C70_not_list_copy_lost`
* `Axl.C70_stack`
* `Axl.C70_binary_stack_partial`
* `Axl.C70_hash_growth_partial`
* `Axl.C70_not_hash_growth_ends`
* `Axl.C70_hash_remove_absent`
* `Axl.C70_hash_memory_given`
* `Axl.C71_fits_partial`
* `Axl.C71_any_size_partial`
* `Axl.C71_split`
* `Axl.C71_split_character`
* `Axl.C72_fits_partial`
* `Axl.C72_any_size_partial`
* `Axl.C73_equal_partial`
* `Axl.C73_copy_partial`
* `Axl.C73_written_partial`
* `Axl.C73_read_again_partial`
* `Axl.C73_not_blank`
* `Axl.C74_answer_partial`
* `Axl.C74_valid_partial`
* `Axl.C74_files_partial`
* `Axl.Dtd.C75_replaced_partial`
* `Axl.Dtd.C75_accepted_partial`
* `Axl.Dtd.C75_exactly_partial`
* `Axl.Dtd.C75_refused`
* `Axl.Heap.C76_own_cells_partial`
* `Axl.Heap.C76_threads_partial`
* `Axl.Heap.C76_any_order_partial`
* `Axl.Heap.C76_shared`
* `Axl.Heap.C77_own_cells_partial`
* `Axl.Heap.C77_navigation_partial`
* `Axl.Heap.C77_not_removed_twice`
* `Axl.C78_wrap`
* `Axl.C78_one_way`
* `Axl.C78_usage`
* `Axl.C78_help_partial`
* `Axl.C79_tree`
* `Axl.C79_dump`
* `Axl.C79_text_partial`
* `Axl.C79_round_trip_partial`
* `Axl.C79_compare_partial`
* `Axl.C80_edit_attributes_partial`
* `Axl.C80_read`
* `Axl.C80_edit_partial`
* `Axl.C81_attributes_partial`
* `Axl.C81_document_partial`
* `Axl.Err.C82_errors_partial`
* `Axl.Err.C82_no_leak`
* `Axl.Err.C82_report_without_text`
* `Axl.Err.C82_report_without_memory`
* `Axl.Err.C82_report_at_partial`
* `Axl.Err.C82_around`
* `Axl.Link.C83_destroyed_once`
* `Axl.Link.C83_determined`
* `Axl.Dtd.C84_no_root`
