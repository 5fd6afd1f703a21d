C01_answers: Quot.sound, propext
C01_stable_in_any_program: Classical.choice, Quot.sound, propext
C01_total: Quot.sound, propext
C02_first_wins: Quot.sound, propext
C02_never_changes: Classical.choice, Quot.sound, propext
C03_cv_void_false: Quot.sound, propext
C03_decay_fixed_point: propext
C03_decay_identifies: Quot.sound, propext
C03_ids: Classical.choice, Quot.sound, propext
C04_after_shutdown: propext
C04_invalid: propext
C04_no_ub: Quot.sound, propext
C04_observe_invalid: propext
C04_old_handle_exact: Quot.sound, propext
C04_old_handle_false: Quot.sound, propext
C04_register_during_shutdown_false: propext
C05_arity_and_mask: Quot.sound, propext
C05_decay: propext
C05_limit: propext
C06_flags: Classical.choice, Quot.sound, propext
C06_kinds: Classical.choice, Quot.sound, propext
C06_pointer_arity: Quot.sound, propext
C06_pointers: Classical.choice, Quot.sound, propext
C06_predicates: Quot.sound, propext
C06_reference_like_referred: Quot.sound, propext
C06_size: propext
C06_surprises: propext
C07_exact_partial: Classical.choice, Quot.sound, propext
C07_exactly_qualification_conversion_partial: Classical.choice, Quot.sound, propext
C07_volatile_dropped: propext
C07_volatile_lref_false: propext
C08_answer: Classical.choice, Quot.sound, propext
C08_array_never_grows: Classical.choice, Quot.sound, propext
C08_array_to_pointer: Classical.choice, Quot.sound, propext
C08_deep_false: Quot.sound, propext
C08_false: propext
C08_outside_arrays: Classical.choice, Quot.sound, propext
C08_partial: Classical.choice, Quot.sound, propext
C09_deep_exception: Quot.sound, propext
C09_not_transitive_through_values: propext
C09_reflexive: Classical.choice, Quot.sound, propext
C09_transitive: Classical.choice, Quot.sound, propext
C09_transitive_deep: Classical.choice, Quot.sound, propext
C09_unrelated_not_transitive: Quot.sound, propext
C10_deep_answer: Classical.choice, Quot.sound, propext
C10_false: Quot.sound, propext
C10_partial: Classical.choice, Quot.sound, propext
C10_terminates_iff: Classical.choice, Quot.sound, propext
C11_answers_partial: Classical.choice, Quot.sound, propext
C11_conversion_exact: Classical.choice, Quot.sound, propext
C11_conversion_partial: Classical.choice, Quot.sound, propext
C11_others_unaffected: Classical.choice, Quot.sound, propext
C11_total: Quot.sound, propext
C12_exact: Classical.choice, Quot.sound, propext
C12_false: propext
C12_partial: Classical.choice, Quot.sound, propext
C13_exact: propext
C13_false: none
C13_flagged: Quot.sound, propext
C13_flagged_partial: propext
C13_partial: propext
C14_positions_stable: Classical.choice, Quot.sound, propext
C14_refines_ordered_map: Classical.choice, Quot.sound, propext
C15_accepts_iff_new: Classical.choice, Quot.sound, propext
C15_categories_independent: Classical.choice, Quot.sound, propext
C15_items_never_move: Classical.choice, Quot.sound, propext
C15_lookups_agree: Classical.choice, Quot.sound, propext
C16_attributes_enumeration: Classical.choice, Quot.sound, propext
C16_contract_deterministic: Quot.sound, propext
C16_members_enumeration: Classical.choice, Quot.sound, propext
C17_class: Classical.choice, Quot.sound, propext
C17_constructor: Classical.choice, Quot.sound, propext
C17_empty_name_fails: Classical.choice, Quot.sound, propext
C17_enum: Classical.choice, Quot.sound, propext
C17_method: Classical.choice, Quot.sound, propext
C17_namespace: Classical.choice, Quot.sound, propext
C17_property: Classical.choice, Quot.sound, propext
C17_refused: propext
C17_unnamed: Classical.choice, Quot.sound, propext
C17_unnamed_class: Classical.choice, Quot.sound, propext
C18_alone: Classical.choice, Quot.sound, propext
C18_calls_end: Quot.sound, propext
C18_concurrent_definitions_agree: Classical.choice, Quot.sound, propext
C18_empty_name_fails: Quot.sound, propext
C19_class_per_type: Classical.choice, Quot.sound, propext
C19_concurrent_exact: Classical.choice, Quot.sound, propext
C19_concurrent_false: propext
C19_concurrent_partial: Classical.choice, Quot.sound, propext
C19_invalid_type_refused: Classical.choice, Quot.sound, propext
C19_refused: Classical.choice, Quot.sound, propext
C19_second_definition_refused: Classical.choice, Quot.sound, propext
C19_unique: Classical.choice, Quot.sound, propext
C20_exact: Classical.choice, Quot.sound, propext
C20_false: Classical.choice, Quot.sound, propext
C20_partial: Classical.choice, Quot.sound, propext
C20_taken_name: Classical.choice, Quot.sound, propext
C21_collision_across_categories: Classical.choice, Quot.sound, propext
C21_distinct: Classical.choice, Quot.sound, propext
C21_global: Classical.choice, Quot.sound, propext
C21_path_identifies: Classical.choice, Quot.sound, propext
C21_qualified_name: Classical.choice, Quot.sound, propext
C21_root: Classical.choice, Quot.sound, propext
C21_stable: Classical.choice, Quot.sound, propext
C22_find_first_denoted: Quot.sound, propext
C22_full_signature_exact: Quot.sound, propext
C22_short_name_first_overload: Quot.sound, propext
C23_format: propext
C23_found: Classical.choice, Quot.sound, propext
C23_function: Classical.choice, Quot.sound, propext
C23_hypotheses_needed: none
C23_injective: Classical.choice, Quot.sound, propext
C23_text: propext
C24_exact: Classical.choice, Quot.sound, propext
C24_false: Classical.choice, Quot.sound, propext
C24_partial: Classical.choice, Quot.sound, propext
C25_inheritedFrom_iff_reaches: Classical.choice, Quot.sound, propext
C25_null: propext
C25_partial_order: Classical.choice, Quot.sound, propext
C25_self_base_diverges: Classical.choice, Quot.sound, propext
C26_any_declaration: Classical.choice, Quot.sound, propext
C26_any_lists: Classical.choice, Quot.sound, propext
C26_any_mirror: Classical.choice, Quot.sound, propext
C26_any_other_calls: Classical.choice, Quot.sound, propext
C26_declaration_order: Classical.choice, Quot.sound, propext
C26_lists: Classical.choice, Quot.sound, propext
C26_mirror: Classical.choice, Quot.sound, propext
C26_other_calls: Classical.choice, Quot.sound, propext
C27_null_iff: Classical.choice, Quot.sound, propext
C27_upcast: Classical.choice, Quot.sound, propext
C28_any_path: Classical.choice, Quot.sound, propext
C28_diamond_picks_first: Classical.choice, Quot.sound, propext
C28_permutation: Classical.choice, Quot.sound, propext
C28_two_steps: Classical.choice, Quot.sound, propext
C29_constructors_not_inherited: Classical.choice, Quot.sound, propext
C29_empty_name: Classical.choice, Quot.sound, propext
C29_methods: Classical.choice, Quot.sound, propext
C29_properties: Classical.choice, Quot.sound, propext
C30_exact: Classical.choice, Quot.sound, propext
C30_exact_property: Classical.choice, Quot.sound, propext
C30_false: Classical.choice, Quot.sound, propext
C30_false_property: Classical.choice, Quot.sound, propext
C30_member_functions_partial: Classical.choice, Quot.sound, propext
C30_method_partial: Classical.choice, Quot.sound, propext
C30_never_overrides: Classical.choice, Quot.sound, propext
C30_property_partial: Classical.choice, Quot.sound, propext
C30_signature_names_class: Classical.choice, Quot.sound, propext
C31_any: Classical.choice, Quot.sound, propext
C31_refused_unchanged: Classical.choice, Quot.sound, propext
C32_attributes_false: Classical.choice, Quot.sound, propext
C32_install_then_query_partial: Classical.choice, Quot.sound, propext
C32_not_before: Quot.sound, propext
C32_plain_op: Classical.choice, Quot.sound, propext
C32_plain_query: Classical.choice, Quot.sound, propext
C32_reentrant: Quot.sound, propext
C32_runs_at_first_query: Classical.choice, Quot.sound, propext
C32_self_install_false: Classical.choice, Quot.sound, propext
C32_transparent_partial: Classical.choice, Quot.sound, propext
C33_at_most_once_partial: Classical.choice, Quot.sound, propext
C33_data_race_false: none
C33_in_turn: Quot.sound, propext
C33_null_call_false: none
C33_null_late: Classical.choice, Quot.sound, propext
C33_partial_view_false: none
C33_race_meaning: Classical.choice, Quot.sound, propext
C33_sees_all_partial: Classical.choice, Quot.sound, propext
C33_views: Classical.choice, Quot.sound, propext
C33_wait_free: Quot.sound, propext
C34_any_callback: Classical.choice, Quot.sound, propext
C34_caught: Quot.sound, propext
C34_failure: Classical.choice, Quot.sound, propext
C34_install_again: Classical.choice, Quot.sound, propext
C34_no_mark_left: Classical.choice, Quot.sound, propext
C34_only_exceptions: Quot.sound, propext
C35_in_order_at_most_once: Classical.choice, Quot.sound, propext
C35_install_again: Classical.choice, Quot.sound, propext
C35_second_install_throws: Classical.choice, Quot.sound, propext
C36_all_freed_partial: Classical.choice, Quot.sound, propext
C36_array_of_objects_false: propext
C36_defined_partial: Classical.choice, Quot.sound, propext
C36_history_proper: Classical.choice, Quot.sound, propext
C36_leak_iff: Classical.choice, Quot.sound, propext
C36_no_leak_partial: Classical.choice, Quot.sound, propext
C36_one_owner: Classical.choice, Quot.sound, propext
C36_reads_move: Quot.sound, propext
C36_reads_only: Classical.choice, Quot.sound, propext
C36_reads_partial: Classical.choice, Quot.sound, propext
C36_reads_raw_storage_false: propext
C36_reads_swap: Classical.choice, Quot.sound, propext
C36_undefined_iff: Classical.choice, Quot.sound, propext
C37_at_most_once: Classical.choice, Quot.sound, propext
C37_balance: Classical.choice, Quot.sound, propext
C37_destroyed_iff: Classical.choice, Quot.sound, propext
C37_heap_objects: Classical.choice, Quot.sound, propext
C37_moved_from_false: propext
C37_swap_false: propext
C37_without_moves_partial: Classical.choice, Quot.sound, propext
C38_command_partial: Classical.choice, Quot.sound, propext
C38_exact: Classical.choice, Quot.sound, propext
C38_intended: Quot.sound, propext
C38_no_termination_partial: Classical.choice, Quot.sound, propext
C38_refines_values_partial: Classical.choice, Quot.sound, propext
C38_self_assignment: propext
C38_self_swap_false: propext
C39_block_lost_false: propext
C39_nothing_changes_partial: Classical.choice, Quot.sound, propext
C39_out_of_memory_terminates_false: propext
C40_array_terminate_false: Classical.choice, Quot.sound, propext
C40_asymmetric_false: Classical.choice, Quot.sound, propext
C40_deep: Classical.choice, Quot.sound, propext
C40_deep_same: Classical.choice, Quot.sound, propext
C40_deep_terminate_false: Classical.choice, Quot.sound, propext
C40_empty: propext
C40_exact: Classical.choice, Quot.sound, propext
C40_object_partial: Classical.choice, Quot.sound, propext
C40_other_type_partial: Classical.choice, Quot.sound, propext
C40_pointer_array_false: Classical.choice, Quot.sound, propext
C40_reflexive_partial: Classical.choice, Quot.sound, propext
C40_same_type_partial: Classical.choice, Quot.sound, propext
C40_symmetric_partial: Classical.choice, Quot.sound, propext
C40_terminate_iff: Classical.choice, Quot.sound, propext
C40_transitive_partial: Classical.choice, Quot.sound, propext
C40_ub_iff: Classical.choice, Quot.sound, propext
C41_bytes: Classical.choice, Quot.sound, propext
C41_empty: propext
C41_exact: Classical.choice, Quot.sound, propext
C41_length_false: Classical.choice, Quot.sound, propext
C41_partial: Classical.choice, Quot.sound, propext
C41_representation_false: Classical.choice, Quot.sound, propext
C42_base_class: Classical.choice, Quot.sound, propext
C42_data_partial: Classical.choice, Quot.sound, propext
C42_empty: propext
C42_fits_without_arrays: Classical.choice, Quot.sound, propext
C42_is_exact: Classical.choice, Quot.sound, propext
C42_is_partial: Classical.choice, Quot.sound, propext
C42_null_object_false: Classical.choice, Quot.sound, propext
C42_own_type: Classical.choice, Quot.sound, propext
C42_pointer_alias: Classical.choice, Quot.sound, propext
C42_reference_exact: Classical.choice, Quot.sound, propext
C42_reference_partial: Classical.choice, Quot.sound, propext
C43_canConvert_exact: Classical.choice, Quot.sound, propext
C43_canConvert_partial: Classical.choice, Quot.sound, propext
C43_canConvert_promises_nothing: Classical.choice, Quot.sound, propext
C43_empty: propext
C43_to_exact: Classical.choice, Quot.sound, propext
C43_to_partial: Classical.choice, Quot.sound, propext
C43_tryConvert: Quot.sound, propext
C44_by_value_writable: Classical.choice, Quot.sound, propext
C44_const_variant: propext
C44_deep_false: Classical.choice, Quot.sound, propext
C44_deep_partial: Classical.choice, Quot.sound, propext
C44_false: Classical.choice, Quot.sound, propext
C44_keeps_const_partial: Classical.choice, Quot.sound, propext
C44_outside_arrays_partial: Classical.choice, Quot.sound, propext
C44_own_array_false: Classical.choice, Quot.sound, propext
C44_refused: Classical.choice, Quot.sound, propext
C44_rref_moves_referred: Classical.choice, Quot.sound, propext
C45_class_exact: Classical.choice, Quot.sound, propext
C45_class_partial: Classical.choice, Quot.sound, propext
C45_get_partial: Classical.choice, Quot.sound, propext
C45_invoke_partial: Classical.choice, Quot.sound, propext
C45_no_class: Classical.choice, Quot.sound, propext
C45_null: Classical.choice, Quot.sound, propext
C45_set_partial: Classical.choice, Quot.sound, propext
C46_category: propext
C46_const_ref_own: Classical.choice, Quot.sound, propext
C46_empty_variant: Quot.sound, propext
C46_empty_variant_argument: Classical.choice, Quot.sound, propext
C46_missing: propext
C46_outcome_exact: Classical.choice, Quot.sound, propext
C46_outcome_partial: Classical.choice, Quot.sound, propext
C46_own_object_partial: Classical.choice, Quot.sound, propext
C46_reference_wrapper_false: Classical.choice, Quot.sound, propext
C46_variant_exact: Classical.choice, Quot.sound, propext
C46_variant_partial: Classical.choice, Quot.sound, propext
C47_exact: Classical.choice, Quot.sound, propext
C47_false: Classical.choice, Quot.sound, propext
C47_leading: Quot.sound, propext
C47_no_parameters: Quot.sound, propext
C47_partial: Quot.sound, propext
C47_ten_parameters_false: Quot.sound, propext
C48_const_pointer_exact: Classical.choice, Quot.sound, propext
C48_converter_false: Classical.choice, Quot.sound, propext
C48_invoke_partial: Classical.choice, Quot.sound, propext
C48_object_partial: Classical.choice, Quot.sound, propext
C48_refused: Classical.choice, Quot.sound, propext
C48_runs: Classical.choice, Quot.sound, propext
C49_const_object: Classical.choice, Quot.sound, propext
C49_const_variant: Quot.sound, propext
C49_get_const: propext
C49_get_exact: Classical.choice, Quot.sound, propext
C49_getter_false: Classical.choice, Quot.sound, propext
C49_getter_not_const: Classical.choice, Quot.sound, propext
C49_misuse: Quot.sound, propext
C49_read_only: propext
C49_set_exact: Classical.choice, Quot.sound, propext
C49_set_get_partial: Classical.choice, Quot.sound, propext
C49_set_where_partial: Classical.choice, Quot.sound, propext
C49_static_set_get: propext
C49_temporary_false: Classical.choice, Quot.sound, propext
C50_exact: Classical.choice, Quot.sound, propext
C50_exact_get: Classical.choice, Quot.sound, propext
C50_exact_set: Classical.choice, Quot.sound, propext
C50_false: Classical.choice, Quot.sound, propext
C50_named_partial: Classical.choice, Quot.sound, propext
C50_silent: Quot.sound, propext
C51_attribute: Classical.choice, Quot.sound, propext
C51_attribute_false: Classical.choice, Quot.sound, propext
C51_balanced: Classical.choice, Quot.sound, propext
C51_constructor: Classical.choice, Quot.sound, propext
C51_element: Classical.choice, Quot.sound, propext
C51_enum: Classical.choice, Quot.sound, propext
C51_exception_stack_false: Classical.choice, Quot.sound, propext
C51_method: Classical.choice, Quot.sound, propext
C51_namespace: Classical.choice, Quot.sound, propext
C51_property: Classical.choice, Quot.sound, propext
C51_reuse: Classical.choice, Quot.sound, propext
C51_reuse_false: Classical.choice, Quot.sound, propext
C51_reuse_partial: Classical.choice, Quot.sound, propext
C51_scopes: Classical.choice, Quot.sound, propext
C51_stack: Classical.choice, Quot.sound, propext
C51_stack_empty: Classical.choice, Quot.sound, propext
C51_start: Classical.choice, Quot.sound, propext
C51_trees: Quot.sound, propext
C51_unclosed: Classical.choice, Quot.sound, propext
C52_builder: Classical.choice, Quot.sound, propext
C52_class: Classical.choice, Quot.sound, propext
C52_distinct: Classical.choice, Quot.sound, propext
C52_found: Classical.choice, Quot.sound, propext
C52_kinds: Classical.choice, Quot.sound, propext
C52_nonconst_copy_false: Classical.choice, Quot.sound, propext
C52_null_exact: Classical.choice, Quot.sound, propext
C52_null_partial: Classical.choice, Quot.sound, propext
C52_other_class_false: Classical.choice, Quot.sound, propext
C52_refused: Classical.choice, Quot.sound, propext
C52_reserved_false: Classical.choice, Quot.sound, propext
C52_special_types_false: Classical.choice, Quot.sound, propext
C52_stable: Classical.choice, Quot.sound, propext
C52_throws_iff: Classical.choice, Quot.sound, propext
C53_defined_iff: Quot.sound, propext
C53_exact: Classical.choice, Quot.sound, propext
C53_false: propext
C53_metatype_false: Quot.sound, propext
C53_metatype_partial: propext
C53_partial: Classical.choice, Quot.sound, propext
C53_separators: Quot.sound, propext
C53_types: Quot.sound, propext
C54_concat_push: propext
C54_ends: propext
C54_foldl: propext
C54_foldr_false: propext
C54_foldr_partial: Quot.sound, propext
C54_get: propext
C54_index: Classical.choice, Quot.sound, propext
C54_index_sequence_for_exact: Quot.sound, propext
C54_index_sequence_for_false: Quot.sound, propext
C54_index_sequence_for_iff: Quot.sound, propext
C54_index_sequence_for_partial: Quot.sound, propext
C54_make_index_sequence: propext
C54_map_filter: propext
C54_remove: Quot.sound, propext
C54_remove_duplicates: Classical.choice, Quot.sound, propext
C54_size: propext
C54_tuple: Quot.sound, propext
C54_unordered_equal: Classical.choice, Quot.sound, propext
C55_clang_exact: Classical.choice, Quot.sound, propext
C55_clang_false: Classical.choice, Quot.sound, propext
C55_clang_partial: Classical.choice, Quot.sound, propext
C55_exact: Classical.choice, Quot.sound, propext
C55_gcc: Classical.choice, Quot.sound, propext
C56_const: Quot.sound, propext
C56_dynamic: Classical.choice, Quot.sound, propext
C56_info: Classical.choice, Quot.sound, propext
C56_macro_false: Classical.choice, Quot.sound, propext
C56_null: propext
C56_plain: propext
C56_reference: propext
C56_static: Quot.sound, propext
C56_unique: Classical.choice, Quot.sound, propext
C56_unregistered_false: Classical.choice, Quot.sound, propext
C57_array_copy_false: Quot.sound, propext
C57_array_leak_false: Quot.sound, propext
C57_blocks: Classical.choice, Quot.sound, propext
C57_construct: Classical.choice, Quot.sound, propext
C57_deallocate: Quot.sound, propext
C57_defined: Classical.choice, Quot.sound, propext
C57_destruct: Classical.choice, Quot.sound, propext
C57_exception: Classical.choice, Quot.sound, propext
C57_handles_false: propext
C57_leak_false: Quot.sound, propext
C57_no_leak_partial: Classical.choice, Quot.sound, propext
C57_null: propext
C57_objects: Classical.choice, Quot.sound, propext
C57_uninitialised_false: propext
C57_void_false: propext
C58_foreign_callback_false: Classical.choice, Quot.sound, propext
C58_method_any: Classical.choice, Quot.sound, propext
C58_method_partial: Classical.choice, Quot.sound, propext
C58_property_any: Classical.choice, Quot.sound, propext
C58_property_partial: Classical.choice, Quot.sound, propext
C59_false_inherited: Classical.choice, Quot.sound, propext
C59_inherited: Classical.choice, Quot.sound, propext
C59_inherited_property: Classical.choice, Quot.sound, propext
C59_items_stable: Classical.choice, Quot.sound, propext
C59_namespace_methods: Classical.choice, Quot.sound, propext
C59_own_members_partial: Classical.choice, Quot.sound, propext
C60_array_false: Classical.choice, Quot.sound, propext
C60_decision_partial: Classical.choice, Quot.sound, propext
C60_determined: Classical.choice, Quot.sound, propext
C60_direct: propext
C60_empty: propext
C60_exact: Classical.choice, Quot.sound, propext
C60_leak_false: Classical.choice, Quot.sound, propext
C60_temporaries_exact: Classical.choice, Quot.sound, propext
C60_temporaries_partial: Classical.choice, Quot.sound, propext
C61_define: Quot.sound, propext
C61_hierarchy: Quot.sound, propext
C61_lookup: Quot.sound, propext
C62_all_run_partial: Classical.choice, Quot.sound, propext
C62_deadlock_false: Classical.choice, Quot.sound, propext
C62_earlier_run: Classical.choice, Quot.sound, propext
C62_exception: Quot.sound, propext
C62_false: Classical.choice, Quot.sound, propext
C62_no_deadlock_partial: Classical.choice, Quot.sound, propext
C62_not_wedged: Classical.choice, Quot.sound, propext
C62_self: Classical.choice, Quot.sound, propext
C63_deadlock_false: Classical.choice, Quot.sound, propext
C63_enumeration: Classical.choice, Quot.sound, propext
C63_outcome: Classical.choice, Quot.sound, propext
C64_answers: Classical.choice, Quot.sound, propext
C64_cached_partial: propext
C64_data_race_false: Classical.choice, Quot.sound, propext
C64_global_always_written_false: Classical.choice, Quot.sound, propext
C64_race_iff: Classical.choice, Quot.sound, propext
C64_value_partial: Classical.choice, Quot.sound, propext
C65_data_race_false: propext
C65_exclusive: Quot.sound, propext
C65_lookup: Classical.choice, Quot.sound, propext
C65_race_iff: Classical.choice, Quot.sound, propext
C65_race_same_name_partial: Classical.choice, Quot.sound, propext
C65_reference_live_partial: Classical.choice, Quot.sound, propext
C65_set: Classical.choice, Quot.sound, propext
C66_attribute_throws_iff: Classical.choice, Quot.sound, propext
C66_attributes: Classical.choice, Quot.sound, propext
C66_attributes_exact: Classical.choice, Quot.sound, propext
C66_attributes_untouched_partial: Classical.choice, Quot.sound, propext
C66_class_false: Classical.choice, Quot.sound, propext
C66_class_throws_iff: Classical.choice, Quot.sound, propext
C66_create_index: Quot.sound, propext
C66_create_unchanged_partial: Quot.sound, propext
C66_duplicate_false: Classical.choice, Quot.sound, propext
C66_index_false: propext
C66_leak_false: propext
C66_member_throws_iff: Classical.choice, Quot.sound, propext
C66_members: Quot.sound, propext
C66_members_exact: Classical.choice, Quot.sound, propext
C66_members_untouched_partial: propext
C66_namespace_throws_iff: Classical.choice, Quot.sound, propext
C66_no_fault: propext
C67_description: Quot.sound, propext
C67_exclusive: Quot.sound, propext
C67_ids: Quot.sound, propext
C67_no_deadlock: Classical.choice, Quot.sound, propext
C67_stable: Quot.sound, propext
C68_describes: Quot.sound, propext
C68_false: propext
C68_functor: Quot.sound, propext
C68_functor_false: propext
C68_invoker: Quot.sound, propext
C68_supported: propext
C69_exact: Quot.sound, propext
C69_moved: Quot.sound, propext
C69_moved_false: none
C69_once_partial: Quot.sound, propext
C69_order_partial: Quot.sound, propext
C70_all_destroyed: Classical.choice, Quot.sound, propext
C70_dangling_false: Classical.choice, Quot.sound, propext
C70_find_null: propext
C70_member_partial: Classical.choice, Quot.sound, propext
C70_names_kept: propext
C70_order: Classical.choice, Quot.sound, propext
C70_walk_false: Classical.choice, Quot.sound, propext
C70_walk_partial: propext
C71_all_done: Classical.choice, Quot.sound, propext
C71_answers: Classical.choice, Quot.sound, propext
C71_bases_kept: propext
C71_ends: Classical.choice, Quot.sound, propext
C71_no_deadlock: Classical.choice, Quot.sound, propext
C71_undisturbed: Quot.sound, propext
C71_walks_undisturbed: Classical.choice, Quot.sound, propext
C71_which_false: propext
C72_ends: Quot.sound, propext
C72_first_exact: Classical.choice, Quot.sound, propext
C72_linearizable: Classical.choice, Quot.sound, propext
C72_no_deadlock: Classical.choice, Quot.sound, propext
C72_one_winner: Classical.choice, Quot.sound, propext
C72_own_function_false: propext
C72_own_function_partial: Classical.choice, Quot.sound, propext
C73_argument: Classical.choice, Quot.sound, propext
C73_arguments: Classical.choice, Quot.sound, propext
C73_member: Classical.choice, Quot.sound, propext
C73_named: Classical.choice, Quot.sound, propext
C73_object: Classical.choice, Quot.sound, propext
C73_result: Quot.sound, propext
C73_runs_partial: Classical.choice, Quot.sound, propext
C73_static: Classical.choice, Quot.sound, propext
C73_static_by_name_false: Classical.choice, Quot.sound, propext
C74_access: Classical.choice, Quot.sound, propext
C74_by_name_partial: Classical.choice, Quot.sound, propext
C74_by_signature_partial: Classical.choice, Quot.sound, propext
C74_call: Classical.choice, Quot.sound, propext
C74_dropped: Classical.choice, Quot.sound, propext
C74_false: Classical.choice, Quot.sound, propext
C74_kept: Classical.choice, Quot.sound, propext
C74_kept_property: Classical.choice, Quot.sound, propext
C74_method: Classical.choice, Quot.sound, propext
C74_own_access_partial: Classical.choice, Quot.sound, propext
C74_property: Classical.choice, Quot.sound, propext
C74_signature: propext
C74_types: Classical.choice, Quot.sound, propext
C75_all_done_partial: Classical.choice, Quot.sound, propext
C75_crossed_false: propext
C75_ends: Quot.sound, propext
C75_exclusive: Classical.choice, Quot.sound, propext
C75_finished: Classical.choice, Quot.sound, propext
C75_grows: Quot.sound, propext
C75_no_deadlock_partial: Classical.choice, Quot.sound, propext
C75_own_list: Quot.sound, propext
C75_own_list_false: propext
C75_readers_first_partial: Classical.choice, Quot.sound, propext
C75_recursive_false: propext
C75_undisturbed: Classical.choice, Quot.sound, propext
C76_const_false: Classical.choice, Quot.sound, propext
C76_construct: Classical.choice, Quot.sound, propext
C76_conversion: Classical.choice, Quot.sound, propext
C76_derived_false: Classical.choice, Quot.sound, propext
C76_kept: Classical.choice, Quot.sound, propext
C76_object: Classical.choice, Quot.sound, propext
C76_signature: Classical.choice, Quot.sound, propext
C76_to: Classical.choice, Quot.sound, propext
C77_argument_partial: propext
C77_calls: Quot.sound, propext
C77_cast_caught: Quot.sound, propext
C77_casts: propext
C77_count: propext
C77_count_caught: Quot.sound, propext
C77_define: Classical.choice, Quot.sound, propext
C77_define_caught: Classical.choice, Quot.sound, propext
C77_handlers: propext
C77_install_caught: Classical.choice, Quot.sound, propext
C77_lookup: Quot.sound, propext
C77_meta_cast: propext
C77_meta_cast_caught: Quot.sound, propext
C77_missing_caught: Quot.sound, propext
C77_program: Classical.choice, Quot.sound, propext
C77_to_caught: Quot.sound, propext
C77_to_false: Classical.choice, Quot.sound, propext
C77_to_partial: propext
C77_unchanged: Classical.choice, Quot.sound, propext
C77_unknown_name_caught: Classical.choice, Quot.sound, propext
C78_apart: Classical.choice, Quot.sound, propext
C78_call: Classical.choice, Quot.sound, propext
C78_call_pointer: Classical.choice, Quot.sound, propext
C78_pointer: Classical.choice, Quot.sound, propext
C78_referred: Classical.choice, Quot.sound, propext
C78_shown: Classical.choice, Quot.sound, propext
C78_stands: Classical.choice, Quot.sound, propext
C78_to: Classical.choice, Quot.sound, propext
C78_value: Classical.choice, Quot.sound, propext
C78_write: Classical.choice, Quot.sound, propext
C79_add_pointers: Quot.sound, propext
C79_array_length: propext
C79_base_type: Quot.sound, propext
C79_class_pointer_exact: Classical.choice, Quot.sound, propext
C79_class_pointer_false: propext
C79_class_pointer_partial: Classical.choice, Quot.sound, propext
C79_comparable_exact: Classical.choice, Quot.sound, propext
C79_comparable_false: Classical.choice, Quot.sound, propext
C79_comparable_partial: Classical.choice, Quot.sound, propext
C79_copyable_exact: Classical.choice, Quot.sound, propext
C79_copyable_false: propext
C79_copyable_partial: Classical.choice, Quot.sound, propext
C79_questions: Quot.sound, propext
C79_remove_all_cv: propext
C79_remove_all_pointers: Quot.sound, propext
C80_aligned_partial: Classical.choice, Quot.sound, propext
C80_exact: Classical.choice, Quot.sound, propext
C80_false: Quot.sound, propext
C80_which: Classical.choice, Quot.sound, propext
C81_block_false: propext
C81_declined_false: propext
C81_dummy_false: propext
C81_exact: Classical.choice, Quot.sound, propext
C81_member_nothing: propext
C81_member_reached: Classical.choice, Quot.sound, propext
C81_member_refused: Classical.choice, Quot.sound, propext
C81_member_result_nothing: propext
C81_member_result_reached: Classical.choice, Quot.sound, propext
C81_member_result_refused: Classical.choice, Quot.sound, propext
C81_no_leak_partial: Classical.choice, Quot.sound, propext
C81_outcome: Classical.choice, Quot.sound, propext
C81_reached: Classical.choice, Quot.sound, propext
C81_refused: Classical.choice, Quot.sound, propext
C81_result: Classical.choice, Quot.sound, propext
C81_result_block_false: propext
C81_result_end: Classical.choice, Quot.sound, propext
C81_result_no_leak_partial: Classical.choice, Quot.sound, propext
C81_result_reached: Classical.choice, Quot.sound, propext
C81_result_refused: Classical.choice, Quot.sound, propext
C82_direct_partial: Classical.choice, Quot.sound, propext
C82_order: Classical.choice, Quot.sound, propext
C82_own_object_false: Classical.choice, Quot.sound, propext
C82_same_call: propext
C82_which: Classical.choice, Quot.sound, propext
C83_answers_partial: Classical.choice, Quot.sound, propext
C83_base_exact: Classical.choice, Quot.sound, propext
C83_base_false: Classical.choice, Quot.sound, propext
C83_base_left: none
C83_base_no_fault: Quot.sound, propext
C83_base_retry: Classical.choice, Quot.sound, propext
C83_converter_false: Classical.choice, Quot.sound, propext
C83_decay_false: propext
C83_exit_false: propext
C83_exit_freed: Classical.choice, Quot.sound, propext
C83_freed: propext
C83_has_false: propext
C83_ids: Classical.choice, Quot.sound, propext
C83_known: Classical.choice, Quot.sound, propext
C83_lost: Classical.choice, Quot.sound, propext
C83_no_fault: Quot.sound, propext
C83_retry: Classical.choice, Quot.sound, propext
C83_shutdown: Classical.choice, Quot.sound, propext
C84_all_done: Classical.choice, Quot.sound, propext
C84_answers: Classical.choice, Quot.sound, propext
C84_ends: Classical.choice, Quot.sound, propext
C84_lists_undisturbed: Classical.choice, Quot.sound, propext
C84_moment_false: Quot.sound, propext
C84_no_deadlock: Classical.choice, Quot.sound, propext
C84_undisturbed: Classical.choice, Quot.sound, propext
C85_answers: Classical.choice, Quot.sound, propext
C85_keeps: Classical.choice, Quot.sound, propext
C85_later: Classical.choice, Quot.sound, propext
C85_missed_false: Classical.choice, Quot.sound, propext
C85_origin: Classical.choice, Quot.sound, propext
C85_reachable: Classical.choice, Quot.sound, propext
C86_accepted: Classical.choice, Quot.sound, propext
C86_cast: Classical.choice, Quot.sound, propext
C86_define: Classical.choice, Quot.sound, propext
C86_inherited: Classical.choice, Quot.sound, propext
C86_members: Classical.choice, Quot.sound, propext
C86_method: Classical.choice, Quot.sound, propext
C86_property: Classical.choice, Quot.sound, propext
C86_values: Classical.choice, Quot.sound, propext
C87_answer: Classical.choice, Quot.sound, propext
C87_balance: Classical.choice, Quot.sound, propext
C87_catches: propext
C87_declined_false: propext
C87_defined: Classical.choice, Quot.sound, propext
C87_destroyed_iff: Classical.choice, Quot.sound, propext
C87_ends_program_false: propext
C87_exact: Classical.choice, Quot.sound, propext
C87_failed: Classical.choice, Quot.sound, propext
C87_freed_iff: Classical.choice, Quot.sound, propext
C87_history_proper: Classical.choice, Quot.sound, propext
C87_leak_iff: Classical.choice, Quot.sound, propext
C87_leaves_objects_false: propext
C87_loses_block_false: propext
C87_succeeded: Classical.choice, Quot.sound, propext
C87_value: Classical.choice, Quot.sound, propext
C88_array_false: propext
C88_class: Classical.choice, Quot.sound, propext
C88_read: Classical.choice, Quot.sound, propext
C88_type: Classical.choice, Quot.sound, propext
C89_assigned: Classical.choice, Quot.sound, propext
C89_false: Classical.choice, Quot.sound, propext
C89_no_leak_partial: Classical.choice, Quot.sound, propext
C89_nothing: propext
C89_refused: Classical.choice, Quot.sound, propext
C89_setter: Classical.choice, Quot.sound, propext
C90_false: Classical.choice, Quot.sound, propext
C90_getter: Classical.choice, Quot.sound, propext
C90_no_leak_partial: Classical.choice, Quot.sound, propext
C90_nothing: propext
C90_reference: Classical.choice, Quot.sound, propext
C90_refused: Classical.choice, Quot.sound, propext
C91_answers_partial: Classical.choice, Quot.sound, propext
C91_at_most_one: Classical.choice, Quot.sound, propext
C91_exactly_one: Classical.choice, Quot.sound, propext
C91_in_turn: Quot.sound, propext
C91_later: Classical.choice, Quot.sound, propext
C91_null_false: none
C91_null_late: Classical.choice, Quot.sound, propext
C91_view_false: none
C91_wait_free: Quot.sound, propext
C92_attributes: Classical.choice, Quot.sound, propext
C92_members: Classical.choice, Quot.sound, propext
C92_members_end: Classical.choice, Quot.sound, propext
C92_members_ends: Classical.choice, Quot.sound, propext
C92_one_moment_false: Quot.sound, propext
C93_by_type: Classical.choice, Quot.sound, propext
C93_defined: Classical.choice, Quot.sound, propext
C93_description: Classical.choice, Quot.sound, propext
C93_found: Classical.choice, Quot.sound, propext
C93_holds_partial: Classical.choice, Quot.sound, propext
C93_ids: Classical.choice, Quot.sound, propext
C93_own_name_false: Classical.choice, Quot.sound, propext
C93_same_text_cast_false: Classical.choice, Quot.sound, propext
C93_same_text_class_false: Classical.choice, Quot.sound, propext
C93_same_text_false: Classical.choice, Quot.sound, propext
C93_stays: Classical.choice, Quot.sound, propext
C94_answer_false: Classical.choice, Quot.sound, propext
C94_canConvert: Classical.choice, Quot.sound, propext
C94_is: Classical.choice, Quot.sound, propext
C94_reference: Classical.choice, Quot.sound, propext
C94_same_text_false: Classical.choice, Quot.sound, propext
C94_to: Classical.choice, Quot.sound, propext
C95_argument: Classical.choice, Quot.sound, propext
C95_get: Classical.choice, Quot.sound, propext
C95_member: Classical.choice, Quot.sound, propext
C95_method: Classical.choice, Quot.sound, propext
C95_named: Classical.choice, Quot.sound, propext
C95_named_get: Classical.choice, Quot.sound, propext
C95_named_set: Classical.choice, Quot.sound, propext
C95_same_text_false: Classical.choice, Quot.sound, propext
C95_set: Classical.choice, Quot.sound, propext
C95_static: Classical.choice, Quot.sound, propext
C96_eq: Classical.choice, Quot.sound, propext
C96_equal: Classical.choice, Quot.sound, propext
C96_hash: Classical.choice, Quot.sound, propext
C96_same_text_false: Classical.choice, Quot.sound, propext
C97_class: Classical.choice, Quot.sound, propext
C97_class_text: Classical.choice, Quot.sound, propext
C97_declared: Classical.choice, Quot.sound, propext
C97_hierarchy: Classical.choice, Quot.sound, propext
C97_meta_cast: Classical.choice, Quot.sound, propext
C97_name_in_use_false: Classical.choice, Quot.sound, propext
C97_one_function: Classical.choice, Quot.sound, propext
C97_same_text_false: Classical.choice, Quot.sound, propext
C97_unique: Classical.choice, Quot.sound, propext
C98_is: Classical.choice, Quot.sound, propext
C98_reference: Classical.choice, Quot.sound, propext
C98_to: Classical.choice, Quot.sound, propext
C99_converter_false: Classical.choice, Quot.sound, propext
C99_get: Classical.choice, Quot.sound, propext
C99_member: Classical.choice, Quot.sound, propext
C99_runs: Classical.choice, Quot.sound, propext
C99_searched: Classical.choice, Quot.sound, propext
C99_set: Classical.choice, Quot.sound, propext
