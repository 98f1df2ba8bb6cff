# Axioms of the property theorems

Generated by `tools/axioms.py` from the output of `#print axioms`.

| Property | Theorem | Axioms |
|---|---|---|
| C04 | `DK.C04_reported_is_reachable` | propext, Classical.choice, Quot.sound |
| C05 | `DK.C05_fails` | propext, Classical.choice, Quot.sound |
| C05 | `DK.C05_strong_dependencies_found_partial` | propext, Classical.choice, Quot.sound |
| C05 | `DK.C05_discovered_iff_reachable` | propext, Classical.choice, Quot.sound |
| C06 | `DK.C06_callstack_is_call_path` | propext, Classical.choice, Quot.sound |
| C07 | `DK.C07_search_terminates` | propext, Classical.choice, Quot.sound |
| C07 | `DK.C07_search_succeeds` | propext, Classical.choice, Quot.sound |
| C07 | `DK.C07_exponential_blowup` | propext, Classical.choice, Quot.sound |
| C09 | `DK.C09_no_function_lost` | propext, Quot.sound |
| C09 | `DK.C09_merge_decision` | propext, Quot.sound |
| C09 | `DK.C09_merge_idempotent` | propext, Quot.sound |
| C09 | `DK.C09_verdicts_fails` | none |
| C09 | `DK.C09_definite_verdicts_kept_partial` | propext, Classical.choice, Quot.sound |
| C10 | `DK.C10_fails` | propext |
| C10 | `DK.C10_equal_functions_recorded_partial` | propext, Quot.sound |
| C11 | `DK.C11_fails` | propext |
| C11 | `DK.C11_fails_shared_key` | propext |
| C11 | `DK.C11_no_variants_left_partial` | propext, Classical.choice, Quot.sound |
| C12 | `DK.C12_verdicts_any_output` | propext, Classical.choice, Quot.sound |
| C12 | `DK.C12_verdicts_preserved` | propext, Classical.choice, Quot.sound |
| C12 | `DK.C12_calls_preserved` | propext, Classical.choice, Quot.sound |
| C13 | `DK.C13_uncachable_iff` | propext, Classical.choice, Quot.sound |
| C61 | `DK.C61_fails` | propext, Classical.choice, Quot.sound |
| C61 | `DK.C61_reset_iff_partial` | propext, Quot.sound |
| C08 | `DK.C08_exactly_interesting_differences` | propext, Classical.choice, Quot.sound |
| C58 | `DK.C58_import_complete` | propext, Classical.choice, Quot.sound |
| C63 | `DK.C63_fails` | propext |
| C63 | `DK.C63_results_kept_partial` | propext, Quot.sound |
| C63 | `DK.C63_last_wins` | propext, Quot.sound |
| C01 | `DK.C01_verdict_is_worst` | propext, Quot.sound |
| C01 | `DK.C01_order_irrelevant` | propext, Quot.sound |
| C01 | `DK.C01_never_lowered` | propext, Quot.sound |
| C01 | `DK.C01_overall_verdict` | propext, Classical.choice, Quot.sound |
| C02 | `DK.C02_fails` | none |
| C02 | `DK.C02_statistics_partial` | propext, Classical.choice, Quot.sound |
| C14 | `DK.C14_written_exactly` | propext, Quot.sound |
| C14 | `DK.C14_only_settled` | propext, Classical.choice, Quot.sound |
| C14 | `DK.C14_all_settled` | propext, Classical.choice, Quot.sound |
| C15 | `DK.C15_fails` | propext, Classical.choice, Quot.sound |
| C15 | `DK.C15_absolute_paths_never_cached` | propext, Classical.choice, Quot.sound |
| C15 | `DK.C15_round_trip_partial` | propext, Quot.sound |
| C15 | `DK.plain_relative_agree` | propext |
| C16 | `DK.C16_fails` | propext |
| C16 | `DK.C16_same_file_collision` | propext |
| C16 | `DK.C16_same_prefix_injective_partial` | propext, Quot.sound |
| C16 | `DK.C16_reader_injective` | propext, Quot.sound |
| C17 | `DK.C17_linking_terminates` | propext, Classical.choice, Quot.sound |
| C18 | `DK.C18_fails` | propext, Classical.choice, Quot.sound |
| C18 | `DK.C18_modules_restored_partial` | propext, Classical.choice, Quot.sound |
| C19 | `DK.C19_difference_reported` | propext, Classical.choice, Quot.sound |
| C19 | `DK.C19_no_difference_invented` | propext, Classical.choice, Quot.sound |
| C19 | `DK.C19_engine_failure` | propext, Classical.choice, Quot.sound |
| C20 | `DK.C20_fails` | propext, Classical.choice, Quot.sound |
| C20 | `DK.C20_definite_verdict_partial` | propext, Classical.choice, Quot.sound |
| C62 | `DK.C62_fails` | propext, Classical.choice, Quot.sound |
| C62 | `DK.C62_own_entries_partial` | propext, Classical.choice, Quot.sound |
| C64 | `DK.C64_fails` | propext, Classical.choice, Quot.sound |
| C64 | `DK.C64_originals_not_overwritten_partial` | propext, Classical.choice, Quot.sound |
| C65 | `DK.C65_fails` | propext, Classical.choice, Quot.sound |
| C65 | `DK.C65_known_results_kept_partial` | propext, Classical.choice, Quot.sound |
| C66 | `DK.C66_fails` | propext, Classical.choice, Quot.sound |
| C66 | `DK.C66_duplicates_partial` | propext, Quot.sound |
| C67 | `DK.C67_fails` | propext, Classical.choice, Quot.sound |
| C67 | `DK.C67_not_hidden_partial` | propext, Classical.choice, Quot.sound |
| C68 | `DK.C68_missing_definitions_linked` | propext, Classical.choice, Quot.sound |
| C25 | `DK.C25_lookup_last_addition` | propext, Quot.sound |
| C26 | `DK.C26_save_load` | propext, Quot.sound |
| C26 | `DK.C26_ungrouped_sysctl_not_loadable` | propext |
| C27 | `DK.C27_filter` | propext, Classical.choice, Quot.sound |
| C69 | `DK.C69_fails` | propext, Quot.sound |
| C69 | `DK.C69_written_in_snapshot_partial` | propext, Quot.sound |
| C70 | `DK.C70_generated_exactly` | propext, Quot.sound |
| C03 | `DK.C03_fails` | propext, Classical.choice, Quot.sound |
| C03 | `DK.C03_entries_partial` | propext, Classical.choice, Quot.sound |
| C21 | `DK.C21_compared_exactly` | propext, Classical.choice, Quot.sound |
| C21 | `DK.C21_skipped_and_unknown` | propext, Classical.choice, Quot.sound |
| C21 | `DK.logged_same` | propext, Quot.sound |
| C22 | `DK.C22_fails` | propext, Classical.choice, Quot.sound |
| C22 | `DK.C22_filter_partial` | propext, Classical.choice, Quot.sound |
| C23 | `DK.C23_fails` | propext, Classical.choice, Quot.sound |
| C23 | `DK.C23_graph_complete_partial` | propext, Classical.choice, Quot.sound |
| C24 | `DK.C24_fresh_output_dir` | propext, Classical.choice, Quot.sound |
| C55 | `DK.C55_yaml_exact` | propext, Classical.choice, Quot.sound |
| C55 | `DK.C55_yaml_output` | propext, Classical.choice, Quot.sound |
| C71 | `DK.C71_fails` | propext, Classical.choice, Quot.sound |
| C71 | `DK.C71_mentioned_partial` | propext, Classical.choice, Quot.sound |
| C72 | `DK.C72_fails` | propext, Classical.choice, Quot.sound |
| C72 | `DK.C72_aborts_partial` | propext, Classical.choice, Quot.sound |
| C73 | `DK.C73_fails` | propext, Classical.choice, Quot.sound |
| C73 | `DK.C73_tool_partial` | propext, Classical.choice, Quot.sound |
| C74 | `DK.C74_reuse` | propext, Classical.choice, Quot.sound |
| C56 | `DK.C56_fails` | propext |
| C56 | `DK.C56_symbols_partial` | propext, Quot.sound |
| C75 | `DK.C75_fails` | propext, Quot.sound |
| C75 | `DK.C75_definitions_partial` | propext, Classical.choice, Quot.sound |
| C76 | `DK.C76_fails` | none |
| C76 | `DK.C76_paths_partial` | propext, Quot.sound |
| C76 | `DK.C76_output_partial` | propext, Classical.choice, Quot.sound |
| C77 | `DK.C77_fails` | propext |
| C77 | `DK.C77_fails_zero` | propext |
| C77 | `DK.C77_endLine_partial` | propext, Classical.choice, Quot.sound |
| C28 | `DK.C28_fails` | propext |
| C28 | `DK.C28_unused_returns_ignored` | propext, Quot.sound |
| C28 | `DK.C28_patterns_partial` | propext, Classical.choice, Quot.sound |
| C29 | `DK.C29_fails` | propext |
| C29 | `DK.C29_fails_extension` | propext |
| C29 | `DK.C29_fails_unreadable` | propext |
| C29 | `DK.C29_loading_partial` | propext, Classical.choice, Quot.sound |
| C78 | `DK.C78_same_patterns` | propext, Classical.choice, Quot.sound |
| C30 | `DK.C30_line_numbers` | propext, Classical.choice, Quot.sound |
| C31 | `DK.C31_fails` | propext, Quot.sound |
| C31 | `DK.C31_extraction_partial` | propext, Classical.choice, Quot.sound |
| C79 | `DK.C79_fails` | propext, Classical.choice, Quot.sound |
| C79 | `DK.C79_fails_error` | propext |
| C79 | `DK.C79_context_diff_partial` | propext, Classical.choice, Quot.sound |
| C36 | `DK.C36_fails` | none |
| C36 | `DK.C36_restored_partial` | propext, Classical.choice, Quot.sound |
| C38 | `DK.C38_names` | propext, Quot.sound |
| C50 | `DK.C50_fails` | propext, Quot.sound |
| C50 | `DK.C50_fails_blank` | none |
| C50 | `DK.C50_arguments_partial` | propext, Classical.choice, Quot.sound |
| C51 | `DK.C51_fails` | propext |
| C51 | `DK.C51_fails_list` | propext |
| C51 | `DK.C51_fails_component` | propext |
| C51 | `DK.C51_sysctl_partial` | propext, Classical.choice, Quot.sound |
| C60 | `DK.C60_replace` | propext, Classical.choice, Quot.sound |
| C80 | `DK.C80_fails` | none |
| C80 | `DK.C80_missed` | none |
| C80 | `DK.C80_terminates_partial` | propext, Classical.choice, Quot.sound |
| C32 | `DK.C32_fails` | propext |
| C32 | `DK.C32_fails_script` | propext |
| C32 | `DK.C32_fails_output` | propext |
| C32 | `DK.C32_transparent_partial` | propext, Quot.sound |
| C33 | `DK.C33_fails` | propext |
| C33 | `DK.C33_fails_colon` | propext |
| C33 | `DK.C33_database_partial` | propext, Quot.sound |
| C34 | `DK.C34_fails` | propext, Classical.choice, Quot.sound |
| C34 | `DK.C34_candidates_partial` | propext, Classical.choice, Quot.sound |
| C34 | `DK.C34_found` | propext, Quot.sound |
| C35 | `DK.C35_fails` | propext, Classical.choice, Quot.sound |
| C35 | `DK.C35_translation_partial` | propext, Classical.choice, Quot.sound |
| C35 | `DK.C35_no_source` | propext, Quot.sound |
| C37 | `DK.C37_fails` | propext |
| C37 | `DK.C37_fails_zero` | none |
| C37 | `DK.C37_same_module` | propext, Quot.sound |
| C37 | `DK.C37_found_partial` | propext, Quot.sound |
| C57 | `DK.C57_solver` | propext, Quot.sound |
| C81 | `DK.C81_fails` | none |
| C81 | `DK.C81_fails_characters` | none |
| C81 | `DK.C81_kernel_partial` | propext |
| C43 | `DK.C43_fails` | propext, Quot.sound |
| C43 | `DK.C43_equal_partial` | propext, Classical.choice, Quot.sound |
| C43 | `DK.C43_outcome_partial` | propext, Classical.choice, Quot.sound |
| C44 | `DK.C44_copy` | propext, Classical.choice, Quot.sound |
| C44 | `DK.C44_refl` | propext, Classical.choice, Quot.sound |
| C39 | `DK.C39_declarations` | propext, Quot.sound |
| C39 | `DK.C39_cached` | propext, Quot.sound |
| C39 | `DK.C39_missing` | propext, Quot.sound |
| C40 | `DK.C40_verdicts` | propext, Quot.sound |
| C40 | `DK.C40_equal` | propext, Quot.sound |
| C40 | `DK.C40_exhausted` | propext |
| C82 | `DK.C82_fails` | propext, Quot.sound |
| C82 | `DK.C82_dropped_partial` | propext, Quot.sound |
| C82 | `DK.C82_recorded_partial` | propext, Quot.sound |
| C83 | `DK.C83_fails_abort` | propext |
| C83 | `DK.C83_fails_diverge` | propext |
| C83 | `DK.C83_ends_partial` | propext, Quot.sound |
| C48 | `DK.C48_exact` | propext, Quot.sound |
| C48 | `DK.C48_ends` | propext, Quot.sound |
| C49 | `DK.C49_fails` | propext, Quot.sound |
| C49 | `DK.C49_fails_invoke` | propext, Quot.sound |
| C49 | `DK.C49_noeffect_partial` | propext, Quot.sound |
| C49 | `DK.C49_effect` | propext, Quot.sound |
| C49 | `DK.C49_ends` | propext, Quot.sound |
| C47 | `DK.C47_fails` | propext, Quot.sound |
| C47 | `DK.C47_slice_partial` | propext, Classical.choice, Quot.sound |
| C47 | `DK.C47_order` | propext, Classical.choice, Quot.sound |
| C47 | `DK.C47_only` | propext, Classical.choice, Quot.sound |
| C47 | `DK.C47_ends` | propext, Quot.sound |
| C59 | `DK.C59_fails` | propext, Classical.choice, Quot.sound |
| C59 | `DK.C59_fails_limit` | propext, Quot.sound |
| C59 | `DK.C59_affected_partial` | propext, Classical.choice, Quot.sound |
| C59 | `DK.C59_own_block` | propext, Classical.choice, Quot.sound |
| C84 | `DK.C84_exact` | propext, Quot.sound |
| C84 | `DK.C84_ends` | propext, Quot.sound |
| C85 | `DK.C85_fails` | propext, Quot.sound |
| C85 | `DK.C85_fails_memory` | propext, Classical.choice, Quot.sound |
| C85 | `DK.C85_fails_nested` | propext, Classical.choice, Quot.sound |
| C85 | `DK.C85_forward_partial` | propext, Classical.choice, Quot.sound |
| C85 | `DK.C85_control_partial` | propext, Classical.choice, Quot.sound |
| C85 | `DK.C85_store_partial` | propext, Classical.choice, Quot.sound |
| C85 | `DK.C85_only_partial` | propext, Quot.sound |
| C52 | `DK.C52_fails` | propext, Quot.sound |
| C52 | `DK.C52_fails_junk` | propext, Quot.sound |
| C52 | `DK.C52_users_partial` | propext, Quot.sound |
| C86 | `DK.C86_param` | propext, Quot.sound |
| C86 | `DK.C86_find` | propext, Quot.sound |
| C41 | `DK.C41_fails` | propext, Quot.sound |
| C41 | `DK.C41_reorder_partial` | propext, Classical.choice, Quot.sound |
| C42 | `DK.C42_fails` | propext, Quot.sound |
| C42 | `DK.C42_inverse_partial` | propext, Classical.choice, Quot.sound |
| C42 | `DK.C42_phis_partial` | propext, Classical.choice, Quot.sound |
| C42 | `DK.C42_predicates` | propext, Classical.choice, Quot.sound |
| C87 | `DK.C87_fails` | propext, Quot.sound |
| C87 | `DK.C87_same_flow_partial` | propext, Classical.choice, Quot.sound |
| C88 | `DK.C88_fails` | propext, Quot.sound |
| C88 | `DK.C88_no_arithmetic_partial` | propext, Classical.choice, Quot.sound |
| C89 | `DK.C89_fails` | propext, Quot.sound |
| C89 | `DK.C89_without_inverse_partial` | propext, Quot.sound |
| C45 | `DK.C45_fails` | propext, Quot.sound |
| C45 | `DK.C45_fails_store` | propext, Quot.sound |
| C45 | `DK.C45_calm_partial` | propext, Classical.choice, Quot.sound |
| C46 | `DK.C46_fails` | propext |
| C46 | `DK.C46_fails_atomic` | propext, Classical.choice, Quot.sound |
| C46 | `DK.C46_same_base_partial` | propext, Classical.choice, Quot.sound |
| C46 | `DK.C46_store_partial` | propext, Classical.choice, Quot.sound |
| C46 | `DK.C46_symmetric` | propext |
| C46 | `DK.C46_reflexive` | propext |
| C90 | `DK.C90_fails` | propext, Classical.choice, Quot.sound |
| C90 | `DK.C90_tail_partial` | propext, Classical.choice, Quot.sound |
| C90 | `DK.C90_ends` | propext, Classical.choice, Quot.sound |
| C90 | `DK.C90_replacement` | propext, Quot.sound |
| C53 | `DK.C53_compared` | propext, Classical.choice, Quot.sound |
| C53 | `DK.C53_differing` | propext, Quot.sound |
| C53 | `DK.C53_sorted` | propext, Classical.choice, Quot.sound |
| C54 | `DK.C54_indices` | propext, Classical.choice, Quot.sound |
| C54 | `DK.C54_written` | propext, Classical.choice, Quot.sound |
| C54 | `DK.C54_repeated` | propext |
| C91 | `DK.C91_pages` | propext, Classical.choice, Quot.sound |
| C91 | `DK.C91_reachable` | propext, Classical.choice, Quot.sound |
| C91 | `DK.C91_repeated` | propext |
| C92 | `DK.C92_fails` | propext |
| C92 | `DK.C92_fails_crash` | propext |
| C92 | `DK.C92_complete_partial` | propext, Classical.choice, Quot.sound |
| C92 | `DK.C92_ends` | propext, Classical.choice, Quot.sound |
| C93 | `DK.C93_listing` | propext, Quot.sound |
| C94 | `DK.C94_fails` | propext |
| C94 | `DK.C94_calls_partial` | propext, Classical.choice, Quot.sound |
| C94 | `DK.C94_last` | propext, Classical.choice, Quot.sound |
| C95 | `DK.C95_fails` | propext, Quot.sound |
| C95 | `DK.C95_partial` | propext, Quot.sound |
| C96 | `DK.C96_fails` | propext, Quot.sound |
| C96 | `DK.C96_definition_lost` | propext |
| C96 | `DK.C96_partial` | propext, Quot.sound |
| C97 | `DK.C97_fails` | propext, Quot.sound |
| C97 | `DK.C97_partial` | propext, Quot.sound |
| C98 | `DK.C98_fails` | propext, Quot.sound |
| C98 | `DK.C98_collision` | propext |
| C98 | `DK.C98_partial` | propext, Classical.choice, Quot.sound |
| C99 | `DK.C99_fails` | propext, Quot.sound |
| C99 | `DK.C99_partial` | propext, Quot.sound |
| C100 | `DK.C100_fails` | propext, Quot.sound |
| C100 | `DK.C100_fails_print` | propext, Quot.sound |
| C100 | `DK.C100_fails_const` | propext, Classical.choice, Quot.sound |
| C100 | `DK.C100_partial` | propext, Classical.choice, Quot.sound |
| C100 | `DK.C100_names_partial` | propext, Classical.choice, Quot.sound |
| C101 | `DK.C101_ends` | propext, Classical.choice, Quot.sound |
| C101 | `DK.C101_refl` | propext, Classical.choice, Quot.sound |
| C102 | `DK.C102_fails` | propext, Quot.sound |
| C102 | `DK.C102_fails_empty` | propext, Quot.sound |
| C102 | `DK.C102_partial` | propext, Classical.choice, Quot.sound |
| C103 | `DK.C103_fails` | propext |
| C103 | `DK.C103_fails_two` | propext |
| C103 | `DK.C103_fails_negative` | propext |
| C103 | `DK.C103_partial` | propext, Classical.choice, Quot.sound |
| C104 | `DK.C104_fails` | propext, Quot.sound |
| C104 | `DK.C104_fails_callee` | propext, Quot.sound |
| C104 | `DK.C104_fails_array` | propext, Quot.sound |
| C104 | `DK.C104_plain_partial` | propext, Quot.sound |
| C104 | `DK.C104_first_partial` | propext, Quot.sound |
| C105 | `DK.C105_fails` | propext, Quot.sound |
| C105 | `DK.C105_memset_partial` | propext, Quot.sound |
| C105 | `DK.C105_alloc_partial` | propext, Quot.sound |
| C106 | `DK.C106_fails` | propext, Quot.sound |
| C106 | `DK.C106_partial` | propext, Classical.choice, Quot.sound |
| C107 | `DK.C107_fails` | propext, Quot.sound |
| C107 | `DK.C107_fails_number` | propext, Quot.sound |
| C107 | `DK.C107_complete_partial` | propext, Classical.choice, Quot.sound |
| C107 | `DK.C107_sound_partial` | propext, Classical.choice, Quot.sound |
| C107 | `DK.C107_ends` | propext, Quot.sound |
| C108 | `DK.C108_fails` | propext, Quot.sound |
| C108 | `DK.C108_complete_partial` | propext, Classical.choice, Quot.sound |
| C108 | `DK.C108_before_partial` | propext, Classical.choice, Quot.sound |
| C108 | `DK.C108_sound_partial` | propext, Classical.choice, Quot.sound |
| C108 | `DK.C108_ends` | propext, Quot.sound |
| C109 | `DK.C109_fails` | none |
| C109 | `DK.C109_fails_first` | none |
| C109 | `DK.C109_fails_command_line` | none |
| C109 | `DK.C109_once_partial` | propext, Classical.choice, Quot.sound |
| C109 | `DK.C109_ends` | propext, Quot.sound |
| C110 | `DK.C110_fails` | propext, Quot.sound |
| C110 | `DK.C110_partial` | propext, Quot.sound |
| C111 | `DK.C111_fails` | propext, Quot.sound |
| C111 | `DK.C111_loads_partial` | propext, Classical.choice, Quot.sound |
| C112 | `DK.C112_fails` | propext, Quot.sound |
| C112 | `DK.C112_ends_partial` | propext, Classical.choice, Quot.sound |
| C113 | `DK.C113_fails` | propext, Quot.sound |
| C113 | `DK.C113_occurs_partial` | propext, Classical.choice, Quot.sound |
| C113 | `DK.C113_unmarked_partial` | propext, Classical.choice, Quot.sound |
| C113 | `DK.C113_complete_partial` | propext, Classical.choice, Quot.sound |
| C114 | `DK.C114_fails` | propext, Classical.choice, Quot.sound |
| C114 | `DK.C114_contiguous_partial` | propext, Classical.choice, Quot.sound |
| C115 | `DK.C115_fails` | propext |
| C115 | `DK.C115_loading_partial` | propext, Classical.choice, Quot.sound |
| C116 | `DK.C116_fails` | propext, Quot.sound |
| C116 | `DK.C116_constants_partial` | propext, Quot.sound |
| C117 | `DK.C117_fails` | propext, Quot.sound |
| C117 | `DK.C117_constants_partial` | propext, Quot.sound |
| C118 | `DK.C118_fails` | propext, Quot.sound |
| C118 | `DK.C118_results_partial` | propext, Classical.choice, Quot.sound |
| C119 | `DK.C119_fails` | propext, Quot.sound |
| C119 | `DK.C119_inputs_partial` | propext, Classical.choice, Quot.sound |
| C120 | `DK.C120_coverage` | propext, Classical.choice, Quot.sound |
| C121 | `DK.C121_fails` | propext |
| C121 | `DK.C121_round_trip_partial` | propext, Classical.choice, Quot.sound |
| C121 | `DK.C121_name_partial` | propext, Classical.choice, Quot.sound |
| C122 | `DK.C122_fails` | propext, Quot.sound |
| C122 | `DK.C122_names_partial` | propext, Classical.choice, Quot.sound |
| C122 | `DK.C122_inner_names_missed` | propext, Quot.sound |
| C122 | `DK.C122_variable_first_index` | propext, Quot.sound |
| C122 | `DK.C122_type_name` | propext, Quot.sound |
| C123 | `DK.C123_fails` | propext |
| C123 | `DK.C123_fails_element` | propext |
| C123 | `DK.C123_members_partial` | propext, Classical.choice, Quot.sound |
| C123 | `DK.C123_without_pattern` | propext, Quot.sound |
| C123 | `DK.C123_variable_indices` | propext, Quot.sound |
| C124 | `DK.C124_fails` | propext, Quot.sound |
| C124 | `DK.C124_fails_wide` | propext, Quot.sound |
| C124 | `DK.C124_fails_shifted` | propext, Quot.sound |
| C124 | `DK.C124_sound_partial` | propext, Classical.choice, Quot.sound |
| C124 | `DK.C124_symmetric` | propext, Quot.sound |
| C125 | `DK.C125_fails` | propext, Classical.choice, Quot.sound |
| C125 | `DK.C125_fails_prefix` | propext, Classical.choice, Quot.sound |
| C125 | `DK.C125_split_partial` | propext, Classical.choice, Quot.sound |
| C126 | `DK.C126_fails` | propext, Quot.sound |
| C126 | `DK.C126_fails_unions` | propext, Quot.sound |
| C126 | `DK.C126_symmetric_partial` | propext, Quot.sound |
| C127 | `DK.C127_fails` | propext, Quot.sound |
| C127 | `DK.C127_fails_arrays` | propext, Quot.sound |
| C127 | `DK.C127_layout_partial` | propext, Quot.sound |
| C128 | `DK.C128_fails` | propext, Quot.sound |
| C128 | `DK.C128_fails_union` | propext, Quot.sound |
| C128 | `DK.C128_transitive_partial` | propext, Classical.choice, Quot.sound |
| C128 | `DK.C128_reflexive` | propext, Quot.sound |
| C129 | `DK.C129_fails` | none |
| C129 | `DK.C129_fails_sign` | none |
| C129 | `DK.C129_fails_wide` | none |
| C129 | `DK.C129_constants_partial` | propext, Quot.sound |
| C130 | `DK.C130_fails` | propext |
| C130 | `DK.C130_snapshot_partial` | propext, Classical.choice, Quot.sound |
| C131 | `DK.C131_fails` | propext, Classical.choice, Quot.sound |
| C131 | `DK.C131_fails_unused` | propext |
| C131 | `DK.C131_total_partial` | propext, Classical.choice, Quot.sound |
| C132 | `DK.C132_fails` | propext |
| C132 | `DK.C132_entries_partial` | propext, Classical.choice, Quot.sound |
| C133 | `DK.C133_fails` | propext, Quot.sound |
| C133 | `DK.C133_hierarchy_partial` | propext, Classical.choice, Quot.sound |
| C134 | `DK.C134_fails` | propext |
| C134 | `DK.C134_fails_opt` | none |
| C134 | `DK.C134_fails_tick` | propext |
| C134 | `DK.C134_current_partial` | propext, Classical.choice, Quot.sound |
| C135 | `DK.C135_fails` | propext, Quot.sound |
| C135 | `DK.C135_current_partial` | propext, Classical.choice, Quot.sound |
| C136 | `DK.C136_fails` | propext |
| C136 | `DK.C136_link_partial` | propext, Quot.sound |
| C137 | `DK.C137_fails` | propext, Quot.sound |
| C137 | `DK.C137_commands_partial` | propext, Quot.sound |
| C138 | `DK.C138_fails` | propext |
| C138 | `DK.C138_fails_long` | propext |
| C138 | `DK.C138_fails_cached` | propext |
| C138 | `DK.C138_program_partial` | propext |
| C138 | `DK.C138_library_partial` | propext |
| C139 | `DK.C139_fails` | propext |
| C139 | `DK.C139_fails_order` | propext |
| C139 | `DK.C139_unused_partial` | propext |
| C139 | `DK.C139_converted_partial` | propext, Quot.sound |
| C140 | `DK.C140_modules` | propext, Quot.sound |
| C141 | `DK.C141_fails` | propext, Classical.choice, Quot.sound |
| C141 | `DK.C141_fails_declaration` | propext, Classical.choice, Quot.sound |
| C141 | `DK.C141_fails_suffix` | propext, Classical.choice, Quot.sound |
| C141 | `DK.C141_reported_partial` | propext, Classical.choice, Quot.sound |
| C141 | `DK.C141_only_partial` | propext, Classical.choice, Quot.sound |
| C142 | `DK.C142_fails` | propext, Classical.choice, Quot.sound |
| C142 | `DK.C142_fails_number` | propext, Classical.choice, Quot.sound |
| C142 | `DK.C142_types_partial` | propext, Classical.choice, Quot.sound |
| C142 | `DK.C142_through_partial` | propext, Classical.choice, Quot.sound |
| C143 | `DK.C143_fails` | propext, Quot.sound |
| C143 | `DK.C143_fails_merged` | propext, Quot.sound |
| C143 | `DK.C143_fails_declared` | propext, Quot.sound |
| C143 | `DK.C143_code_partial` | propext, Quot.sound |
| C143 | `DK.C143_same_partial` | propext, Quot.sound |
| C144 | `DK.C144_fails` | propext, Quot.sound |
| C144 | `DK.C144_fails_nested` | propext, Quot.sound |
| C144 | `DK.C144_named_partial` | propext, Quot.sound |
| C144 | `DK.C144_same_partial` | propext, Classical.choice, Quot.sound |
| C145 | `DK.C145_fails` | propext, Quot.sound |
| C145 | `DK.C145_fails_outside` | propext, Quot.sound |
| C145 | `DK.C145_fails_missing` | propext, Quot.sound |
| C145 | `DK.C145_fails_spelling` | propext, Quot.sound |
| C145 | `DK.C145_included_partial` | propext, Classical.choice, Quot.sound |
| C145 | `DK.C145_copied_partial` | propext, Classical.choice, Quot.sound |
| C146 | `DK.C146_fails` | propext, Quot.sound |
| C146 | `DK.C146_fails_constant` | propext, Quot.sound |
| C146 | `DK.C146_moved_partial` | propext, Quot.sound |
| C146 | `DK.C146_constant_partial` | propext, Quot.sound |
| C147 | `DK.C147_fails` | propext, Quot.sound |
| C147 | `DK.C147_fails_external` | propext, Quot.sound |
| C147 | `DK.C147_found_partial` | propext, Quot.sound |
| C147 | `DK.C147_function_partial` | propext, Classical.choice, Quot.sound |
| C147 | `DK.C147_global_partial` | propext, Quot.sound |
| C148 | `DK.C148_fails` | propext |
| C148 | `DK.C148_fails_none` | propext |
| C148 | `DK.C148_fails_environment` | propext |
| C148 | `DK.C148_settings_partial` | propext, Quot.sound |
| C148 | `DK.C148_calls_partial` | propext, Quot.sound |
| C149 | `DK.C149_fails` | none |
| C149 | `DK.C149_fails_renamed` | none |
| C149 | `DK.C149_kept_partial` | none |
| C149 | `DK.C149_interrupted_partial` | propext |
| C150 | `DK.C150_command` | propext, Classical.choice, Quot.sound |
| C151 | `DK.C151_fails` | none |
| C151 | `DK.C151_names_partial` | propext |
| C151 | `DK.C151_read_partial` | propext, Quot.sound |
| C152 | `DK.C152_fails` | propext |
| C152 | `DK.C152_classes_partial` | propext, Quot.sound |
| C152 | `DK.C152_counts_partial` | propext, Quot.sound |
| C152 | `DK.C152_no_graph` | propext, Quot.sound |
| C153 | `DK.C153_fails` | none |
| C153 | `DK.C153_fails_forever` | propext, Quot.sound |
| C153 | `DK.C153_silent` | propext, Quot.sound |
| C153 | `DK.C153_log_partial` | propext, Classical.choice, Quot.sound |
| C154 | `DK.C154_fails` | propext, Classical.choice, Quot.sound |
| C154 | `DK.C154_fails_element` | propext, Classical.choice, Quot.sound |
| C154 | `DK.C154_fails_name` | propext, Classical.choice, Quot.sound |
| C154 | `DK.C154_fails_member` | propext, Classical.choice, Quot.sound |
| C154 | `DK.C154_fails_deref` | propext, Classical.choice, Quot.sound |
| C154 | `DK.C154_names_partial` | propext, Classical.choice, Quot.sound |
| C155 | `DK.C155_fails` | propext, Quot.sound |
| C155 | `DK.C155_phis_partial` | propext, Classical.choice, Quot.sound |
| C156 | `DK.C156_fails` | propext, Quot.sound |
| C156 | `DK.C156_fails_hash` | propext, Quot.sound |
| C156 | `DK.C156_shown_partial` | propext, Classical.choice, Quot.sound |
| C156 | `DK.C156_encoded_partial` | propext, Classical.choice, Quot.sound |
| C157 | `DK.C157_fails` | propext, Quot.sound |
| C157 | `DK.C157_clean_partial` | propext, Quot.sound |
| C158 | `DK.C158_fails` | propext |
| C158 | `DK.C158_fails_tmpfs` | propext |
| C158 | `DK.C158_fails_stale` | propext |
| C158 | `DK.C158_search_partial` | propext, Quot.sound |
| C159 | `DK.C159_fails` | propext, Quot.sound |
| C159 | `DK.C159_module_partial` | propext, Quot.sound |
| C160 | `DK.C160_fails` | propext |
| C160 | `DK.C160_listed_partial` | propext, Classical.choice, Quot.sound |
| C161 | `DK.C161_fails` | propext, Quot.sound |
| C161 | `DK.C161_new_partial` | propext, Quot.sound |
| C162 | `DK.C162_fails` | propext, Quot.sound |
| C162 | `DK.C162_end_partial` | propext, Quot.sound |
| C163 | `DK.C163_fails` | none |
| C163 | `DK.C163_restored_partial` | propext, Classical.choice, Quot.sound |
| C164 | `DK.C164_fails` | propext, Classical.choice, Quot.sound |
| C164 | `DK.C164_program_partial` | propext, Classical.choice, Quot.sound |
| C164 | `DK.C164_callees_partial` | propext, Classical.choice, Quot.sound |
| C165 | `DK.C165_fails` | propext, Classical.choice, Quot.sound |
| C165 | `DK.C165_change` | propext, Classical.choice, Quot.sound |
| C165 | `DK.C165_inlined_partial` | propext, Classical.choice, Quot.sound |
| C166 | `DK.C166_fails` | propext, Classical.choice, Quot.sound |
| C166 | `DK.C166_no_phis_partial` | propext, Classical.choice, Quot.sound |
| C167 | `DK.C167_fails` | propext, Quot.sound |
| C167 | `DK.C167_more_patterns_partial` | propext, Quot.sound |
| C168 | `DK.C168_same` | propext, Classical.choice, Quot.sound |
| C169 | `DK.C169_fails` | propext, Quot.sound |
| C169 | `DK.C169_fails_arguments` | propext, Quot.sound |
| C169 | `DK.C169_fails_size` | propext, Quot.sound |
| C169 | `DK.C169_valid_partial` | propext, Classical.choice, Quot.sound |
| C170 | `DK.C170_fails` | propext, Quot.sound |
| C170 | `DK.C170_after_first_partial` | propext, Classical.choice, Quot.sound |
| C171 | `DK.C171_missing` | propext, Quot.sound |
| C172 | `DK.C172_fails` | propext, Quot.sound |
| C172 | `DK.C172_no_return_partial` | propext, Quot.sound |
| C173 | `DK.C173_fails` | propext |
| C173 | `DK.C173_semicolon_partial` | propext, Quot.sound |
| C174 | `DK.C174_fails` | propext, Classical.choice, Quot.sound |
| C174 | `DK.C174_present_partial` | propext, Classical.choice, Quot.sound |
| C175 | `DK.C175_fails` | propext, Classical.choice, Quot.sound |
| C175 | `DK.C175_fails_equal` | propext, Classical.choice, Quot.sound |
| C175 | `DK.C175_no_outputs_partial` | propext, Classical.choice, Quot.sound |
| C176 | `DK.C176_fails` | propext, Classical.choice, Quot.sound |
| C176 | `DK.C176_different_partial` | propext, Classical.choice, Quot.sound |
| C176 | `DK.C176_statements_partial` | propext, Classical.choice, Quot.sound |
| C177 | `DK.C177_fails` | propext, Classical.choice, Quot.sound |
| C177 | `DK.C177_digits_partial` | propext, Classical.choice, Quot.sound |
| C178 | `DK.C178_known` | propext, Quot.sound |
| C179 | `DK.C179_fails` | propext |
| C179 | `DK.C179_right_partial` | propext, Classical.choice, Quot.sound |
| C179 | `DK.C179_reported_partial` | propext, Classical.choice, Quot.sound |
| C180 | `DK.C180_own_text` | propext, Classical.choice, Quot.sound |
| C181 | `DK.C181_fails` | propext, Classical.choice, Quot.sound |
| C181 | `DK.C181_full_diff_partial` | propext, Classical.choice, Quot.sound |
| C181 | `DK.C181_equal_partial` | propext, Classical.choice, Quot.sound |
| C182 | `DK.C182_fails` | propext, Classical.choice, Quot.sound |
| C182 | `DK.C182_functions_partial` | propext, Classical.choice, Quot.sound |
| C182 | `DK.C182_exception_partial` | propext, Classical.choice, Quot.sound |
| C183 | `DK.C183_every_line` | propext, Classical.choice, Quot.sound |
| C183 | `DK.C183_changes` | propext, Classical.choice, Quot.sound |
| C183 | `DK.C183_calls` | propext, Classical.choice, Quot.sound |
| C184 | `DK.C184_fails` | propext, Classical.choice, Quot.sound |
| C184 | `DK.C184_fails_noinfo` | propext, Classical.choice, Quot.sound |
| C184 | `DK.C184_shown_partial` | propext, Classical.choice, Quot.sound |
| C184 | `DK.C184_only_partial` | propext, Classical.choice, Quot.sound |
| C184 | `DK.C184_off_partial` | propext, Classical.choice, Quot.sound |
| C184 | `DK.C184_names_repeat` | propext, Classical.choice, Quot.sound |
| C185 | `DK.C185_right_files` | propext, Classical.choice, Quot.sound |
| C185 | `DK.C185_shown` | propext, Classical.choice, Quot.sound |
| C185 | `DK.C185_answers` | propext, Quot.sound |
| C186 | `DK.C186_fails` | propext |
| C186 | `DK.C186_opened_partial` | propext, Classical.choice, Quot.sound |
| C187 | `DK.C187_fails` | propext, Quot.sound |
| C187 | `DK.C187_outcome_partial` | propext, Classical.choice, Quot.sound |
| C187 | `DK.C187_inverse_partial` | propext, Classical.choice, Quot.sound |
| C187 | `DK.C187_strict_partial` | propext, Classical.choice, Quot.sound |
| C188 | `DK.C188_fails` | propext |
| C188 | `DK.C188_fails_named` | propext |
| C188 | `DK.C188_fails_global` | propext |
| C188 | `DK.C188_type_partial` | propext, Quot.sound |
| C189 | `DK.C189_fails` | propext |
| C189 | `DK.C189_fails_crash` | propext |
| C189 | `DK.C189_same_partial` | propext, Classical.choice, Quot.sound |
| C189 | `DK.C189_request_partial` | propext, Quot.sound |
| C190 | `DK.C190_passes` | propext, Quot.sound |
| C190 | `DK.C190_result` | propext, Quot.sound |
| C191 | `DK.C191_fails` | propext |
| C191 | `DK.C191_fails_written` | propext |
| C191 | `DK.C191_size_partial` | propext, Classical.choice, Quot.sound |
| C191 | `DK.C191_only_partial` | propext, Classical.choice, Quot.sound |
| C191 | `DK.C191_accepted_partial` | propext, Classical.choice, Quot.sound |
| C192 | `DK.C192_fails` | propext |
| C192 | `DK.C192_fails_result` | propext |
| C192 | `DK.C192_fails_function` | propext |
| C192 | `DK.C192_call_partial` | propext, Quot.sound |
| C192 | `DK.C192_function_partial` | propext |
| C193 | `DK.C193_fails` | propext, Quot.sound |
| C193 | `DK.C193_fails_operation` | propext, Quot.sound |
| C193 | `DK.C193_fails_cast` | propext, Quot.sound |
| C193 | `DK.C193_same_partial` | propext, Quot.sound |
| C193 | `DK.C193_value_partial` | propext, Quot.sound |
| C193 | `DK.C193_self` | propext, Quot.sound |
| C193 | `DK.C193_cast` | propext, Quot.sound |
| C194 | `DK.C194_fails` | propext |
| C194 | `DK.C194_listing_partial` | propext, Quot.sound |
| C195 | `DK.C195_fails` | propext, Quot.sound |
| C195 | `DK.C195_fails_missing` | propext, Quot.sound |
| C195 | `DK.C195_rows_partial` | propext, Quot.sound |
| C195 | `DK.C195_lines_partial` | propext, Quot.sound |
| C195 | `DK.C195_none` | propext, Quot.sound |
| C196 | `DK.C196_fails` | propext |
| C196 | `DK.C196_safe` | propext, Classical.choice, Quot.sound |
| C196 | `DK.C196_kept` | propext, Classical.choice, Quot.sound |
| C196 | `DK.C196_reachable_partial` | propext, Classical.choice, Quot.sound |
| C197 | `DK.C197_fails` | propext, Quot.sound |
| C197 | `DK.C197_command_partial` | propext, Quot.sound |
| C198 | `DK.C198_fails` | propext, Quot.sound |
| C198 | `DK.C198_fails_long` | propext, Classical.choice, Quot.sound |
| C198 | `DK.C198_blocks_partial` | propext, Classical.choice, Quot.sound |
| C198 | `DK.C198_return_partial` | propext, Classical.choice, Quot.sound |
| C198 | `DK.C198_both` | propext, Classical.choice, Quot.sound |
| C198 | `DK.C198_others` | propext, Quot.sound |
| C199 | `DK.C199_fails` | propext, Quot.sound |
| C199 | `DK.C199_operands_partial` | propext, Classical.choice, Quot.sound |
| C199 | `DK.C199_stores` | propext, Classical.choice, Quot.sound |
| C199 | `DK.C199_only` | propext, Quot.sound |
| C199 | `DK.C199_ends` | propext, Classical.choice, Quot.sound |
| C200 | `DK.C200_fails` | propext, Quot.sound |
| C200 | `DK.C200_reached_partial` | propext, Quot.sound |
| C200 | `DK.C200_void_partial` | propext, Quot.sound |
| C200 | `DK.C200_ends` | propext, Classical.choice, Quot.sound |
| C201 | `DK.C201_fails` | propext, Classical.choice, Quot.sound |
| C201 | `DK.C201_fails_switch` | propext, Classical.choice, Quot.sound |
| C201 | `DK.C201_found_partial` | propext, Classical.choice, Quot.sound |
| C201 | `DK.C201_kept_partial` | propext, Classical.choice, Quot.sound |
| C201 | `DK.C201_ends` | propext, Classical.choice, Quot.sound |
| C202 | `DK.C202_fails` | propext, Quot.sound |
| C202 | `DK.C202_entry_partial` | propext, Quot.sound |
| C203 | `DK.C203_phis` | propext, Quot.sound |
| C204 | `DK.C204_fails` | propext, Classical.choice, Quot.sound |
| C204 | `DK.C204_exponential` | propext, Classical.choice, Quot.sound |
| C204 | `DK.C204_once_partial` | propext, Classical.choice, Quot.sound |
