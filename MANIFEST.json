{
 "claims": [
  {
   "property": "C04",
   "status": "proved",
   "theorems": [
    "DK.C04_reported_is_reachable"
   ],
   "note": ""
  },
  {
   "property": "C05",
   "status": "partial",
   "theorems": [
    "DK.C05_fails",
    "DK.C05_strong_dependencies_found_partial",
    "DK.C05_discovered_iff_reachable"
   ],
   "note": "The code violates the full statement (C05_fails): a function first met through a weak call is never reported through a later strong call. Proved: functions entered only by strong calls are reported; everything reachable is discovered."
  },
  {
   "property": "C06",
   "status": "proved",
   "theorems": [
    "DK.C06_callstack_is_call_path"
   ],
   "note": ""
  },
  {
   "property": "C07",
   "status": "proved",
   "theorems": [
    "DK.C07_search_terminates",
    "DK.C07_search_succeeds",
    "DK.C07_exponential_blowup"
   ],
   "note": ""
  },
  {
   "property": "C09",
   "status": "partial",
   "theorems": [
    "DK.C09_no_function_lost",
    "DK.C09_merge_decision",
    "DK.C09_merge_idempotent",
    "DK.C09_verdicts_fails",
    "DK.C09_definite_verdicts_kept_partial"
   ],
   "note": "No function is lost and the merge decision is characterised exactly. The claim that definite verdicts are never replaced is false of the code (C09_verdicts_fails); proved when the new result has no more calls on either side."
  },
  {
   "property": "C10",
   "status": "partial",
   "theorems": [
    "DK.C10_fails",
    "DK.C10_equal_functions_recorded_partial"
   ],
   "note": "The code violates the statement: names are never removed from the set (C10_fails). Proved: the set always contains the names of all equal functions."
  },
  {
   "property": "C11",
   "status": "partial",
   "theorems": [
    "DK.C11_fails",
    "DK.C11_fails_shared_key",
    "DK.C11_no_variants_left_partial"
   ],
   "note": "The code violates the full statement: a called variant without a result, or two results sharing a key, raise KeyError (C11_fails, C11_fails_shared_key). Proved for well-formed engine outputs."
  },
  {
   "property": "C12",
   "status": "proved",
   "theorems": [
    "DK.C12_verdicts_any_output",
    "DK.C12_verdicts_preserved",
    "DK.C12_calls_preserved"
   ],
   "note": ""
  },
  {
   "property": "C13",
   "status": "proved",
   "theorems": [
    "DK.C13_uncachable_iff"
   ],
   "note": ""
  },
  {
   "property": "C61",
   "status": "partial",
   "theorems": [
    "DK.C61_fails",
    "DK.C61_reset_iff_partial"
   ],
   "note": "The code violates the statement (C61_fails): resolving one assumed-equal function makes everything it blocked cachable, even if another assumed-equal function still blocks it. Proved: the exact condition under which merging makes a function cachable again."
  },
  {
   "property": "C08",
   "status": "proved",
   "theorems": [
    "DK.C08_exactly_interesting_differences"
   ],
   "note": ""
  },
  {
   "property": "C58",
   "status": "proved",
   "theorems": [
    "DK.C58_import_complete"
   ],
   "note": ""
  },
  {
   "property": "C63",
   "status": "partial",
   "theorems": [
    "DK.C63_fails",
    "DK.C63_results_kept_partial",
    "DK.C63_last_wins"
   ],
   "note": "The code violates the statement (C63_fails): two results with the same key overwrite each other. Proved: every result whose key differs from all later ones is kept unchanged, and otherwise the last one is kept."
  },
  {
   "property": "C01",
   "status": "proved",
   "theorems": [
    "DK.C01_verdict_is_worst",
    "DK.C01_order_irrelevant",
    "DK.C01_never_lowered",
    "DK.C01_overall_verdict"
   ],
   "note": ""
  },
  {
   "property": "C02",
   "status": "partial",
   "theorems": [
    "DK.C02_fails",
    "DK.C02_statistics_partial"
   ],
   "note": "The code violates the statement: results with verdict none are in no class (C02_fails). Proved: the classes are disjoint and together with the none/assumed-equal results sum to the total."
  },
  {
   "property": "C14",
   "status": "proved",
   "theorems": [
    "DK.C14_written_exactly",
    "DK.C14_only_settled",
    "DK.C14_all_settled"
   ],
   "note": ""
  },
  {
   "property": "C15",
   "status": "partial",
   "theorems": [
    "DK.C15_fails",
    "DK.C15_absolute_paths_never_cached",
    "DK.C15_round_trip_partial",
    "DK.plain_relative_agree"
   ],
   "note": "The code violates the statement: for absolute paths the engine never finds the written entries (C15_absolute_paths_never_cached). Proved for the paths on which the two computations of the file name agree."
  },
  {
   "property": "C16",
   "status": "partial",
   "theorems": [
    "DK.C16_fails",
    "DK.C16_same_file_collision",
    "DK.C16_same_prefix_injective_partial",
    "DK.C16_reader_injective"
   ],
   "note": "The code violates the statement: all pairs of a file with itself share a cache file, and pairs with different common prefixes may collide. Proved for pairs with the same common prefix, and for the names computed by the engine."
  },
  {
   "property": "C17",
   "status": "proved",
   "theorems": [
    "DK.C17_linking_terminates"
   ],
   "note": ""
  },
  {
   "property": "C18",
   "status": "partial",
   "theorems": [
    "DK.C18_fails",
    "DK.C18_modules_restored_partial"
   ],
   "note": "The code violates the statement (C18_fails): if the engine fails after linking, the modules stay linked. Proved: restored whenever the verdict is not error, and the original file is never forgotten."
  },
  {
   "property": "C19",
   "status": "proved",
   "theorems": [
    "DK.C19_difference_reported",
    "DK.C19_no_difference_invented",
    "DK.C19_engine_failure"
   ],
   "note": ""
  },
  {
   "property": "C20",
   "status": "partial",
   "theorems": [
    "DK.C20_fails",
    "DK.C20_definite_verdict_partial"
   ],
   "note": "The code violates the statement with full diff (C20_fails). Proved without full diff, and with full diff if something differs."
  },
  {
   "property": "C62",
   "status": "partial",
   "theorems": [
    "DK.C62_fails",
    "DK.C62_own_entries_partial"
   ],
   "note": "The code violates the statement (C62_fails): differences with the same name overwrite each other. Proved when the names are distinct."
  },
  {
   "property": "C64",
   "status": "partial",
   "theorems": [
    "DK.C64_fails",
    "DK.C64_originals_not_overwritten_partial"
   ],
   "note": "The code violates the statement for paths containing -linked (C64_fails). Proved for all other paths."
  },
  {
   "property": "C65",
   "status": "partial",
   "theorems": [
    "DK.C65_fails",
    "DK.C65_known_results_kept_partial"
   ],
   "note": "The code violates the statement if the engine fails after linking (C65_fails). Proved for all other cases."
  },
  {
   "property": "C66",
   "status": "partial",
   "theorems": [
    "DK.C66_fails",
    "DK.C66_duplicates_partial"
   ],
   "note": "The code violates the statement (C66_fails). Proved that a line is written twice exactly if a function is given to the cache twice."
  },
  {
   "property": "C67",
   "status": "partial",
   "theorems": [
    "DK.C67_fails",
    "DK.C67_not_hidden_partial"
   ],
   "note": "The code violates the statement (C67_fails): a weak call found first hides the function. Proved for functions entered by strong calls only."
  },
  {
   "property": "C68",
   "status": "proved",
   "theorems": [
    "DK.C68_missing_definitions_linked"
   ],
   "note": "Engine, lookups and linker are arbitrary and may answer differently each time."
  },
  {
   "property": "C25",
   "status": "proved",
   "theorems": [
    "DK.C25_lookup_last_addition"
   ],
   "note": ""
  },
  {
   "property": "C26",
   "status": "proved",
   "theorems": [
    "DK.C26_save_load",
    "DK.C26_ungrouped_sysctl_not_loadable"
   ],
   "note": "For all snapshots the tool creates, with modules in the snapshot directory."
  },
  {
   "property": "C27",
   "status": "proved",
   "theorems": [
    "DK.C27_filter"
   ],
   "note": ""
  },
  {
   "property": "C69",
   "status": "partial",
   "theorems": [
    "DK.C69_fails",
    "DK.C69_written_in_snapshot_partial"
   ],
   "note": "The code violates the statement for paths that have the source directory as a textual prefix only (C69_fails). Proved for modules in the source directory."
  },
  {
   "property": "C70",
   "status": "proved",
   "theorems": [
    "DK.C70_generated_exactly"
   ],
   "note": ""
  },
  {
   "property": "C03",
   "status": "partial",
   "theorems": [
    "DK.C03_fails",
    "DK.C03_entries_partial"
   ],
   "note": "The code violates the statement (C03_fails): functions with the same name in two groups overwrite each other. Proved: every entry is the own result of a function of both snapshots, every function of both snapshots has an entry, and the entry is its own if the name is unique."
  },
  {
   "property": "C21",
   "status": "proved",
   "theorems": [
    "DK.C21_compared_exactly",
    "DK.C21_skipped_and_unknown",
    "DK.logged_same"
   ],
   "note": ""
  },
  {
   "property": "C22",
   "status": "partial",
   "theorems": [
    "DK.C22_fails",
    "DK.C22_filter_partial"
   ],
   "note": "The code violates the statement (C22_fails): with a regex filter failed comparisons are reported as equal. Proved: the exact effect of the filter."
  },
  {
   "property": "C23",
   "status": "partial",
   "theorems": [
    "DK.C23_fails",
    "DK.C23_graph_complete_partial"
   ],
   "note": "The code violates the statement (C23_fails): a function without a module at the end removes the graph. Proved if all functions have modules and are in one group."
  },
  {
   "property": "C24",
   "status": "proved",
   "theorems": [
    "DK.C24_fresh_output_dir"
   ],
   "note": ""
  },
  {
   "property": "C55",
   "status": "proved",
   "theorems": [
    "DK.C55_yaml_exact",
    "DK.C55_yaml_output"
   ],
   "note": ""
  },
  {
   "property": "C71",
   "status": "partial",
   "theorems": [
    "DK.C71_fails",
    "DK.C71_mentioned_partial"
   ],
   "note": "The code violates the statement (C71_fails): timeouts are not mentioned, and with full diff neither are unknown results and errors. Proved for all other cases."
  },
  {
   "property": "C72",
   "status": "partial",
   "theorems": [
    "DK.C72_fails",
    "DK.C72_aborts_partial"
   ],
   "note": "The code violates the statement (C72_fails): with a regex filter an unknown function aborts the comparison. Proved without a regex filter."
  },
  {
   "property": "C73",
   "status": "partial",
   "theorems": [
    "DK.C73_fails",
    "DK.C73_tool_partial"
   ],
   "note": "The code violates the statement (C73_fails): the tool is only asked about differences that are not functions. Proved: where each verdict comes from."
  },
  {
   "property": "C74",
   "status": "proved",
   "theorems": [
    "DK.C74_reuse"
   ],
   "note": ""
  },
  {
   "property": "C56",
   "status": "partial",
   "theorems": [
    "DK.C56_fails",
    "DK.C56_symbols_partial"
   ],
   "note": "The code violates the statement (C56_fails): a type after a macro or type is paired with that entry. Proved for types that follow functions."
  },
  {
   "property": "C75",
   "status": "partial",
   "theorems": [
    "DK.C75_fails",
    "DK.C75_definitions_partial"
   ],
   "note": "The code violates the statement (C75_fails): functions in new call stacks only are not defined. Proved for the other functions, for types, and that nothing else is defined."
  },
  {
   "property": "C76",
   "status": "partial",
   "theorems": [
    "DK.C76_fails",
    "DK.C76_paths_partial",
    "DK.C76_output_partial"
   ],
   "note": "The code violates the statement (C76_fails): every occurrence of the directory is removed from the path. Proved if it occurs once."
  },
  {
   "property": "C77",
   "status": "partial",
   "theorems": [
    "DK.C77_fails",
    "DK.C77_fails_zero",
    "DK.C77_endLine_partial"
   ],
   "note": "The code violates the statement (C77_fails, C77_fails_zero): start lines outside the file. Proved for lines of the file."
  },
  {
   "property": "C28",
   "status": "partial",
   "theorems": [
    "DK.C28_fails",
    "DK.C28_unused_returns_ignored",
    "DK.C28_patterns_partial"
   ],
   "note": "The code violates the statement (C28_fails): the option for unused-returns has no effect. Proved for the twelve patterns."
  },
  {
   "property": "C29",
   "status": "partial",
   "theorems": [
    "DK.C29_fails",
    "DK.C29_fails_extension",
    "DK.C29_fails_unreadable",
    "DK.C29_loading_partial"
   ],
   "note": "The code violates the statement (C29_fails and others): rejected patterns are kept with the warning policy. Proved with the error policy; the effect of the warning policy is characterised."
  },
  {
   "property": "C78",
   "status": "proved",
   "theorems": [
    "DK.C78_same_patterns"
   ],
   "note": ""
  },
  {
   "property": "C30",
   "status": "proved",
   "theorems": [
    "DK.C30_line_numbers"
   ],
   "note": ""
  },
  {
   "property": "C31",
   "status": "partial",
   "theorems": [
    "DK.C31_fails",
    "DK.C31_extraction_partial"
   ],
   "note": "The code violates the statement (C31_fails): start lines outside the file raise. Proved for lines of the files."
  },
  {
   "property": "C79",
   "status": "partial",
   "theorems": [
    "DK.C79_fails",
    "DK.C79_fails_error",
    "DK.C79_context_diff_partial"
   ],
   "note": "The code violates the statement (C79_fails, C79_fails_error): source lines that consist of numbers are changed or raise. Proved for the others."
  },
  {
   "property": "C36",
   "status": "partial",
   "theorems": [
    "DK.C36_fails",
    "DK.C36_restored_partial"
   ],
   "note": "The code violates the statement (C36_fails): headers that already contain a generated text are changed. Proved for the others, after any number of repeated changes."
  },
  {
   "property": "C38",
   "status": "proved",
   "theorems": [
    "DK.C38_names"
   ],
   "note": ""
  },
  {
   "property": "C50",
   "status": "partial",
   "theorems": [
    "DK.C50_fails",
    "DK.C50_fails_blank",
    "DK.C50_arguments_partial"
   ],
   "note": "The code violates the statement (C50_fails, C50_fails_blank): no argument, or an argument of blanks. Proved for the other calls."
  },
  {
   "property": "C51",
   "status": "partial",
   "theorems": [
    "DK.C51_fails",
    "DK.C51_fails_list",
    "DK.C51_fails_component",
    "DK.C51_sysctl_partial"
   ],
   "note": "The code violates the statement: empty names, names written as lists, repeated components. Proved for the others."
  },
  {
   "property": "C60",
   "status": "proved",
   "theorems": [
    "DK.C60_replace"
   ],
   "note": ""
  },
  {
   "property": "C80",
   "status": "partial",
   "theorems": [
    "DK.C80_fails",
    "DK.C80_missed",
    "DK.C80_terminates_partial"
   ],
   "note": "The code violates the statement (C80_fails): it loops forever on a longer name that ends with the parameter. Termination proved for the other bodies."
  },
  {
   "property": "C32",
   "status": "partial",
   "theorems": [
    "DK.C32_fails",
    "DK.C32_fails_script",
    "DK.C32_fails_output",
    "DK.C32_transparent_partial"
   ],
   "note": "The exit status of a failing compiler is replaced by 1, the script always exits with 0, and a joined output option is overwritten by the LLVM step. The rest is proved."
  },
  {
   "property": "C33",
   "status": "partial",
   "theorems": [
    "DK.C33_fails",
    "DK.C33_fails_colon",
    "DK.C33_database_partial"
   ],
   "note": "Default outputs are not recorded and paths with colons are not read back. Proved for the other compile commands, over all sequences of runs."
  },
  {
   "property": "C34",
   "status": "partial",
   "theorems": [
    "DK.C34_fails",
    "DK.C34_candidates_partial",
    "DK.C34_found"
   ],
   "note": "The sort keys are wrong for names starting with a character after the closing brace."
  },
  {
   "property": "C35",
   "status": "partial",
   "theorems": [
    "DK.C35_fails",
    "DK.C35_translation_partial",
    "DK.C35_no_source"
   ],
   "note": "Quoted arguments with spaces are broken apart. Proved for commands without such arguments."
  },
  {
   "property": "C37",
   "status": "partial",
   "theorems": [
    "DK.C37_fails",
    "DK.C37_fails_zero",
    "DK.C37_same_module",
    "DK.C37_found_partial"
   ],
   "note": "The finder of a single file does not check definitions, and the limit 0 is not checked."
  },
  {
   "property": "C57",
   "status": "proved",
   "theorems": [
    "DK.C57_solver"
   ],
   "note": ""
  },
  {
   "property": "C81",
   "status": "partial",
   "theorems": [
    "DK.C81_fails",
    "DK.C81_fails_characters",
    "DK.C81_kernel_partial"
   ],
   "note": "Two of the finders return a text or None, over which the caller iterates."
  },
  {
   "property": "C43",
   "status": "partial",
   "theorems": [
    "DK.C43_fails",
    "DK.C43_equal_partial",
    "DK.C43_outcome_partial"
   ],
   "note": "false because operators of constant expressions are not compared; proved (lockstep simulation, any machine) for functions without constant expressions"
  },
  {
   "property": "C44",
   "status": "proved",
   "theorems": [
    "DK.C44_copy",
    "DK.C44_refl"
   ],
   "note": "for every function the IR verifier accepts (distinct blocks, existing targets)"
  },
  {
   "property": "C39",
   "status": "proved",
   "theorems": [
    "DK.C39_declarations",
    "DK.C39_cached",
    "DK.C39_missing"
   ],
   "note": "for every comparator"
  },
  {
   "property": "C40",
   "status": "proved",
   "theorems": [
    "DK.C40_verdicts",
    "DK.C40_equal",
    "DK.C40_exhausted"
   ],
   "note": "for every comparator, inlining and simplification (parameters of the model)"
  },
  {
   "property": "C82",
   "status": "partial",
   "theorems": [
    "DK.C82_fails",
    "DK.C82_dropped_partial",
    "DK.C82_recorded_partial"
   ],
   "note": "false because results of inlined pairs are erased although other functions rely on them; proved without inlining, and up to dropped pairs with it"
  },
  {
   "property": "C83",
   "status": "partial",
   "theorems": [
    "DK.C83_fails_abort",
    "DK.C83_fails_diverge",
    "DK.C83_ends_partial"
   ],
   "note": "false for recursive functions that are inlined; proved when no call is inlined"
  },
  {
   "property": "C48",
   "status": "proved",
   "theorems": [
    "DK.C48_exact",
    "DK.C48_ends"
   ],
   "note": "for modules in which the called operand of a call is one of its operands (as in LLVM)"
  },
  {
   "property": "C49",
   "status": "partial",
   "theorems": [
    "DK.C49_fails",
    "DK.C49_fails_invoke",
    "DK.C49_noeffect_partial",
    "DK.C49_effect",
    "DK.C49_ends"
   ],
   "note": "false because atomic read-modify-write instructions and invokes are not looked at; proved for programs without them"
  },
  {
   "property": "C47",
   "status": "partial",
   "theorems": [
    "DK.C47_fails",
    "DK.C47_slice_partial",
    "DK.C47_order",
    "DK.C47_only",
    "DK.C47_ends"
   ],
   "note": "false because a cast after an allocation is kept without its operands; proved when such casts cast the result of the allocation"
  },
  {
   "property": "C59",
   "status": "partial",
   "theorems": [
    "DK.C59_fails",
    "DK.C59_fails_limit",
    "DK.C59_affected_partial",
    "DK.C59_own_block"
   ],
   "note": "false for the block of the branch itself (loops), and for functions with 32 and more blocks because the reachability test of LLVM gives up; exact otherwise"
  },
  {
   "property": "C84",
   "status": "proved",
   "theorems": [
    "DK.C84_exact",
    "DK.C84_ends"
   ],
   "note": ""
  },
  {
   "property": "C85",
   "status": "partial",
   "theorems": [
    "DK.C85_fails",
    "DK.C85_fails_memory",
    "DK.C85_fails_nested",
    "DK.C85_forward_partial",
    "DK.C85_control_partial",
    "DK.C85_store_partial",
    "DK.C85_only_partial"
   ],
   "note": "false for values carried by loops, for stores and branches inside affected blocks; proved for operands defined before their users and for branches and stores outside affected blocks"
  },
  {
   "property": "C52",
   "status": "partial",
   "theorems": [
    "DK.C52_fails",
    "DK.C52_fails_junk",
    "DK.C52_users_partial"
   ],
   "note": "false because the test of the bound is inverted: indices are never compared, or compared with what is behind the list; proved that no user is missed when accesses have no more indices than the field"
  },
  {
   "property": "C86",
   "status": "proved",
   "theorems": [
    "DK.C86_param",
    "DK.C86_find"
   ],
   "note": "variables without initialisers are left out"
  },
  {
   "property": "C41",
   "status": "partial",
   "theorems": [
    "DK.C41_fails",
    "DK.C41_reorder_partial"
   ],
   "note": "false for phis that are used first as operands of the operation: loops with different steps are found equal; proved for all widths and any control flow without phis, without casts and negations, for chains within a block that have not only constants"
  },
  {
   "property": "C42",
   "status": "partial",
   "theorems": [
    "DK.C42_fails",
    "DK.C42_inverse_partial",
    "DK.C42_phis_partial",
    "DK.C42_predicates"
   ],
   "note": "false for negations of negations; proved for all functions without phis, casts and negations, and for functions with phis when all blocks are reached and phis that are used by phis are used by other instructions, too; inverse predicates proved for all widths and floating-point numbers"
  },
  {
   "property": "C87",
   "status": "partial",
   "theorems": [
    "DK.C87_fails",
    "DK.C87_same_flow_partial"
   ],
   "note": "false: blocks that do not correspond are accepted, and successors of visited left blocks are not compared; proved for functions with the same control flow"
  },
  {
   "property": "C88",
   "status": "partial",
   "theorems": [
    "DK.C88_fails",
    "DK.C88_no_arithmetic_partial"
   ],
   "note": "false: signed and unsigned extensions are found equal; proved that results of skipped casts are not used by arithmetic operations, also through other casts"
  },
  {
   "property": "C89",
   "status": "partial",
   "theorems": [
    "DK.C89_fails",
    "DK.C89_without_inverse_partial"
   ],
   "note": "false with the pattern for inverse conditions: successors remain swapped; proved for all other patterns"
  },
  {
   "property": "C45",
   "status": "partial",
   "theorems": [
    "DK.C45_fails",
    "DK.C45_fails_store",
    "DK.C45_calm_partial"
   ],
   "note": "false: calls in the opposite order are found equal, and a store is overlooked after a dependency was found; proved for functions with one block, at most one effect and no later read of memory, without loads or without stores"
  },
  {
   "property": "C46",
   "status": "partial",
   "theorems": [
    "DK.C46_fails",
    "DK.C46_fails_atomic",
    "DK.C46_same_base_partial",
    "DK.C46_store_partial",
    "DK.C46_symmetric",
    "DK.C46_reflexive"
   ],
   "note": "false for address computations on top of each other, and because atomic read-modify-write instructions do not count as stores; proved for pointers that start at the same base with the same type"
  },
  {
   "property": "C90",
   "status": "partial",
   "theorems": [
    "DK.C90_fails",
    "DK.C90_tail_partial",
    "DK.C90_ends",
    "DK.C90_replacement"
   ],
   "note": "false for loops: what follows the load in its own block is not looked at; proved for any control flow when nothing there stores to the pointer, without atomic instructions and nested address computations"
  },
  {
   "property": "C53",
   "status": "proved",
   "theorems": [
    "DK.C53_compared",
    "DK.C53_differing",
    "DK.C53_sorted"
   ],
   "note": ""
  },
  {
   "property": "C54",
   "status": "proved",
   "theorems": [
    "DK.C54_indices",
    "DK.C54_written",
    "DK.C54_repeated"
   ],
   "note": "for files with distinct names; proved that the files which DiffKemp writes have them, and that the claim fails for other files"
  },
  {
   "property": "C91",
   "status": "proved",
   "theorems": [
    "DK.C91_pages",
    "DK.C91_reachable",
    "DK.C91_repeated"
   ],
   "note": "for files with distinct names, which DiffKemp's are (C54_written); reachability for names that are not empty"
  },
  {
   "property": "C92",
   "status": "partial",
   "theorems": [
    "DK.C92_fails",
    "DK.C92_fails_crash",
    "DK.C92_complete_partial",
    "DK.C92_ends"
   ],
   "note": "false: calls at the end of a longer new call stack are not displayed, and a shorter one makes the viewer crash; proved when the last calls of the stacks belong to no earlier calls of the other one"
  },
  {
   "property": "C93",
   "status": "proved",
   "theorems": [
    "DK.C93_listing"
   ],
   "note": ""
  },
  {
   "property": "C94",
   "status": "partial",
   "theorems": [
    "DK.C94_fails",
    "DK.C94_calls_partial",
    "DK.C94_last"
   ],
   "note": "false for functions that are in one of the call stacks only; proved for functions in both"
  },
  {
   "property": "C95",
   "status": "partial",
   "theorems": [
    "DK.C95_fails",
    "DK.C95_partial"
   ],
   "note": "false: uses of the result are replaced by the source instead of the destination; proved when the results are not used"
  },
  {
   "property": "C96",
   "status": "partial",
   "theorems": [
    "DK.C96_fails",
    "DK.C96_definition_lost",
    "DK.C96_partial"
   ],
   "note": "false: functions with different bodies are merged, and a declaration may replace a definition; proved when merged functions agree up to numbers and names have one number"
  },
  {
   "property": "C97",
   "status": "partial",
   "theorems": [
    "DK.C97_fails",
    "DK.C97_partial"
   ],
   "note": "false for a call that passes the called function to itself: it is erased twice; proved without such calls, for functions without a suffix; LLVM's simplification of the new function is not modelled"
  },
  {
   "property": "C98",
   "status": "partial",
   "theorems": [
    "DK.C98_fails",
    "DK.C98_collision",
    "DK.C98_partial"
   ],
   "note": "false for calls with a variable number of arguments and for types with equal hashes; proved for plain types"
  },
  {
   "property": "C99",
   "status": "partial",
   "theorems": [
    "DK.C99_fails",
    "DK.C99_partial"
   ],
   "note": "false: `sprintf` writes to memory; proved without it"
  },
  {
   "property": "C100",
   "status": "partial",
   "theorems": [
    "DK.C100_fails",
    "DK.C100_fails_print",
    "DK.C100_fails_const",
    "DK.C100_partial",
    "DK.C100_names_partial"
   ],
   "note": "false: names that differ in a number at the end, all functions that print, and a constant and a variable of the same name are found equal; proved up to these, without constant expressions"
  },
  {
   "property": "C101",
   "status": "proved",
   "theorems": [
    "DK.C101_ends",
    "DK.C101_refl"
   ],
   "note": "reflexivity for modules in which only constants have no name"
  },
  {
   "property": "C102",
   "status": "partial",
   "theorems": [
    "DK.C102_fails",
    "DK.C102_fails_empty",
    "DK.C102_partial"
   ],
   "note": "false: constants are matched by value only; proved that some macro or enumerator changed from the one value to the other"
  },
  {
   "property": "C103",
   "status": "partial",
   "theorems": [
    "DK.C103_fails",
    "DK.C103_fails_two",
    "DK.C103_fails_negative",
    "DK.C103_partial"
   ],
   "note": "false for macros defined in files, for two macros with the same old value and for negative enumerators; proved otherwise"
  },
  {
   "property": "C104",
   "status": "partial",
   "theorems": [
    "DK.C104_fails",
    "DK.C104_fails_callee",
    "DK.C104_fails_array",
    "DK.C104_plain_partial",
    "DK.C104_first_partial"
   ],
   "note": "false: once an argument is accepted because of the source nothing else is compared; proved for calls without such arguments, and for the arguments before the first such argument"
  },
  {
   "property": "C105",
   "status": "partial",
   "theorems": [
    "DK.C105_fails",
    "DK.C105_memset_partial",
    "DK.C105_alloc_partial"
   ],
   "note": "false: flags of an allocation are not compared; proved for memset and for the size of an allocation"
  },
  {
   "property": "C106",
   "status": "partial",
   "theorems": [
    "DK.C106_fails",
    "DK.C106_partial"
   ],
   "note": "false if the second call has the additional argument: values are looked up on the wrong side; proved if the first call has it"
  },
  {
   "property": "C107",
   "status": "partial",
   "theorems": [
    "DK.C107_fails",
    "DK.C107_fails_number",
    "DK.C107_complete_partial",
    "DK.C107_sound_partial",
    "DK.C107_ends"
   ],
   "note": "false for names of one letter at the end of a text and for numbers followed by letters; proved without these; names composed by ## are left out (C80)"
  },
  {
   "property": "C108",
   "status": "partial",
   "theorems": [
    "DK.C108_fails",
    "DK.C108_complete_partial",
    "DK.C108_before_partial",
    "DK.C108_sound_partial",
    "DK.C108_ends"
   ],
   "note": "false as C107; proved without such texts, for any earlier queries"
  },
  {
   "property": "C109",
   "status": "partial",
   "theorems": [
    "DK.C109_fails",
    "DK.C109_fails_first",
    "DK.C109_fails_command_line",
    "DK.C109_once_partial",
    "DK.C109_ends"
   ],
   "note": "false: the first definition that is visited is used, also an #undef, and macros of the command line are not known; proved for macros that are defined once in a file"
  },
  {
   "property": "C110",
   "status": "partial",
   "theorems": [
    "DK.C110_fails",
    "DK.C110_partial"
   ],
   "note": "false: macros of the line before stay recorded after a query without a difference; proved after queries with a difference"
  },
  {
   "property": "C111",
   "status": "partial",
   "theorems": [
    "DK.C111_fails",
    "DK.C111_loads_partial"
   ],
   "note": "false: outputs of instruction patterns get no numbers, so that swapped outputs are overlooked; proved for loads related by value patterns"
  },
  {
   "property": "C112",
   "status": "partial",
   "theorems": [
    "DK.C112_fails",
    "DK.C112_ends_partial"
   ],
   "note": "false: a match in a later block is found again and again; proved for functions whose entry blocks do not jump to another one, with patterns that start with code"
  },
  {
   "property": "C113",
   "status": "partial",
   "theorems": [
    "DK.C113_fails",
    "DK.C113_occurs_partial",
    "DK.C113_unmarked_partial",
    "DK.C113_complete_partial"
   ],
   "note": "false: a failed comparison leaves a number behind that is given to a second value, which is then taken for the matched one; operations and operands proved for patterns without marked start; with a marked start for all operands except instructions after the start; completeness for patterns of one block"
  },
  {
   "property": "C114",
   "status": "partial",
   "theorems": [
    "DK.C114_fails",
    "DK.C114_contiguous_partial"
   ],
   "note": "false: a failed comparison with an instruction in between leaves numbers behind; proved for code without other instructions in between"
  },
  {
   "property": "C115",
   "status": "partial",
   "theorems": [
    "DK.C115_fails",
    "DK.C115_loading_partial"
   ],
   "note": "false: declared new sides and single returns without value crash; proved for files without these"
  },
  {
   "property": "C116",
   "status": "partial",
   "theorems": [
    "DK.C116_fails",
    "DK.C116_constants_partial"
   ],
   "note": "false: one-sided loads of different patterns are found equal; proved for operands of which one is constant"
  },
  {
   "property": "C117",
   "status": "partial",
   "theorems": [
    "DK.C117_fails",
    "DK.C117_constants_partial"
   ],
   "note": "false: any two globals that differ crash the comparison if a value pattern is about a global; proved for patterns of constants"
  },
  {
   "property": "C118",
   "status": "partial",
   "theorems": [
    "DK.C118_fails",
    "DK.C118_results_partial"
   ],
   "note": "false with patterns: numbers are given twice after a failed comparison; proved without patterns"
  },
  {
   "property": "C119",
   "status": "partial",
   "theorems": [
    "DK.C119_fails",
    "DK.C119_inputs_partial"
   ],
   "note": "false: an argument that gets its values only while the users of other arguments are compared is not compared; proved for patterns of one block each of whose arguments is used by the matched code of one side"
  },
  {
   "property": "C120",
   "status": "proved",
   "theorems": [
    "DK.C120_coverage"
   ],
   "note": "for the entry blocks; value patterns have names (ProperNames)"
  },
  {
   "property": "C121",
   "status": "partial",
   "theorems": [
    "DK.C121_fails",
    "DK.C121_round_trip_partial",
    "DK.C121_name_partial"
   ],
   "note": "false for members with explicit alignment; proved for structures without these, with bit fields"
  },
  {
   "property": "C122",
   "status": "partial",
   "theorems": [
    "DK.C122_fails",
    "DK.C122_names_partial",
    "DK.C122_inner_names_missed",
    "DK.C122_variable_first_index",
    "DK.C122_type_name"
   ],
   "note": "false: names are recorded for an unrelated structure of the instruction at the same position; proved if these access structures of the same name"
  },
  {
   "property": "C123",
   "status": "partial",
   "theorems": [
    "DK.C123_fails",
    "DK.C123_fails_element",
    "DK.C123_members_partial",
    "DK.C123_without_pattern",
    "DK.C123_variable_indices"
   ],
   "note": "false: different members at the same index, and different array elements; proved: same member or same index at each level"
  },
  {
   "property": "C124",
   "status": "partial",
   "theorems": [
    "DK.C124_fails",
    "DK.C124_fails_wide",
    "DK.C124_fails_shifted",
    "DK.C124_sound_partial",
    "DK.C124_symmetric"
   ],
   "note": "false: pointers inside accesses keep numbers, offsets are truncated, and accesses with different numbers of steps shift the numbers; proved without casts for pointers inside accesses that are used once, if one block has the accesses with more steps"
  },
  {
   "property": "C125",
   "status": "partial",
   "theorems": [
    "DK.C125_fails",
    "DK.C125_fails_prefix",
    "DK.C125_split_partial"
   ],
   "note": "false for an access in one step; proved for accesses with the same steps, or several steps of which the first ones differ"
  },
  {
   "property": "C126",
   "status": "partial",
   "theorems": [
    "DK.C126_fails",
    "DK.C126_fails_unions",
    "DK.C126_symmetric_partial"
   ],
   "note": "false for unions; proved for types without unions"
  },
  {
   "property": "C127",
   "status": "partial",
   "theorems": [
    "DK.C127_fails",
    "DK.C127_fails_arrays",
    "DK.C127_layout_partial"
   ],
   "note": "false for unions and with ignored casts; proved without these"
  },
  {
   "property": "C128",
   "status": "partial",
   "theorems": [
    "DK.C128_fails",
    "DK.C128_fails_union",
    "DK.C128_transitive_partial",
    "DK.C128_reflexive"
   ],
   "note": "transitivity is false for unions and with ignored casts; proved without these; reflexivity always"
  },
  {
   "property": "C129",
   "status": "partial",
   "theorems": [
    "DK.C129_fails",
    "DK.C129_fails_sign",
    "DK.C129_fails_wide",
    "DK.C129_constants_partial"
   ],
   "note": "false for negative constants of different widths; proved for the same width and for non-negative ones"
  },
  {
   "property": "C130",
   "status": "partial",
   "theorems": [
    "DK.C130_fails",
    "DK.C130_snapshot_partial"
   ],
   "note": "false: functions using an option whose data is a cast member of a variable are missing; proved for tables and patterns without the irregularities named in TidyModule and TidyPattern"
  },
  {
   "property": "C131",
   "status": "partial",
   "theorems": [
    "DK.C131_fails",
    "DK.C131_fails_unused",
    "DK.C131_total_partial"
   ],
   "note": "false: options without parent, options whose data is not used and options with too few names end the generation; proved when all options have tables and used data or are not supported"
  },
  {
   "property": "C132",
   "status": "partial",
   "theorems": [
    "DK.C132_fails",
    "DK.C132_entries_partial"
   ],
   "note": "false for casts of addresses of members; proved for tidy tables"
  },
  {
   "property": "C133",
   "status": "partial",
   "theorems": [
    "DK.C133_fails",
    "DK.C133_hierarchy_partial"
   ],
   "note": "false for child tables inside arrays of tables; proved for tidy tables"
  },
  {
   "property": "C134",
   "status": "partial",
   "theorems": [
    "DK.C134_fails",
    "DK.C134_fails_opt",
    "DK.C134_fails_tick",
    "DK.C134_current_partial"
   ],
   "note": "false: headers are not considered, a file remains without optimisations when opt failed, and a change within the same tick of the clock is overlooked; proved for the other histories"
  },
  {
   "property": "C135",
   "status": "partial",
   "theorems": [
    "DK.C135_fails",
    "DK.C135_current_partial"
   ],
   "note": "false after an interruption between compiling and linking; proved if failing builds change nothing or leave no linked file"
  },
  {
   "property": "C136",
   "status": "partial",
   "theorems": [
    "DK.C136_fails",
    "DK.C136_link_partial"
   ],
   "note": "false if the output is not an object; proved for objects"
  },
  {
   "property": "C137",
   "status": "partial",
   "theorems": [
    "DK.C137_fails",
    "DK.C137_commands_partial"
   ],
   "note": "false for sources whose name contains that of the module followed by .mod; proved otherwise"
  },
  {
   "property": "C138",
   "status": "partial",
   "theorems": [
    "DK.C138_fails",
    "DK.C138_fails_long",
    "DK.C138_fails_cached",
    "DK.C138_program_partial",
    "DK.C138_library_partial"
   ],
   "note": "false for the library: crashes and texts that exceed the buffer end the tool, modules loaded in advance raise TypeError; proved for the program of the engine in general, and for the library without these"
  },
  {
   "property": "C139",
   "status": "partial",
   "theorems": [
    "DK.C139_fails",
    "DK.C139_fails_order",
    "DK.C139_unused_partial",
    "DK.C139_converted_partial"
   ],
   "note": "false: loading in advance raises TypeError; even with the settings passed as a structure, slicing would come after the other passes; proved for modules that are not used, and without variables if the settings were passed as a structure"
  },
  {
   "property": "C140",
   "status": "proved",
   "theorems": [
    "DK.C140_modules"
   ],
   "note": ""
  },
  {
   "property": "C141",
   "status": "partial",
   "theorems": [
    "DK.C141_fails",
    "DK.C141_fails_declaration",
    "DK.C141_fails_suffix",
    "DK.C141_reported_partial",
    "DK.C141_only_partial"
   ],
   "note": "false for structures used only in functions, for forward declarations in other units and for types with suffixes; proved if one structure of the name is found and the old type has no suffix; nothing else is reported"
  },
  {
   "property": "C142",
   "status": "partial",
   "theorems": [
    "DK.C142_fails",
    "DK.C142_fails_number",
    "DK.C142_types_partial",
    "DK.C142_through_partial"
   ],
   "note": "false if a pointer is used twice or converted to a number; proved otherwise for accesses that do not begin with a cast"
  },
  {
   "property": "C143",
   "status": "partial",
   "theorems": [
    "DK.C143_fails",
    "DK.C143_fails_merged",
    "DK.C143_fails_declared",
    "DK.C143_code_partial",
    "DK.C143_same_partial"
   ],
   "note": "false for used variables whose names begin with __ksym, for functions with code whose names contain that of the assertions, and for declared kernel symbols; proved otherwise, with the exact replacement in general"
  },
  {
   "property": "C144",
   "status": "partial",
   "theorems": [
    "DK.C144_fails",
    "DK.C144_fails_nested",
    "DK.C144_named_partial",
    "DK.C144_same_partial"
   ],
   "note": "false for names that begin with anon and for nested anonymous structures; proved for other names and for structures without anonymous fields whose new name is free"
  },
  {
   "property": "C145",
   "status": "partial",
   "theorems": [
    "DK.C145_fails",
    "DK.C145_fails_outside",
    "DK.C145_fails_missing",
    "DK.C145_fails_spelling",
    "DK.C145_included_partial",
    "DK.C145_copied_partial"
   ],
   "note": "false for files that are in the snapshot directory before, directories whose names begin with that of the source directory, missing files and paths that are not normal; proved otherwise, for every order of copying"
  },
  {
   "property": "C146",
   "status": "partial",
   "theorems": [
    "DK.C146_fails",
    "DK.C146_fails_constant",
    "DK.C146_moved_partial",
    "DK.C146_constant_partial"
   ],
   "note": "false if the name of the directory occurs elsewhere or the line contains the word constant; proved otherwise"
  },
  {
   "property": "C147",
   "status": "partial",
   "theorems": [
    "DK.C147_fails",
    "DK.C147_fails_external",
    "DK.C147_found_partial",
    "DK.C147_function_partial",
    "DK.C147_global_partial"
   ],
   "note": "false for names with dots and for declared variables; proved for names without dots, variables defined or declared; definitions are found for all names"
  },
  {
   "property": "C148",
   "status": "partial",
   "theorems": [
    "DK.C148_fails",
    "DK.C148_fails_none",
    "DK.C148_fails_environment",
    "DK.C148_settings_partial",
    "DK.C148_calls_partial"
   ],
   "note": "false for options with commas, without options and for variables set before; proved otherwise, including the calls of the compiler"
  },
  {
   "property": "C149",
   "status": "partial",
   "theorems": [
    "DK.C149_fails",
    "DK.C149_fails_renamed",
    "DK.C149_kept_partial",
    "DK.C149_interrupted_partial"
   ],
   "note": "false for config.log.bak; proved for config.log"
  },
  {
   "property": "C150",
   "status": "proved",
   "theorems": [
    "DK.C150_command"
   ],
   "note": "for logs whose first line with a dollar is the invocation; C150_exception shows what happens otherwise"
  },
  {
   "property": "C151",
   "status": "partial",
   "theorems": [
    "DK.C151_fails",
    "DK.C151_names_partial",
    "DK.C151_read_partial"
   ],
   "note": "false for names that begin with other characters; proved for names of C; exact description of what is read"
  },
  {
   "property": "C152",
   "status": "partial",
   "theorems": [
    "DK.C152_fails",
    "DK.C152_classes_partial",
    "DK.C152_counts_partial",
    "DK.C152_no_graph"
   ],
   "note": "false if objects of different kinds share a name; proved otherwise; classes always add up"
  },
  {
   "property": "C153",
   "status": "partial",
   "theorems": [
    "DK.C153_fails",
    "DK.C153_fails_forever",
    "DK.C153_silent",
    "DK.C153_log_partial"
   ],
   "note": "false after a global variable that refers to itself: nothing is logged any more; proved for all other comparisons"
  },
  {
   "property": "C154",
   "status": "partial",
   "theorems": [
    "DK.C154_fails",
    "DK.C154_fails_element",
    "DK.C154_fails_name",
    "DK.C154_fails_member",
    "DK.C154_fails_deref",
    "DK.C154_names_partial"
   ],
   "note": "false (also crashes) for elements of arrays and nested members; proved for the values described by SimpleVal"
  },
  {
   "property": "C155",
   "status": "partial",
   "theorems": [
    "DK.C155_fails",
    "DK.C155_phis_partial"
   ],
   "note": "false for phis that are used only by phis, they are never compared; proved if every phi that is an incoming value is also used by another instruction"
  },
  {
   "property": "C156",
   "status": "partial",
   "theorems": [
    "DK.C156_fails",
    "DK.C156_fails_hash",
    "DK.C156_shown_partial",
    "DK.C156_encoded_partial"
   ],
   "note": "false for files outside of the snapshot and for names with special characters of addresses; proved otherwise, and for encoded addresses"
  },
  {
   "property": "C157",
   "status": "partial",
   "theorems": [
    "DK.C157_fails",
    "DK.C157_clean_partial"
   ],
   "note": "false for files outside of the snapshot, which are written over other files; proved otherwise"
  },
  {
   "property": "C158",
   "status": "partial",
   "theorems": [
    "DK.C158_fails",
    "DK.C158_fails_tmpfs",
    "DK.C158_fails_stale",
    "DK.C158_search_partial"
   ],
   "note": "false for kernels below directories whose names begin with tmp, for such directories in the kernel and with a database of an older state; proved otherwise for all sequences of searches"
  },
  {
   "property": "C159",
   "status": "partial",
   "theorems": [
    "DK.C159_fails",
    "DK.C159_module_partial"
   ],
   "note": "false for names of files with both dashes and underscores; proved otherwise; what is found always belongs to the module"
  },
  {
   "property": "C160",
   "status": "partial",
   "theorems": [
    "DK.C160_fails",
    "DK.C160_listed_partial"
   ],
   "note": "false for functions whose comparison has run out of time, which are counted but not listed; proved otherwise"
  },
  {
   "property": "C161",
   "status": "partial",
   "theorems": [
    "DK.C161_fails",
    "DK.C161_new_partial"
   ],
   "note": "false while an existing snapshot is deleted; proved for directories without a snapshot at all crash points"
  },
  {
   "property": "C162",
   "status": "partial",
   "theorems": [
    "DK.C162_fails",
    "DK.C162_end_partial"
   ],
   "note": "false: the old snapshot is deleted before the list of symbols is read; what is in the directory at the end is proved for all runs"
  },
  {
   "property": "C163",
   "status": "partial",
   "theorems": [
    "DK.C163_fails",
    "DK.C163_restored_partial"
   ],
   "note": "false for commands that stop early, for example with an empty list of symbols; proved that the next complete command restores the headers after any sequence of stopped commands"
  },
  {
   "property": "C164",
   "status": "partial",
   "theorems": [
    "DK.C164_fails",
    "DK.C164_program_partial",
    "DK.C164_callees_partial"
   ],
   "note": "false because phis used only by phis are not compared (C155); proved for programs with recursion and external functions whose compared bodies are of the kinds of C41, C42 or C155, without inlining and cache"
  },
  {
   "property": "C165",
   "status": "partial",
   "theorems": [
    "DK.C165_fails",
    "DK.C165_change",
    "DK.C165_inlined_partial"
   ],
   "note": "false: the result of functions that were inlined on both sides is erased although other functions rest on it (see C82); proved for runs that erase nothing, for arbitrary inliners that keep what the changed function does, and bodies of the kinds of C164"
  },
  {
   "property": "C166",
   "status": "partial",
   "theorems": [
    "DK.C166_fails",
    "DK.C166_no_phis_partial"
   ],
   "note": "false: a phi that is numbered by an undone comparison keeps its number, the next instruction gets the same one, so the result of a call is taken for the phi; proved without phis"
  },
  {
   "property": "C167",
   "status": "partial",
   "theorems": [
    "DK.C167_fails",
    "DK.C167_more_patterns_partial"
   ],
   "note": "false: an added cast is accepted without patterns but not with reordered operations; proved for added inverse conditions and relocations in all functions, and for added reordering in functions without casts and negations"
  },
  {
   "property": "C168",
   "status": "proved",
   "theorems": [
    "DK.C168_same"
   ],
   "note": "for all functions and machines"
  },
  {
   "property": "C169",
   "status": "partial",
   "theorems": [
    "DK.C169_fails",
    "DK.C169_fails_arguments",
    "DK.C169_fails_size",
    "DK.C169_valid_partial"
   ],
   "note": "false: the result of a call whose result is ignored is cast to void, superfluous arguments are passed to functions that do not take them, values of another size are bitcast; proved if arguments and results can be bitcast and there are not too many arguments"
  },
  {
   "property": "C170",
   "status": "partial",
   "theorems": [
    "DK.C170_fails",
    "DK.C170_after_first_partial"
   ],
   "note": "false for the first line of a file, for which nothing is found; proved for all later lines"
  },
  {
   "property": "C171",
   "status": "proved",
   "theorems": [
    "DK.C171_missing"
   ],
   "note": "for all files"
  },
  {
   "property": "C172",
   "status": "partial",
   "theorems": [
    "DK.C172_fails",
    "DK.C172_no_return_partial"
   ],
   "note": "false for return statements, which are extended up to a semicolon only; proved for other texts"
  },
  {
   "property": "C173",
   "status": "partial",
   "theorems": [
    "DK.C173_fails",
    "DK.C173_semicolon_partial"
   ],
   "note": "false for files that end inside a return statement; proved if there is a semicolon in the line or later"
  },
  {
   "property": "C174",
   "status": "partial",
   "theorems": [
    "DK.C174_fails",
    "DK.C174_present_partial"
   ],
   "note": "false: a single statement is taken without comparison; proved if there is a statement with the assembly, for statements without special characters"
  },
  {
   "property": "C175",
   "status": "partial",
   "theorems": [
    "DK.C175_fails",
    "DK.C175_fails_equal",
    "DK.C175_no_outputs_partial"
   ],
   "note": "false: outputs are counted, so that different operands are taken for the same macro and found equal; proved for statements without outputs and special characters"
  },
  {
   "property": "C176",
   "status": "partial",
   "theorems": [
    "DK.C176_fails",
    "DK.C176_different_partial",
    "DK.C176_statements_partial"
   ],
   "note": "false if the same assembly is found twice; proved for different templates"
  },
  {
   "property": "C177",
   "status": "partial",
   "theorems": [
    "DK.C177_fails",
    "DK.C177_digits_partial"
   ],
   "note": "false for operands from 10 on; proved for operands below 10"
  },
  {
   "property": "C178",
   "status": "proved",
   "theorems": [
    "DK.C178_known"
   ],
   "note": "the model of the pass and of the module; that compared functions are among those that may be called is given here as the set"
  },
  {
   "property": "C179",
   "status": "partial",
   "theorems": [
    "DK.C179_fails",
    "DK.C179_right_partial",
    "DK.C179_reported_partial"
   ],
   "note": "false: a macro of the line before is taken for one of the line (see C110); proved if the line before has no other macros, without the texts of C107"
  },
  {
   "property": "C180",
   "status": "proved",
   "theorems": [
    "DK.C180_own_text"
   ],
   "note": "comparisons that do not end with the verdict error"
  },
  {
   "property": "C181",
   "status": "partial",
   "theorems": [
    "DK.C181_fails",
    "DK.C181_full_diff_partial",
    "DK.C181_equal_partial"
   ],
   "note": "false: differences recorded for a function that is shown equal in the end are reported with full diffs; proved if none is recorded for equal functions and all verdicts are decided; without full diffs such differences are never reported"
  },
  {
   "property": "C182",
   "status": "partial",
   "theorems": [
    "DK.C182_fails",
    "DK.C182_functions_partial",
    "DK.C182_exception_partial"
   ],
   "note": "false: the tool is asked about macros, types and assembly instead of functions, and fails for names that are no functions; proved: for functions only, the tool changes nothing; otherwise the comparison fails"
  },
  {
   "property": "C183",
   "status": "proved",
   "theorems": [
    "DK.C183_every_line",
    "DK.C183_changes",
    "DK.C183_calls"
   ],
   "note": "lines of the old version; for every expansion of hunks that fulfils its documentation (ExpandContract), an implementation is given"
  },
  {
   "property": "C184",
   "status": "partial",
   "theorems": [
    "DK.C184_fails",
    "DK.C184_fails_noinfo",
    "DK.C184_shown_partial",
    "DK.C184_only_partial",
    "DK.C184_off_partial",
    "DK.C184_names_repeat"
   ],
   "note": "false: assembly that differs in its constraints only is found different but not shown; without debug information the process ends; proved for different texts and functions with debug information, for any history of one run; names repeat in other runs"
  },
  {
   "property": "C185",
   "status": "proved",
   "theorems": [
    "DK.C185_right_files",
    "DK.C185_shown",
    "DK.C185_answers"
   ],
   "note": "sessions as sequences of clicks, answers and failures; React keeps state by keys; double effects of the strict mode of development are not modelled"
  },
  {
   "property": "C186",
   "status": "partial",
   "theorems": [
    "DK.C186_fails",
    "DK.C186_opened_partial"
   ],
   "note": "false: the key of a difference is the concatenation of two names, so the selection of another difference may be kept; proved if these concatenations are different"
  },
  {
   "property": "C187",
   "status": "partial",
   "theorems": [
    "DK.C187_fails",
    "DK.C187_outcome_partial",
    "DK.C187_inverse_partial",
    "DK.C187_strict_partial"
   ],
   "note": "false: with the pattern for type casts, signed and unsigned comparisons are found equal; proved without this pattern, for predicates of the same sign in any widths, and for numbers that are not negative; inverse conditions proved for all numbers"
  },
  {
   "property": "C188",
   "status": "partial",
   "theorems": [
    "DK.C188_fails",
    "DK.C188_fails_named",
    "DK.C188_fails_global",
    "DK.C188_type_partial"
   ],
   "note": "false: the last variable of a name in a function counts, global variables come before local ones, and a named pointer type is taken for the pointer; proved if no variable hides another one and no name stands for a pointer type"
  },
  {
   "property": "C189",
   "status": "partial",
   "theorems": [
    "DK.C189_fails",
    "DK.C189_fails_crash",
    "DK.C189_same_partial",
    "DK.C189_request_partial"
   ],
   "note": "false: for files without extension, program and library use different names for the written modules, or the program crashes; proved for files with an extension, names of functions without commas and files that do not begin with a dash"
  },
  {
   "property": "C190",
   "status": "proved",
   "theorems": [
    "DK.C190_passes",
    "DK.C190_result"
   ],
   "note": "for names of passes of letters, digits and dashes, and for files whose name does not begin with a dash; passes of functions only look at their function"
  },
  {
   "property": "C191",
   "status": "partial",
   "theorems": [
    "DK.C191_fails",
    "DK.C191_fails_written",
    "DK.C191_size_partial",
    "DK.C191_only_partial",
    "DK.C191_accepted_partial"
   ],
   "note": "false: constants are cut to 32 bits, and sizes of two structures of the same size are found equal if both change in the same way; proved for constants below 2^31: they are sizes of one structure, which is the written one if no other structure has its size; sizes of such a structure are found equal"
  },
  {
   "property": "C192",
   "status": "partial",
   "theorems": [
    "DK.C192_fails",
    "DK.C192_fails_result",
    "DK.C192_fails_function",
    "DK.C192_call_partial",
    "DK.C192_function_partial"
   ],
   "note": "false: only attributes of the first argument are kept at calls, attributes such as noundef stay at the missing result, and nothing is removed at functions; proved: what stays at calls and functions, and the claim for calls with attributes at the first argument only and listed attributes at the result"
  },
  {
   "property": "C193",
   "status": "partial",
   "theorems": [
    "DK.C193_fails",
    "DK.C193_fails_operation",
    "DK.C193_fails_cast",
    "DK.C193_same_partial",
    "DK.C193_value_partial",
    "DK.C193_self",
    "DK.C193_cast"
   ],
   "note": "false: operations and sizes of elements in constant expressions are not compared, and the pattern for casts ignores casts that change the value; proved for constants with the same operations: without the pattern they are the same, with it they have the same value if casts keep values; casts play no role with the pattern"
  },
  {
   "property": "C194",
   "status": "partial",
   "theorems": [
    "DK.C194_fails",
    "DK.C194_listing_partial"
   ],
   "note": "false: a text such as @g( in the section or another attribute of a definition is listed in place of the function; proved for files without such texts"
  },
  {
   "property": "C195",
   "status": "partial",
   "theorems": [
    "DK.C195_fails",
    "DK.C195_fails_missing",
    "DK.C195_rows_partial",
    "DK.C195_lines_partial",
    "DK.C195_none"
   ],
   "note": "false: for calls on unchanged lines that do not correspond, both lines are marked in both versions, and if one line is not shown, the other is not marked; proved: what is marked in general, and the claim if both lines are shown and no unchanged row has only one of them"
  },
  {
   "property": "C196",
   "status": "partial",
   "theorems": [
    "DK.C196_fails",
    "DK.C196_safe",
    "DK.C196_kept",
    "DK.C196_reachable_partial"
   ],
   "note": "false: the array of indices that is allocated for data and child entries of sysctl tables is never freed; proved: no use after free and no double free in any history, and all other memory is freed when it can no longer be reached"
  },
  {
   "property": "C197",
   "status": "partial",
   "theorems": [
    "DK.C197_fails",
    "DK.C197_command_partial"
   ],
   "note": "false for lines with several such commands, where the first one is taken; proved: the command is the first one of the last line that has one, and none is found only if there is none"
  },
  {
   "property": "C198",
   "status": "partial",
   "theorems": [
    "DK.C198_fails",
    "DK.C198_fails_long",
    "DK.C198_blocks_partial",
    "DK.C198_return_partial",
    "DK.C198_both",
    "DK.C198_others"
   ],
   "note": "false: after a loop that does not depend on the variable, the block of the return is no longer reached, even if the variable is returned; in functions with 32 blocks or more other blocks are lost, too; proved for all other blocks in functions with fewer than 32 blocks, and for the block of the return in functions without loops"
  },
  {
   "property": "C199",
   "status": "partial",
   "theorems": [
    "DK.C199_fails",
    "DK.C199_operands_partial",
    "DK.C199_stores",
    "DK.C199_only",
    "DK.C199_ends"
   ],
   "note": "false: the value of a switch is removed although the switch stays; proved for included instructions and branches, for stores to local variables, and that nothing else is kept and the recursion ends; which stores are found is given"
  },
  {
   "property": "C200",
   "status": "partial",
   "theorems": [
    "DK.C200_fails",
    "DK.C200_reached_partial",
    "DK.C200_void_partial",
    "DK.C200_ends"
   ],
   "note": "false: if the return type becomes void, blocks are removed from the old function, and the clone that has its name keeps them; proved if the return type does not change; the removal of dead and empty blocks by LLVM is any function"
  },
  {
   "property": "C201",
   "status": "partial",
   "theorems": [
    "DK.C201_fails",
    "DK.C201_fails_switch",
    "DK.C201_found_partial",
    "DK.C201_kept_partial",
    "DK.C201_ends"
   ],
   "note": "false: a store after the use in a loop is not found, nor is one behind a switch; proved: exactly the stores and calls on ways without switches and without the use are found, also for derived pointers, and the search ends"
  },
  {
   "property": "C202",
   "status": "partial",
   "theorems": [
    "DK.C202_fails",
    "DK.C202_entry_partial"
   ],
   "note": "false: an entry with a switch is removed if none of its successors is needed itself, and only what the next block leads to is left; proved: when the entry is removed, and the claim if its only successor is the next block"
  },
  {
   "property": "C203",
   "status": "proved",
   "theorems": [
    "DK.C203_phis"
   ],
   "note": "for blocks that are not their own predecessor; the removal itself is done by LLVM"
  },
  {
   "property": "C204",
   "status": "partial",
   "theorems": [
    "DK.C204_fails",
    "DK.C204_exponential",
    "DK.C204_once_partial"
   ],
   "note": "false: for k branches that meet again, one after another, at least 2^k instructions are looked at (for every k) although the function has 3k+2; proved: if no instruction comes after two different ones, each is looked at at most once"
  }
 ]
}