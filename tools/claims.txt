m("C04", "proved", "C04_reported_is_reachable", "")
m("C05", "partial", "C05_fails C05_strong_dependencies_found_partial C05_discovered_iff_reachable",
  "The code violates the full statement (C05_fails): a function first met through a weak call is never reported through a later strong call. Proved: functions entered only by strong calls are reported; everything reachable is discovered.")
m("C06", "proved", "C06_callstack_is_call_path", "")
m("C07", "proved", "C07_search_terminates C07_search_succeeds C07_exponential_blowup", "")
m("C09", "partial", "C09_no_function_lost C09_merge_decision C09_merge_idempotent C09_verdicts_fails C09_definite_verdicts_kept_partial",
  "No function is lost and the merge decision is characterised exactly. The claim that definite verdicts are never replaced is false of the code (C09_verdicts_fails); proved when the new result has no more calls on either side.")
m("C10", "partial", "C10_fails C10_equal_functions_recorded_partial",
  "The code violates the statement: names are never removed from the set (C10_fails). Proved: the set always contains the names of all equal functions.")
m("C11", "partial", "C11_fails C11_fails_shared_key C11_no_variants_left_partial",
  "The code violates the full statement: a called variant without a result, or two results sharing a key, raise KeyError (C11_fails, C11_fails_shared_key). Proved for well-formed engine outputs.")
m("C12", "proved", "C12_verdicts_any_output C12_verdicts_preserved C12_calls_preserved", "")
m("C13", "proved", "C13_uncachable_iff", "")
m("C61", "partial", "C61_fails C61_reset_iff_partial",
  "The code violates the statement (C61_fails): resolving one assumed-equal function makes everything it blocked cachable, even if another assumed-equal function still blocks it. Proved: the exact condition under which merging makes a function cachable again.")
m("C08", "proved", "C08_exactly_interesting_differences", "")
m("C58", "proved", "C58_import_complete", "")
m("C63", "partial", "C63_fails C63_results_kept_partial C63_last_wins",
  "The code violates the statement (C63_fails): two results with the same key overwrite each other. Proved: every result whose key differs from all later ones is kept unchanged, and otherwise the last one is kept.")
m("C01", "proved", "C01_verdict_is_worst C01_order_irrelevant C01_never_lowered C01_overall_verdict", "")
m("C02", "partial", "C02_fails C02_statistics_partial",
  "The code violates the statement: results with verdict none are in no class (C02_fails). Proved: the classes are disjoint and together with the none/assumed-equal results sum to the total.")
m("C14", "proved", "C14_written_exactly C14_only_settled C14_all_settled", "")
m("C15", "partial", "C15_fails C15_absolute_paths_never_cached C15_round_trip_partial plain_relative_agree",
  "The code violates the statement: for absolute paths the engine never finds the written entries (C15_absolute_paths_never_cached). Proved for the paths on which the two computations of the file name agree.")
m("C16", "partial", "C16_fails C16_same_file_collision C16_same_prefix_injective_partial C16_reader_injective",
  "The code violates the statement: all pairs of a file with itself share a cache file, and pairs with different common prefixes may collide. Proved for pairs with the same common prefix, and for the names computed by the engine.")
m("C17", "proved", "C17_linking_terminates", "")
m("C18", "partial", "C18_fails C18_modules_restored_partial",
  "The code violates the statement (C18_fails): if the engine fails after linking, the modules stay linked. Proved: restored whenever the verdict is not error, and the original file is never forgotten.")
m("C19", "proved", "C19_difference_reported C19_no_difference_invented C19_engine_failure", "")
m("C20", "partial", "C20_fails C20_definite_verdict_partial",
  "The code violates the statement with full diff (C20_fails). Proved without full diff, and with full diff if something differs.")
m("C62", "partial", "C62_fails C62_own_entries_partial",
  "The code violates the statement (C62_fails): differences with the same name overwrite each other. Proved when the names are distinct.")
m("C64", "partial", "C64_fails C64_originals_not_overwritten_partial",
  "The code violates the statement for paths containing -linked (C64_fails). Proved for all other paths.")
m("C65", "partial", "C65_fails C65_known_results_kept_partial",
  "The code violates the statement if the engine fails after linking (C65_fails). Proved for all other cases.")
m("C66", "partial", "C66_fails C66_duplicates_partial",
  "The code violates the statement (C66_fails). Proved that a line is written twice exactly if a function is given to the cache twice.")
m("C67", "partial", "C67_fails C67_not_hidden_partial",
  "The code violates the statement (C67_fails): a weak call found first hides the function. Proved for functions entered by strong calls only.")
m("C68", "proved", "C68_missing_definitions_linked",
  "Engine, lookups and linker are arbitrary and may answer differently each time.")
m("C25", "proved", "C25_lookup_last_addition", "")
m("C26", "proved", "C26_save_load C26_ungrouped_sysctl_not_loadable",
  "For all snapshots the tool creates, with modules in the snapshot directory.")
m("C27", "proved", "C27_filter", "")
m("C69", "partial", "C69_fails C69_written_in_snapshot_partial",
  "The code violates the statement for paths that have the source directory as a textual prefix only (C69_fails). Proved for modules in the source directory.")
m("C70", "proved", "C70_generated_exactly", "")
m("C03", "partial", "C03_fails C03_entries_partial",
  "The code violates the statement (C03_fails): functions with the same name in two groups overwrite each other. Proved: every entry is the own result of a function of both snapshots, every function of both snapshots has an entry, and the entry is its own if the name is unique.")
m("C21", "proved", "C21_compared_exactly C21_skipped_and_unknown logged_same", "")
m("C22", "partial", "C22_fails C22_filter_partial",
  "The code violates the statement (C22_fails): with a regex filter failed comparisons are reported as equal. Proved: the exact effect of the filter.")
m("C23", "partial", "C23_fails C23_graph_complete_partial",
  "The code violates the statement (C23_fails): a function without a module at the end removes the graph. Proved if all functions have modules and are in one group.")
m("C24", "proved", "C24_fresh_output_dir", "")
m("C55", "proved", "C55_yaml_exact C55_yaml_output", "")
m("C71", "partial", "C71_fails C71_mentioned_partial",
  "The code violates the statement (C71_fails): timeouts are not mentioned, and with full diff neither are unknown results and errors. Proved for all other cases.")
m("C72", "partial", "C72_fails C72_aborts_partial",
  "The code violates the statement (C72_fails): with a regex filter an unknown function aborts the comparison. Proved without a regex filter.")
m("C73", "partial", "C73_fails C73_tool_partial",
  "The code violates the statement (C73_fails): the tool is only asked about differences that are not functions. Proved: where each verdict comes from.")
m("C74", "proved", "C74_reuse", "")
m("C56", "partial", "C56_fails C56_symbols_partial",
  "The code violates the statement (C56_fails): a type after a macro or type is paired with that entry. Proved for types that follow functions.")
m("C75", "partial", "C75_fails C75_definitions_partial",
  "The code violates the statement (C75_fails): functions in new call stacks only are not defined. Proved for the other functions, for types, and that nothing else is defined.")
m("C76", "partial", "C76_fails C76_paths_partial C76_output_partial",
  "The code violates the statement (C76_fails): every occurrence of the directory is removed from the path. Proved if it occurs once.")
m("C77", "partial", "C77_fails C77_fails_zero C77_endLine_partial",
  "The code violates the statement (C77_fails, C77_fails_zero): start lines outside the file. Proved for lines of the file.")
m("C28", "partial", "C28_fails C28_unused_returns_ignored C28_patterns_partial",
  "The code violates the statement (C28_fails): the option for unused-returns has no effect. Proved for the twelve patterns.")
m("C29", "partial", "C29_fails C29_fails_extension C29_fails_unreadable C29_loading_partial",
  "The code violates the statement (C29_fails and others): rejected patterns are kept with the warning policy. Proved with the error policy; the effect of the warning policy is characterised.")
m("C78", "proved", "C78_same_patterns", "")
m("C30", "proved", "C30_line_numbers", "")
m("C31", "partial", "C31_fails C31_extraction_partial",
  "The code violates the statement (C31_fails): start lines outside the file raise. Proved for lines of the files.")
m("C79", "partial", "C79_fails C79_fails_error C79_context_diff_partial",
  "The code violates the statement (C79_fails, C79_fails_error): source lines that consist of numbers are changed or raise. Proved for the others.")
m("C36", "partial", "C36_fails C36_restored_partial",
  "The code violates the statement (C36_fails): headers that already contain a generated text are changed. Proved for the others, after any number of repeated changes.")
m("C38", "proved", "C38_names", "")
m("C50", "partial", "C50_fails C50_fails_blank C50_arguments_partial",
  "The code violates the statement (C50_fails, C50_fails_blank): no argument, or an argument of blanks. Proved for the other calls.")
m("C51", "partial", "C51_fails C51_fails_list C51_fails_component C51_sysctl_partial",
  "The code violates the statement: empty names, names written as lists, repeated components. Proved for the others.")
m("C60", "proved", "C60_replace", "")
m("C80", "partial", "C80_fails C80_missed C80_terminates_partial",
  "The code violates the statement (C80_fails): it loops forever on a longer name that ends with the parameter. Termination proved for the other bodies.")
m("C32","partial","C32_fails C32_fails_script C32_fails_output C32_transparent_partial","The exit status of a failing compiler is replaced by 1, the script always exits with 0, and a joined output option is overwritten by the LLVM step. The rest is proved.")
m("C33","partial","C33_fails C33_fails_colon C33_database_partial","Default outputs are not recorded and paths with colons are not read back. Proved for the other compile commands, over all sequences of runs.")
m("C34","partial","C34_fails C34_candidates_partial C34_found","The sort keys are wrong for names starting with a character after the closing brace.")
m("C35","partial","C35_fails C35_translation_partial C35_no_source","Quoted arguments with spaces are broken apart. Proved for commands without such arguments.")
m("C37","partial","C37_fails C37_fails_zero C37_same_module C37_found_partial","The finder of a single file does not check definitions, and the limit 0 is not checked.")
m("C57","proved","C57_solver","")
m("C81","partial","C81_fails C81_fails_characters C81_kernel_partial","Two of the finders return a text or None, over which the caller iterates.")
m("C43","partial","C43_fails C43_equal_partial C43_outcome_partial","false because operators of constant expressions are not compared; proved (lockstep simulation, any machine) for functions without constant expressions")
m("C44","proved","C44_copy C44_refl","for every function the IR verifier accepts (distinct blocks, existing targets)")
m("C39","proved","C39_declarations C39_cached C39_missing","for every comparator")
m("C40","proved","C40_verdicts C40_equal C40_exhausted","for every comparator, inlining and simplification (parameters of the model)")
m("C82","partial","C82_fails C82_dropped_partial C82_recorded_partial","false because results of inlined pairs are erased although other functions rely on them; proved without inlining, and up to dropped pairs with it")
m("C83","partial","C83_fails_abort C83_fails_diverge C83_ends_partial","false for recursive functions that are inlined; proved when no call is inlined")
m("C48","proved","C48_exact C48_ends","for modules in which the called operand of a call is one of its operands (as in LLVM)")
m("C49","partial","C49_fails C49_fails_invoke C49_noeffect_partial C49_effect C49_ends","false because atomic read-modify-write instructions and invokes are not looked at; proved for programs without them")
m("C47","partial","C47_fails C47_slice_partial C47_order C47_only C47_ends","false because a cast after an allocation is kept without its operands; proved when such casts cast the result of the allocation")
m("C59","partial","C59_fails C59_fails_limit C59_affected_partial C59_own_block","false for the block of the branch itself (loops), and for functions with 32 and more blocks because the reachability test of LLVM gives up; exact otherwise")
m("C84","proved","C84_exact C84_ends","")
m("C85","partial","C85_fails C85_fails_memory C85_fails_nested C85_forward_partial C85_control_partial C85_store_partial C85_only_partial","false for values carried by loops, for stores and branches inside affected blocks; proved for operands defined before their users and for branches and stores outside affected blocks")
m("C52","partial","C52_fails C52_fails_junk C52_users_partial","false because the test of the bound is inverted: indices are never compared, or compared with what is behind the list; proved that no user is missed when accesses have no more indices than the field")
m("C86","proved","C86_param C86_find","variables without initialisers are left out")
m("C41","partial","C41_fails C41_reorder_partial","false for phis that are used first as operands of the operation: loops with different steps are found equal; proved for all widths and any control flow without phis, without casts and negations, for chains within a block that have not only constants")
m("C42","partial","C42_fails C42_inverse_partial C42_phis_partial C42_predicates","false for negations of negations; proved for all functions without phis, casts and negations, and for functions with phis when all blocks are reached and phis that are used by phis are used by other instructions, too; inverse predicates proved for all widths and floating-point numbers")
m("C87","partial","C87_fails C87_same_flow_partial","false: blocks that do not correspond are accepted, and successors of visited left blocks are not compared; proved for functions with the same control flow")
m("C88","partial","C88_fails C88_no_arithmetic_partial","false: signed and unsigned extensions are found equal; proved that results of skipped casts are not used by arithmetic operations, also through other casts")
m("C89","partial","C89_fails C89_without_inverse_partial","false with the pattern for inverse conditions: successors remain swapped; proved for all other patterns")
m("C45","partial","C45_fails C45_fails_store C45_calm_partial","false: calls in the opposite order are found equal, and a store is overlooked after a dependency was found; proved for functions with one block, at most one effect and no later read of memory, without loads or without stores")
m("C46","partial","C46_fails C46_fails_atomic C46_same_base_partial C46_store_partial C46_symmetric C46_reflexive","false for address computations on top of each other, and because atomic read-modify-write instructions do not count as stores; proved for pointers that start at the same base with the same type")
m("C90","partial","C90_fails C90_tail_partial C90_ends C90_replacement","false for loops: what follows the load in its own block is not looked at; proved for any control flow when nothing there stores to the pointer, without atomic instructions and nested address computations")
m("C53","proved","C53_compared C53_differing C53_sorted","")
m("C54","proved","C54_indices C54_written C54_repeated","for files with distinct names; proved that the files which DiffKemp writes have them, and that the claim fails for other files")
m("C91","proved","C91_pages C91_reachable C91_repeated","for files with distinct names, which DiffKemp's are (C54_written); reachability for names that are not empty")
m("C92","partial","C92_fails C92_fails_crash C92_complete_partial C92_ends","false: calls at the end of a longer new call stack are not displayed, and a shorter one makes the viewer crash; proved when the last calls of the stacks belong to no earlier calls of the other one")
m("C93","proved","C93_listing","")
m("C94","partial","C94_fails C94_calls_partial C94_last","false for functions that are in one of the call stacks only; proved for functions in both")
m("C95","partial","C95_fails C95_partial","false: uses of the result are replaced by the source instead of the destination; proved when the results are not used")
m("C96","partial","C96_fails C96_definition_lost C96_partial","false: functions with different bodies are merged, and a declaration may replace a definition; proved when merged functions agree up to numbers and names have one number")
m("C97","partial","C97_fails C97_partial","false for a call that passes the called function to itself: it is erased twice; proved without such calls, for functions without a suffix; LLVM's simplification of the new function is not modelled")
m("C98","partial","C98_fails C98_collision C98_partial","false for calls with a variable number of arguments and for types with equal hashes; proved for plain types")
m("C99","partial","C99_fails C99_partial","false: `sprintf` writes to memory; proved without it")
m("C100","partial","C100_fails C100_fails_print C100_fails_const C100_partial C100_names_partial","false: names that differ in a number at the end, all functions that print, and a constant and a variable of the same name are found equal; proved up to these, without constant expressions")
m("C101","proved","C101_ends C101_refl","reflexivity for modules in which only constants have no name")
m("C102","partial","C102_fails C102_fails_empty C102_partial","false: constants are matched by value only; proved that some macro or enumerator changed from the one value to the other")
m("C103","partial","C103_fails C103_fails_two C103_fails_negative C103_partial","false for macros defined in files, for two macros with the same old value and for negative enumerators; proved otherwise")
m("C104","partial","C104_fails C104_fails_callee C104_fails_array C104_plain_partial C104_first_partial","false: once an argument is accepted because of the source nothing else is compared; proved for calls without such arguments, and for the arguments before the first such argument")
m("C105","partial","C105_fails C105_memset_partial C105_alloc_partial","false: flags of an allocation are not compared; proved for memset and for the size of an allocation")
m("C106","partial","C106_fails C106_partial","false if the second call has the additional argument: values are looked up on the wrong side; proved if the first call has it")
m("C107","partial","C107_fails C107_fails_number C107_complete_partial C107_sound_partial C107_ends","false for names of one letter at the end of a text and for numbers followed by letters; proved without these; names composed by ## are left out (C80)")
m("C108","partial","C108_fails C108_complete_partial C108_before_partial C108_sound_partial C108_ends","false as C107; proved without such texts, for any earlier queries")
m("C109","partial","C109_fails C109_fails_first C109_fails_command_line C109_once_partial C109_ends","false: the first definition that is visited is used, also an #undef, and macros of the command line are not known; proved for macros that are defined once in a file")
m("C110","partial","C110_fails C110_partial","false: macros of the line before stay recorded after a query without a difference; proved after queries with a difference")
m("C111","partial","C111_fails C111_loads_partial","false: outputs of instruction patterns get no numbers, so that swapped outputs are overlooked; proved for loads related by value patterns")
m("C112","partial","C112_fails C112_ends_partial","false: a match in a later block is found again and again; proved for functions whose entry blocks do not jump to another one, with patterns that start with code")
m("C113","partial","C113_fails C113_occurs_partial C113_unmarked_partial C113_complete_partial","false: a failed comparison leaves a number behind that is given to a second value, which is then taken for the matched one; operations and operands proved for patterns without marked start; with a marked start for all operands except instructions after the start; completeness for patterns of one block")
m("C114","partial","C114_fails C114_contiguous_partial","false: a failed comparison with an instruction in between leaves numbers behind; proved for code without other instructions in between")
m("C115","partial","C115_fails C115_loading_partial","false: declared new sides and single returns without value crash; proved for files without these")
m("C116","partial","C116_fails C116_constants_partial","false: one-sided loads of different patterns are found equal; proved for operands of which one is constant")
m("C117","partial","C117_fails C117_constants_partial","false: any two globals that differ crash the comparison if a value pattern is about a global; proved for patterns of constants")
m("C118","partial","C118_fails C118_results_partial","false with patterns: numbers are given twice after a failed comparison; proved without patterns")
m("C119","partial","C119_fails C119_inputs_partial","false: an argument that gets its values only while the users of other arguments are compared is not compared; proved for patterns of one block each of whose arguments is used by the matched code of one side")
m("C120","proved","C120_coverage","for the entry blocks; value patterns have names (ProperNames)")
m("C121","partial","C121_fails C121_round_trip_partial C121_name_partial","false for members with explicit alignment; proved for structures without these, with bit fields")
m("C122","partial","C122_fails C122_names_partial C122_inner_names_missed C122_variable_first_index C122_type_name","false: names are recorded for an unrelated structure of the instruction at the same position; proved if these access structures of the same name")
m("C123","partial","C123_fails C123_fails_element C123_members_partial C123_without_pattern C123_variable_indices","false: different members at the same index, and different array elements; proved: same member or same index at each level")
m("C124","partial","C124_fails C124_fails_wide C124_fails_shifted C124_sound_partial C124_symmetric","false: pointers inside accesses keep numbers, offsets are truncated, and accesses with different numbers of steps shift the numbers; proved without casts for pointers inside accesses that are used once, if one block has the accesses with more steps")
m("C125","partial","C125_fails C125_fails_prefix C125_split_partial","false for an access in one step; proved for accesses with the same steps, or several steps of which the first ones differ")
m("C126","partial","C126_fails C126_fails_unions C126_symmetric_partial","false for unions; proved for types without unions")
m("C127","partial","C127_fails C127_fails_arrays C127_layout_partial","false for unions and with ignored casts; proved without these")
m("C128","partial","C128_fails C128_fails_union C128_transitive_partial C128_reflexive","transitivity is false for unions and with ignored casts; proved without these; reflexivity always")
m("C129","partial","C129_fails C129_fails_sign C129_fails_wide C129_constants_partial","false for negative constants of different widths; proved for the same width and for non-negative ones")
m("C130","partial","C130_fails C130_snapshot_partial","false: functions using an option whose data is a cast member of a variable are missing; proved for tables and patterns without the irregularities named in TidyModule and TidyPattern")
m("C131","partial","C131_fails C131_fails_unused C131_total_partial","false: options without parent, options whose data is not used and options with too few names end the generation; proved when all options have tables and used data or are not supported")
m("C132","partial","C132_fails C132_entries_partial","false for casts of addresses of members; proved for tidy tables")
m("C133","partial","C133_fails C133_hierarchy_partial","false for child tables inside arrays of tables; proved for tidy tables")
m("C134","partial","C134_fails C134_fails_opt C134_fails_tick C134_current_partial","false: headers are not considered, a file remains without optimisations when opt failed, and a change within the same tick of the clock is overlooked; proved for the other histories")
m("C135","partial","C135_fails C135_current_partial","false after an interruption between compiling and linking; proved if failing builds change nothing or leave no linked file")
m("C136","partial","C136_fails C136_link_partial","false if the output is not an object; proved for objects")
m("C137","partial","C137_fails C137_commands_partial","false for sources whose name contains that of the module followed by .mod; proved otherwise")
m("C138","partial","C138_fails C138_fails_long C138_fails_cached C138_program_partial C138_library_partial","false for the library: crashes and texts that exceed the buffer end the tool, modules loaded in advance raise TypeError; proved for the program of the engine in general, and for the library without these")
m("C139","partial","C139_fails C139_fails_order C139_unused_partial C139_converted_partial","false: loading in advance raises TypeError; even with the settings passed as a structure, slicing would come after the other passes; proved for modules that are not used, and without variables if the settings were passed as a structure")
m("C140","proved","C140_modules","")
m("C141","partial","C141_fails C141_fails_declaration C141_fails_suffix C141_reported_partial C141_only_partial","false for structures used only in functions, for forward declarations in other units and for types with suffixes; proved if one structure of the name is found and the old type has no suffix; nothing else is reported")
m("C142","partial","C142_fails C142_fails_number C142_types_partial C142_through_partial","false if a pointer is used twice or converted to a number; proved otherwise for accesses that do not begin with a cast")
m("C143","partial","C143_fails C143_fails_merged C143_fails_declared C143_code_partial C143_same_partial","false for used variables whose names begin with __ksym, for functions with code whose names contain that of the assertions, and for declared kernel symbols; proved otherwise, with the exact replacement in general")
m("C144","partial","C144_fails C144_fails_nested C144_named_partial C144_same_partial","false for names that begin with anon and for nested anonymous structures; proved for other names and for structures without anonymous fields whose new name is free")
m("C145","partial","C145_fails C145_fails_outside C145_fails_missing C145_fails_spelling C145_included_partial C145_copied_partial","false for files that are in the snapshot directory before, directories whose names begin with that of the source directory, missing files and paths that are not normal; proved otherwise, for every order of copying")
m("C146","partial","C146_fails C146_fails_constant C146_moved_partial C146_constant_partial","false if the name of the directory occurs elsewhere or the line contains the word constant; proved otherwise")
m("C147","partial","C147_fails C147_fails_external C147_found_partial C147_function_partial C147_global_partial","false for names with dots and for declared variables; proved for names without dots, variables defined or declared; definitions are found for all names")
m("C148","partial","C148_fails C148_fails_none C148_fails_environment C148_settings_partial C148_calls_partial","false for options with commas, without options and for variables set before; proved otherwise, including the calls of the compiler")
m("C149","partial","C149_fails C149_fails_renamed C149_kept_partial C149_interrupted_partial","false for config.log.bak; proved for config.log")
m("C150","proved","C150_command","for logs whose first line with a dollar is the invocation; C150_exception shows what happens otherwise")
m("C151","partial","C151_fails C151_names_partial C151_read_partial","false for names that begin with other characters; proved for names of C; exact description of what is read")
m("C152","partial","C152_fails C152_classes_partial C152_counts_partial C152_no_graph","false if objects of different kinds share a name; proved otherwise; classes always add up")
m("C153","partial","C153_fails C153_fails_forever C153_silent C153_log_partial","false after a global variable that refers to itself: nothing is logged any more; proved for all other comparisons")
m("C154","partial","C154_fails C154_fails_element C154_fails_name C154_fails_member C154_fails_deref C154_names_partial","false (also crashes) for elements of arrays and nested members; proved for the values described by SimpleVal")
m("C155","partial","C155_fails C155_phis_partial","false for phis that are used only by phis, they are never compared; proved if every phi that is an incoming value is also used by another instruction")
m("C156","partial","C156_fails C156_fails_hash C156_shown_partial C156_encoded_partial","false for files outside of the snapshot and for names with special characters of addresses; proved otherwise, and for encoded addresses")
m("C157","partial","C157_fails C157_clean_partial","false for files outside of the snapshot, which are written over other files; proved otherwise")
m("C158","partial","C158_fails C158_fails_tmpfs C158_fails_stale C158_search_partial","false for kernels below directories whose names begin with tmp, for such directories in the kernel and with a database of an older state; proved otherwise for all sequences of searches")
m("C159","partial","C159_fails C159_module_partial","false for names of files with both dashes and underscores; proved otherwise; what is found always belongs to the module")
m("C160","partial","C160_fails C160_listed_partial","false for functions whose comparison has run out of time, which are counted but not listed; proved otherwise")
m("C161","partial","C161_fails C161_new_partial","false while an existing snapshot is deleted; proved for directories without a snapshot at all crash points")
m("C162","partial","C162_fails C162_end_partial","false: the old snapshot is deleted before the list of symbols is read; what is in the directory at the end is proved for all runs")
m("C163","partial","C163_fails C163_restored_partial","false for commands that stop early, for example with an empty list of symbols; proved that the next complete command restores the headers after any sequence of stopped commands")
m("C164","partial","C164_fails C164_program_partial C164_callees_partial","false because phis used only by phis are not compared (C155); proved for programs with recursion and external functions whose compared bodies are of the kinds of C41, C42 or C155, without inlining and cache")
m("C165","partial","C165_fails C165_change C165_inlined_partial","false: the result of functions that were inlined on both sides is erased although other functions rest on it (see C82); proved for runs that erase nothing, for arbitrary inliners that keep what the changed function does, and bodies of the kinds of C164")
m("C166","partial","C166_fails C166_no_phis_partial","false: a phi that is numbered by an undone comparison keeps its number, the next instruction gets the same one, so the result of a call is taken for the phi; proved without phis")
m("C167","partial","C167_fails C167_more_patterns_partial","false: an added cast is accepted without patterns but not with reordered operations; proved for added inverse conditions and relocations in all functions, and for added reordering in functions without casts and negations")
m("C168","proved","C168_same","for all functions and machines")
m("C169","partial","C169_fails C169_fails_arguments C169_fails_size C169_valid_partial","false: the result of a call whose result is ignored is cast to void, superfluous arguments are passed to functions that do not take them, values of another size are bitcast; proved if arguments and results can be bitcast and there are not too many arguments")
m("C170","partial","C170_fails C170_after_first_partial","false for the first line of a file, for which nothing is found; proved for all later lines")
m("C171","proved","C171_missing","for all files")
m("C172","partial","C172_fails C172_no_return_partial","false for return statements, which are extended up to a semicolon only; proved for other texts")
m("C173","partial","C173_fails C173_semicolon_partial","false for files that end inside a return statement; proved if there is a semicolon in the line or later")
m("C174","partial","C174_fails C174_present_partial","false: a single statement is taken without comparison; proved if there is a statement with the assembly, for statements without special characters")
m("C175","partial","C175_fails C175_fails_equal C175_no_outputs_partial","false: outputs are counted, so that different operands are taken for the same macro and found equal; proved for statements without outputs and special characters")
m("C176","partial","C176_fails C176_different_partial C176_statements_partial","false if the same assembly is found twice; proved for different templates")
m("C177","partial","C177_fails C177_digits_partial","false for operands from 10 on; proved for operands below 10")
m("C178","proved","C178_known","the model of the pass and of the module; that compared functions are among those that may be called is given here as the set")
m("C179","partial","C179_fails C179_right_partial C179_reported_partial","false: a macro of the line before is taken for one of the line (see C110); proved if the line before has no other macros, without the texts of C107")
m("C180","proved","C180_own_text","comparisons that do not end with the verdict error")
m("C181","partial","C181_fails C181_full_diff_partial C181_equal_partial","false: differences recorded for a function that is shown equal in the end are reported with full diffs; proved if none is recorded for equal functions and all verdicts are decided; without full diffs such differences are never reported")
m("C182","partial","C182_fails C182_functions_partial C182_exception_partial","false: the tool is asked about macros, types and assembly instead of functions, and fails for names that are no functions; proved: for functions only, the tool changes nothing; otherwise the comparison fails")
m("C183","proved","C183_every_line C183_changes C183_calls","lines of the old version; for every expansion of hunks that fulfils its documentation (ExpandContract), an implementation is given")
m("C184","partial","C184_fails C184_fails_noinfo C184_shown_partial C184_only_partial C184_off_partial C184_names_repeat","false: assembly that differs in its constraints only is found different but not shown; without debug information the process ends; proved for different texts and functions with debug information, for any history of one run; names repeat in other runs")
m("C185","proved","C185_right_files C185_shown C185_answers","sessions as sequences of clicks, answers and failures; React keeps state by keys; double effects of the strict mode of development are not modelled")
m("C186","partial","C186_fails C186_opened_partial","false: the key of a difference is the concatenation of two names, so the selection of another difference may be kept; proved if these concatenations are different")
m("C187","partial","C187_fails C187_outcome_partial C187_inverse_partial C187_strict_partial","false: with the pattern for type casts, signed and unsigned comparisons are found equal; proved without this pattern, for predicates of the same sign in any widths, and for numbers that are not negative; inverse conditions proved for all numbers")
m("C188","partial","C188_fails C188_fails_named C188_fails_global C188_type_partial","false: the last variable of a name in a function counts, global variables come before local ones, and a named pointer type is taken for the pointer; proved if no variable hides another one and no name stands for a pointer type")
m("C189","partial","C189_fails C189_fails_crash C189_same_partial C189_request_partial","false: for files without extension, program and library use different names for the written modules, or the program crashes; proved for files with an extension, names of functions without commas and files that do not begin with a dash")
m("C190","proved","C190_passes C190_result","for names of passes of letters, digits and dashes, and for files whose name does not begin with a dash; passes of functions only look at their function")
m("C191","partial","C191_fails C191_fails_written C191_size_partial C191_only_partial C191_accepted_partial","false: constants are cut to 32 bits, and sizes of two structures of the same size are found equal if both change in the same way; proved for constants below 2^31: they are sizes of one structure, which is the written one if no other structure has its size; sizes of such a structure are found equal")
m("C192","partial","C192_fails C192_fails_result C192_fails_function C192_call_partial C192_function_partial","false: only attributes of the first argument are kept at calls, attributes such as noundef stay at the missing result, and nothing is removed at functions; proved: what stays at calls and functions, and the claim for calls with attributes at the first argument only and listed attributes at the result")
m("C193","partial","C193_fails C193_fails_operation C193_fails_cast C193_same_partial C193_value_partial C193_self C193_cast","false: operations and sizes of elements in constant expressions are not compared, and the pattern for casts ignores casts that change the value; proved for constants with the same operations: without the pattern they are the same, with it they have the same value if casts keep values; casts play no role with the pattern")
m("C194","partial","C194_fails C194_listing_partial","false: a text such as @g( in the section or another attribute of a definition is listed in place of the function; proved for files without such texts")
m("C195","partial","C195_fails C195_fails_missing C195_rows_partial C195_lines_partial C195_none","false: for calls on unchanged lines that do not correspond, both lines are marked in both versions, and if one line is not shown, the other is not marked; proved: what is marked in general, and the claim if both lines are shown and no unchanged row has only one of them")
m("C196","partial","C196_fails C196_safe C196_kept C196_reachable_partial","false: the array of indices that is allocated for data and child entries of sysctl tables is never freed; proved: no use after free and no double free in any history, and all other memory is freed when it can no longer be reached")
m("C197","partial","C197_fails C197_command_partial","false for lines with several such commands, where the first one is taken; proved: the command is the first one of the last line that has one, and none is found only if there is none")
m("C198","partial","C198_fails C198_fails_long C198_blocks_partial C198_return_partial C198_both C198_others","false: after a loop that does not depend on the variable, the block of the return is no longer reached, even if the variable is returned; in functions with 32 blocks or more other blocks are lost, too; proved for all other blocks in functions with fewer than 32 blocks, and for the block of the return in functions without loops")
m("C199","partial","C199_fails C199_operands_partial C199_stores C199_only C199_ends","false: the value of a switch is removed although the switch stays; proved for included instructions and branches, for stores to local variables, and that nothing else is kept and the recursion ends; which stores are found is given")
m("C200","partial","C200_fails C200_reached_partial C200_void_partial C200_ends","false: if the return type becomes void, blocks are removed from the old function, and the clone that has its name keeps them; proved if the return type does not change; the removal of dead and empty blocks by LLVM is any function")
m("C201","partial","C201_fails C201_fails_switch C201_found_partial C201_kept_partial C201_ends","false: a store after the use in a loop is not found, nor is one behind a switch; proved: exactly the stores and calls on ways without switches and without the use are found, also for derived pointers, and the search ends")
m("C202","partial","C202_fails C202_entry_partial","false: an entry with a switch is removed if none of its successors is needed itself, and only what the next block leads to is left; proved: when the entry is removed, and the claim if its only successor is the next block")
m("C203","proved","C203_phis","for blocks that are not their own predecessor; the removal itself is done by LLVM")
m("C204","partial","C204_fails C204_exponential C204_once_partial","false: for k branches that meet again, one after another, at least 2^k instructions are looked at (for every k) although the function has 3k+2; proved: if no instruction comes after two different ones, each is looked at at most once")
