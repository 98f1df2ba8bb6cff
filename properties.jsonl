{"id": "C01", "title": "Aggregated verdict is the worst verdict of the parts", "statement": "After any sequence of inner results has been added to a result, its kind is the maximum (in the priority order none < equal < assumed-equal < not-equal < unknown < timeout < error) of its initial kind and all kinds added; it does not depend on the order of the additions and no addition can lower it.", "quantifier": "all finite sequences of inner results, all initial kinds, all permutations", "why_tests_cant": "the number and order of compared functions is unbounded; tests add two or three results", "anchors": ["diffkemp/semdiff/result.py: Result.Kind, Result.add_inner"]}
{"id": "C02", "title": "Symbol statistics account for every compared symbol", "statement": "The printed counts Equal, Not equal, Unknown and Errors are pairwise disjoint and sum to Total symbols, and (empty diff) never exceeds Not equal.", "quantifier": "all results with any number of inner results of any kind", "why_tests_cant": "requires a sum over an arbitrary collection; a unit test shows one collection", "anchors": ["diffkemp/semdiff/result.py: Result.report_symbol_stat"]}
{"id": "C03", "title": "No compared function is lost from the overall result", "statement": "After comparing two snapshots, every function that occurs in both snapshots (in the same group) has its own entry with its own verdict in the overall result, and no other function has one.", "quantifier": "all pairs of snapshots, with any number of groups and functions, any verdicts", "why_tests_cant": "depends on name coincidences across groups in arbitrary snapshots", "anchors": ["diffkemp/diffkemp.py: compare", "diffkemp/semdiff/result.py: Result.add_inner"]}
{"id": "C04", "title": "Every reported function is really reachable", "statement": "Each function reported by the dependency search from a start function is the start function or is reached from it by a chain of calls recorded in the graph, on the requested side, none of which enters a .c file different from the start function's file, and whose last call is a strong dependency.", "quantifier": "all graphs (cyclic, with dangling callees, duplicate edges), both sides, all start functions", "why_tests_cant": "graphs are unbounded; a test fixes one graph", "anchors": ["diffkemp/semdiff/caching.py: ComparisonGraph.reachable_from"]}
{"id": "C05", "title": "Every reachable strong dependency is reported", "statement": "Each function that can be reached from the start function by calls that stay within the comparison boundary, the last of which is a strong dependency, is in the search result.", "quantifier": "all graphs, both sides, all start functions", "why_tests_cant": "an omission only shows for particular interleavings of weak and strong edges", "anchors": ["diffkemp/semdiff/caching.py: ComparisonGraph.reachable_from"]}
{"id": "C06", "title": "Call stacks shown for differences are real call paths", "statement": "For every function found by the search, the call stack produced for it exists (its extraction terminates and never fails), starts with a call made by the start function, ends with a call of the function, and every consecutive pair of entries is a call made by the callee of the previous entry; it is empty exactly for the start function.", "quantifier": "all graphs, both sides, all start functions, all found functions", "why_tests_cant": "loop termination and path validity over arbitrary cyclic graphs", "anchors": ["diffkemp/semdiff/caching.py: _get_callstack, ComparisonGraph.reachable_from"]}
{"id": "C07", "title": "The dependency search terminates", "statement": "The dependency search terminates for every graph, including cyclic graphs and graphs with several call paths between the same functions; for every acyclic-ladder size n there is a graph with 2n+1 functions for which it enqueues at least 2^n entries.", "quantifier": "all graphs", "why_tests_cant": "termination for all inputs cannot be tested", "anchors": ["diffkemp/semdiff/caching.py: ComparisonGraph.reachable_from"]}
{"id": "C08", "title": "The list of objects to compare contains exactly the interesting reachable differences", "statement": "A function pair is listed for output iff it is found by the search on both sides and is neither assumed-equal nor (unless full diff is on) equal; every non-function difference attached to a listed pair is listed as not-equal, and no other object is listed.", "quantifier": "all graphs, all pairs of start functions, both values of full_diff", "why_tests_cant": "set equality over arbitrary graphs", "anchors": ["diffkemp/semdiff/caching.py: ComparisonGraph.graph_to_fun_pair_list"]}
{"id": "C09", "title": "Merging graphs never loses functions or known verdicts", "statement": "Absorbing a partial result graph keeps every function of both graphs, changes no function that only one of them knows, and never replaces a known verdict (equal, not-equal) by unknown or assumed-equal.", "quantifier": "all pairs of graphs and all sequences of absorptions", "why_tests_cant": "holds over histories of comparisons of any length", "anchors": ["diffkemp/semdiff/caching.py: ComparisonGraph.absorb_graph, Vertex.compare_vertex_priority"]}
{"id": "C10", "title": "The set of equal functions agrees with the graph", "statement": "At any time the set of equal functions kept by a graph is exactly the set of (left) names of its functions whose verdict is equal.", "quantifier": "all sequences of insertions and absorptions", "why_tests_cant": "state invariant over histories", "anchors": ["diffkemp/semdiff/caching.py: ComparisonGraph.__setitem__, absorb_graph, normalize"]}
{"id": "C11", "title": "Normalisation succeeds and removes all variant functions", "statement": "For any output of the engine, normalisation completes without failing and afterwards no key and no edge target recorded through the graph ends with '.void'.", "quantifier": "all graphs built from engine output", "why_tests_cant": "depends on which combinations of variant pairs occur", "anchors": ["diffkemp/semdiff/caching.py: ComparisonGraph.normalize, add_edge, __setitem__", "diffkemp/simpll/simpll.py: run_simpll"]}
{"id": "C12", "title": "Normalisation preserves the verdicts of ordinary functions", "statement": "Normalisation leaves the key, the names and the verdict of every non-variant function unchanged; a variant function is renamed to its base name only if the base name was absent, and then an equal verdict becomes assumed-equal while every other verdict is kept.", "quantifier": "all graphs", "why_tests_cant": "quantifies over arbitrary sets of variant functions", "anchors": ["diffkemp/semdiff/caching.py: ComparisonGraph.normalize"]}
{"id": "C13", "title": "Uncachable functions are exactly the header callers of assumed-equal code", "statement": "After marking, a function is uncachable iff it is defined in a header and it calls, through a chain of functions all defined in headers, a function that is assumed equal and not defined in a header.", "quantifier": "all graphs with populated predecessor lists, initially all functions cachable", "why_tests_cant": "reachability characterisation over arbitrary graphs", "anchors": ["diffkemp/semdiff/caching.py: ComparisonGraph.populate_predecessor_lists, mark_uncachable_from_assumed_equal"]}
{"id": "C14", "title": "Only settled and cachable verdicts are written to the cache", "statement": "Every function pair ever written to a cache file belongs to a graph function whose verdict is neither unknown nor assumed-equal and which is not marked uncachable; and every such function of the graph is written.", "quantifier": "all histories of comparisons", "why_tests_cant": "invariant over histories of updates", "anchors": ["diffkemp/semdiff/function_diff.py: functions_diff", "diffkemp/semdiff/caching.py: SimpLLCache.update"]}
{"id": "C15", "title": "What the cache writer stores, the engine reads back", "statement": "A function pair is treated as cached by the engine iff it has been written by the cache writer for the same pair of source files.", "quantifier": "all update histories, all function names without ':' and newline, all file paths", "why_tests_cant": "two implementations in two languages must agree for all paths", "anchors": ["diffkemp/semdiff/caching.py: SimpLLCache.CacheFile", "diffkemp/simpll/ResultsCache.cpp: ResultsCache::isFunctionPairCached, importFileToCacheMap", "diffkemp/simpll/Utils.cpp: joinPath, findAndReplace"]}
{"id": "C16", "title": "Different source file pairs use different cache files", "statement": "Two different pairs of source files never share a cache file.", "quantifier": "all pairs of file paths", "why_tests_cant": "injectivity over all paths", "anchors": ["diffkemp/semdiff/caching.py: SimpLLCache.CacheFile.__init__"]}
{"id": "C17", "title": "Linking missing definitions terminates", "statement": "Comparing two functions runs the engine finitely often: at most one more time than there are modules that can be linked, whatever missing definitions the engine reports and whatever modules are found for them.", "quantifier": "all engine behaviours, all module lookups, all finite sets of modules", "why_tests_cant": "termination under an adversarial engine", "anchors": ["diffkemp/semdiff/function_diff.py: functions_diff, _link_symbol_def", "diffkemp/llvm_ir/llvm_module.py: LlvmModule.link_modules, links_mod"]}
{"id": "C18", "title": "Comparison leaves the modules unlinked", "statement": "After a comparison of two functions each of the two modules refers to its original LLVM file again and has no linked modules, whatever was linked meanwhile.", "quantifier": "all sequences of link operations, successful or failing comparison", "why_tests_cant": "holds over all link histories including failures", "anchors": ["diffkemp/semdiff/function_diff.py: functions_diff", "diffkemp/llvm_ir/llvm_module.py: LlvmModule.link_modules, restore_unlinked_llvm"]}
{"id": "C19", "title": "A difference reachable on both sides is never reported as equal", "statement": "If the result graph of a comparison contains a not-equal function found on both sides, the verdict of the comparison is not-equal or worse; if it contains only equal and assumed-equal functions there, no difference is reported (and without full diff the verdict is equal); if a run of the engine fails the verdict is error.", "quantifier": "all result graphs, both values of full diff, no semantic-diff tool", "why_tests_cant": "quantifies over all graphs and diffs", "anchors": ["diffkemp/semdiff/function_diff.py: functions_diff"]}
{"id": "C20", "title": "Every comparison ends with a definite verdict", "statement": "The verdict returned by a comparison of two functions is never 'none'.", "quantifier": "all graphs, both values of full diff, all syntactic diffs", "why_tests_cant": "the bad case needs a particular combination of full diff and empty diffs", "anchors": ["diffkemp/semdiff/function_diff.py: functions_diff"]}
{"id": "C21", "title": "Functions missing from one snapshot are skipped, functions without a module are unknown", "statement": "When comparing snapshots, a function of the old snapshot that is missing from the same group of the new one contributes no result; a function for which a module is missing on either side contributes the verdict unknown; all others are compared in the lexicographic order of groups and names.", "quantifier": "all pairs of snapshots", "why_tests_cant": "arbitrary snapshots", "anchors": ["diffkemp/diffkemp.py: compare"]}
{"id": "C22", "title": "The regex filter only hides not-equal functions whose diffs do not match", "statement": "With a regex filter, a function is reported equal only if it was equal or it was not-equal and none of its diffs matches; in particular an error stays an error.", "quantifier": "all inner results, all match predicates", "why_tests_cant": "universal over diffs and kinds", "anchors": ["diffkemp/diffkemp.py: compare"]}
{"id": "C23", "title": "The overall result always carries the comparison graph", "statement": "If at least one function has been compared, the overall result used for statistics and for the YAML output carries the graph with all compared functions.", "quantifier": "all sequences of functions to compare", "why_tests_cant": "depends on which function is processed last", "anchors": ["diffkemp/diffkemp.py: compare", "diffkemp/semdiff/result.py: Result.add_inner, report_object_stat", "diffkemp/output.py: YamlOutput"]}
{"id": "C24", "title": "The default output directory is fresh", "statement": "The default output directory name does not exist yet, has the form <base> or <base>-n, and n is the least unused suffix; the search terminates in every file system with finitely many entries.", "quantifier": "all finite sets of existing paths", "why_tests_cant": "termination and minimality over all file systems", "anchors": ["diffkemp/diffkemp.py: default_output_dir"]}
{"id": "C25", "title": "A snapshot's function list is a map from (group, name)", "statement": "Looking up a function in a group returns the description given by the last addition of that name to that group, or nothing if there was none; additions to other groups or names have no effect on it.", "quantifier": "all sequences of additions", "why_tests_cant": "refinement over all histories", "anchors": ["diffkemp/snapshot.py: Snapshot.add_fun, get_by_name"]}
{"id": "C26", "title": "Saving and loading a snapshot preserves its function list", "statement": "Loading the YAML produced for a snapshot yields a snapshot with the same groups, functions, global variables, tags and module files.", "quantifier": "all snapshots", "why_tests_cant": "round trip over all snapshots", "anchors": ["diffkemp/snapshot.py: Snapshot.to_yaml, _from_yaml"]}
{"id": "C27", "title": "Filtering a snapshot keeps exactly the requested functions", "statement": "Filtering a group to a list of names keeps exactly these names with their descriptions, in that order, leaves all other groups unchanged and fails iff some name or the group is missing.", "quantifier": "all snapshots and name lists", "why_tests_cant": "arbitrary lists", "anchors": ["diffkemp/snapshot.py: Snapshot.filter"]}
{"id": "C28", "title": "Built-in pattern options", "statement": "A pattern is active after processing the options iff it is in the defaults (or all patterns are enabled / none if all are disabled), unless it was enabled, unless it was disabled; disabling wins over enabling; control-flow-only implies type-casts; every pattern name accepted on the command line has this effect.", "quantifier": "all combinations of the options", "why_tests_cant": "all combinations of thirteen patterns and four options", "anchors": ["diffkemp/config.py: BuiltinPatterns.update_from_args, resolve_dependencies", "diffkemp/cli.py: BUILTIN_PATTERNS"]}
{"id": "C29", "title": "Custom pattern loading", "statement": "Loading custom patterns yields exactly the files that were parsed successfully; with the warning policy a failing pattern is skipped, with the error policy it aborts the run.", "quantifier": "all configuration files", "why_tests_cant": "arbitrary lists of pattern files and failures", "anchors": ["diffkemp/semdiff/custom_pattern_config.py: CustomPatternConfig"]}
{"id": "C30", "title": "Line numbers in diffs refer to the source files", "statement": "In the unified diff of two functions every hunk header gives the line numbers of the original files, i.e. the numbers of the diff of the extracted functions shifted by the starting lines.", "quantifier": "all diffs with any number of hunks, all starting lines", "why_tests_cant": "arbitrary numbers", "anchors": ["diffkemp/syndiff/function_syntax_diff.py: unified_syntax_diff, syntax_diff"]}
{"id": "C31", "title": "Extracted function text is the smallest block up to the terminator", "statement": "The end line found for a function (type) is the first line at or after its start that is a terminator for its kind, the extracted text is exactly the lines from start to end, and the search fails only if there is no such line.", "quantifier": "all source files and start lines", "why_tests_cant": "arbitrary files", "anchors": ["diffkemp/utils.py: get_end_line", "diffkemp/syndiff/function_syntax_diff.py: extract_code"]}
{"id": "C32", "title": "The compiler wrapper is transparent", "statement": "The wrapper passes the original arguments unchanged and in order to the real compiler, returns its exit code when it fails or when nothing is to be generated, and never lets a failure of the LLVM step change what the real compiler produced.", "quantifier": "all argument lists, all exit codes", "why_tests_cant": "arbitrary command lines", "anchors": ["diffkemp/building/cc_wrapper.py: wrapper"]}
{"id": "C33", "title": "The build database records the generated LLVM files", "statement": "Each object file produced by a compile command for which an LLVM file was generated has an entry in the database that is read back to exactly that LLVM file's path; everything that is read back existed after a successful run of the LLVM tool.", "quantifier": "all sequences of wrapper invocations", "why_tests_cant": "histories of compiler invocations", "anchors": ["diffkemp/building/cc_wrapper.py: wrapper", "diffkemp/llvm_ir/wrapper_build_finder.py: WrapperBuildFinder"]}
{"id": "C34", "title": "Candidate source files are unique and ordered by relevance", "statement": "The list of source files searched for a symbol definition has no duplicates, contains every file reported by either search step, and lists files with higher priority first.", "quantifier": "all outputs of the search tools", "why_tests_cant": "arbitrary lists", "anchors": ["diffkemp/llvm_ir/kernel_llvm_source_builder.py: KernelLlvmSourceBuilder._find_srcs_with_symbol_def"]}
{"id": "C35", "title": "gcc commands are translated to LLVM commands faithfully", "statement": "Translating a compile command keeps every supported option in order, drops exactly the unsupported ones, and directs the output to the .ll file.", "quantifier": "all command lines", "why_tests_cant": "arbitrary command lines", "anchors": ["diffkemp/llvm_ir/kernel_llvm_source_builder.py: gcc_to_llvm"]}
{"id": "C36", "title": "Temporary header changes are undone", "statement": "Disabling and then re-enabling the assembler features of a kernel header restores the original header.", "quantifier": "all header contents", "why_tests_cant": "arbitrary texts", "anchors": ["diffkemp/llvm_ir/kernel_llvm_source_builder.py: _disable_asm_features, _enable_asm_features"]}
{"id": "C37", "title": "Module lookup is consistent and respects the snapshot time", "statement": "For one source tree the same LLVM file is always represented by the same module object, and a module found for a symbol with a time limit was not modified after that time and defines the symbol.", "quantifier": "all sequences of lookups", "why_tests_cant": "histories", "anchors": ["diffkemp/llvm_ir/source_tree.py: SourceTree.get_module_for_symbol, _get_or_create_module"]}
{"id": "C38", "title": "Function name suffix handling", "statement": "A name has a droppable suffix iff it ends with '.void' or its part after the last dot consists of digits only and something other than digits and dots precedes; dropping it yields the part before the last dot; names match iff they are equal after dropping (or the right one carries the pattern prefix).", "quantifier": "all strings", "why_tests_cant": "all strings", "anchors": ["diffkemp/simpll/Utils.cpp: hasSuffix, dropSuffix, namesMatch"]}
{"id": "C39", "title": "Verdict for functions without bodies", "statement": "Two declarations are assumed equal iff their names agree up to suffixes; a declaration and a definition of the same name are assumed equal and exactly the missing side is reported as a missing definition (unless only control flow is compared); different names are not equal; a cached pair is unknown.", "quantifier": "all names, all combinations of bodies, both modes", "why_tests_cant": "full decision table over all names", "anchors": ["diffkemp/simpll/ModuleComparator.cpp: ModuleComparator::compareFunctions"]}
{"id": "C40", "title": "Function pairs become equal only after a successful comparison", "statement": "After comparing two functions with bodies, including all rounds of inlining, the recorded verdict is equal iff the last comparison run found no difference, and not-equal otherwise; pairs inlined on the way are dropped from the results only in the former case.", "quantifier": "all behaviours of the comparator and of inlining", "why_tests_cant": "loop with unbounded number of rounds", "anchors": ["diffkemp/simpll/ModuleComparator.cpp: ModuleComparator::compareFunctions, tryToInline"]}
{"id": "C41", "title": "Reordering of binary operations is sound", "statement": "If the reordered-binary-operations pattern declares two operation trees equal, they compute the same value for all inputs and all bit widths.", "quantifier": "all operation trees over add, mul, and, or, xor, all bit widths, all values of the operands", "why_tests_cant": "all trees and all 2^n inputs", "anchors": ["diffkemp/simpll/DifferentialFunctionComparator.cpp: collectBinaryOperands, cmpBasicBlocks", "diffkemp/simpll/Utils.cpp: isReorderableBinaryOp"]}
{"id": "C42", "title": "Inverse conditions pattern is sound", "statement": "If two comparisons have inverse predicates on equal operands and the branches (or selects, or boolean negations) using them are swapped, control flows to corresponding successors for all operand values.", "quantifier": "all predicates, all bit widths, all operand values", "why_tests_cant": "all values", "anchors": ["diffkemp/simpll/DifferentialFunctionComparator.cpp: cmpOperations, checkInverseCondUsers"]}
{"id": "C43", "title": "Functions the comparator finds equal behave equally", "statement": "If the basic comparator (no patterns) finds two functions equal, then for all arguments and initial memories running them gives the same outcome: same result, same final memory and same sequence of external calls, or both run forever or both get stuck.", "quantifier": "all pairs of functions of the modelled instruction set (arbitrary control flow, loops), all inputs, all numbers of steps", "why_tests_cant": "semantic equivalence over all inputs", "anchors": ["diffkemp/simpll/llvm-lib/16/FunctionComparator.cpp: compare, cmpBasicBlocks, cmpOperations, cmpValues"]}
{"id": "C44", "title": "The comparator is reflexive and insensitive to names and block order", "statement": "Comparing a function with itself, or with a copy in which values and blocks are renamed injectively and blocks are listed in a different order, yields equal.", "quantifier": "all functions, all renamings", "why_tests_cant": "all programs", "anchors": ["diffkemp/simpll/llvm-lib/16/FunctionComparator.cpp: compare, cmpValues"]}
{"id": "C45", "title": "Code relocations are accepted only if independent", "statement": "If moving a block of instructions past another instruction is accepted as a relocation, no instruction of the block reads or writes memory or a value that the other instruction writes, and vice versa.", "quantifier": "all blocks of instructions", "why_tests_cant": "arbitrary instruction sequences", "anchors": ["diffkemp/simpll/DifferentialFunctionComparator.cpp: isDependingOnReloc"]}
{"id": "C46", "title": "The alias check is conservative", "statement": "If the alias check says that two pointers do not alias, they denote different memory cells for all values of the non-constant indices.", "quantifier": "all pointer expressions, all index values", "why_tests_cant": "all values", "anchors": ["diffkemp/simpll/Utils.cpp: mayAlias, getAllocaFromPtr, mayStoreTo"]}
{"id": "C47", "title": "Slicing keeps everything the kept code depends on", "statement": "After control-flow slicing no remaining instruction uses the value of a removed one, all terminators and all calls except side-effect-free calls whose result is only stored are kept, and the remaining instructions keep their order.", "quantifier": "all functions", "why_tests_cant": "dependency closure for all programs", "anchors": ["diffkemp/simpll/passes/ControlFlowSlicer.cpp: ControlFlowSlicer::run, addWithOperands"]}
{"id": "C48", "title": "The called-functions analysis finds exactly the potentially called functions", "statement": "The analysis terminates and returns exactly the functions reachable from the main function through calls, operands and constant initialisers.", "quantifier": "all modules", "why_tests_cant": "reachability over arbitrary modules", "anchors": ["diffkemp/simpll/passes/CalledFunctionsAnalysis.cpp: collectCalled, processValue"]}
{"id": "C49", "title": "The side-effect check is conservative", "statement": "If the check says that a function has no side effect then no execution of it stores to memory, calls an unknown function or calls a function through a pointer, including in all functions it calls directly or indirectly.", "quantifier": "all call graphs, including recursive ones", "why_tests_cant": "fixed point over arbitrary call graphs", "anchors": ["diffkemp/simpll/Utils.cpp: hasSideEffect"]}
{"id": "C50", "title": "Argument lists are split correctly", "statement": "For a call text whose arguments have balanced brackets and no top-level comma, extracting the bracketed text and splitting it yields exactly the arguments (stripped of blanks).", "quantifier": "all lists of balanced arguments", "why_tests_cant": "all nesting depths", "anchors": ["diffkemp/simpll/SourceCodeUtils.cpp: getSubstringToMatchingBracket, splitArgumentsList"]}
{"id": "C51", "title": "Sysctl patterns", "statement": "A sysctl name component matches a pattern component iff the pattern is '*', or is a brace list containing the name, or equals the name; both implementations agree; sysctls found for a pattern are exactly the entries of the table that match.", "quantifier": "all strings", "why_tests_cant": "two implementations over all strings", "anchors": ["diffkemp/llvm_ir/llvm_sysctl_module.py: matches", "diffkemp/simpll/library/SysctlTable.cpp: matches, parseSysctls"]}
{"id": "C52", "title": "Parameter index filtering", "statement": "A use of a structured parameter is attributed to a field iff the constant indices of the access agree with the field's indices on their common length.", "quantifier": "all index lists", "why_tests_cant": "all lists", "anchors": ["diffkemp/simpll/library/DiffKempUtils.cpp: checkGEPIndicesCorrespond"]}
{"id": "C53", "title": "Navigation in the viewer visits every difference", "statement": "Following 'next' from the first compared (differing) function visits every function exactly once in the displayed order and ends; 'previous' is its inverse; first/last tests agree with them.", "quantifier": "all result files", "why_tests_cant": "all lists", "anchors": ["view/src/Result.js: getNextCompName, getPrevCompName, getNextDiffFunNameForComp, isFirstCompFun, isLastCompFun"]}
{"id": "C54", "title": "The viewer's two indices agree", "statement": "A compared function is listed for a differing function iff that differing function is listed for the compared function, and the diff returned for the pair is the one in the result file.", "quantifier": "all result files", "why_tests_cant": "all files", "anchors": ["view/src/Result.js: #createAllCompAndDiffFuns, getCompFuns, getDiffFuns, getDiff"]}
{"id": "C55", "title": "The YAML output lists exactly the visible differences", "statement": "The results section lists exactly the functions with verdict not-equal, in the order of their comparison (sorted by name if all are in one group), and for each of them exactly the differing objects except those with an empty diff that are covered by a non-function difference.", "quantifier": "all results", "why_tests_cant": "all collections", "anchors": ["diffkemp/output.py: YamlOutput._create_results"]}
{"id": "C56", "title": "Symbol names are extracted completely from call stacks", "statement": "Every entry of a call stack is attributed to exactly one of functions, macros and types according to its kind tag, and a type is paired with the function it is used in.", "quantifier": "all call stacks", "why_tests_cant": "arbitrary stacks", "anchors": ["diffkemp/semdiff/result.py: Result.Callstack.get_symbol_names"]}
{"id": "C57", "title": "Solver outcome mapping", "statement": "The verdict of the semantic comparison is timeout iff the time limit fired, otherwise error iff the solver failed or printed no answer, otherwise the verdict of the last answer printed.", "quantifier": "all solver outputs, exit codes and timer states", "why_tests_cant": "arbitrary output streams", "anchors": ["diffkemp/semdiff/function_diff.py: _run_llreve_z3"]}
{"id": "C58", "title": "Engine output is imported completely", "statement": "For every function result the engine emits, the imported function has exactly the calls of the left function on the left side and those of the right function on the right side.", "quantifier": "all engine outputs (sections for empty lists are omitted by the engine)", "why_tests_cant": "depends on which sections are omitted", "anchors": ["diffkemp/semdiff/caching.py: Vertex.from_yaml", "diffkemp/simpll/Output.cpp: MappingTraits<FunctionInfo>"]}
{"id": "C59", "title": "Blocks affected by a branch", "statement": "The blocks considered affected by a conditional branch are exactly those reachable through one of its successors but not through all of them.", "quantifier": "all control-flow graphs", "why_tests_cant": "all graphs", "anchors": ["diffkemp/simpll/passes/VarDependencySlicer.cpp: affectedBasicBlocks, reachableBlocksThroughSucc"]}
{"id": "C60", "title": "Textual replacement", "statement": "Replacing a non-empty text in a string terminates, replaces all non-overlapping occurrences from left to right and nothing else; replacing '/' by '$' is injective on strings without '$'.", "quantifier": "all strings", "why_tests_cant": "all strings", "anchors": ["diffkemp/simpll/Utils.cpp: findAndReplace"]}
{"id": "C61", "title": "Cache safety survives merging", "statement": "After the marks of a result have been computed and a later result has been merged into it, a function defined in a header that still depends through headers on an assumed-equal function defined outside of headers is still not cached.", "quantifier": "all call graphs and all later results", "why_tests_cant": "needs two assumed-equal functions below one header function of which only one is resolved later", "anchors": ["diffkemp/semdiff/caching.py: ComparisonGraph.absorb_graph, mark_uncachable_from_assumed_equal"]}
{"id": "C62", "title": "Every difference keeps its own text and entry", "statement": "When a comparison of two functions finds several differing objects, each of them has its own entry in the result of the comparison, and the text shown for a syntactic difference is the one the engine attached to that difference.", "quantifier": "all result graphs and lists of differences", "why_tests_cant": "needs two differences with the same name in different engine runs", "anchors": ["diffkemp/semdiff/caching.py: graph_to_fun_pair_list", "diffkemp/semdiff/function_diff.py: functions_diff", "diffkemp/semdiff/result.py: Result.add_inner"]}
{"id": "C63", "title": "No result emitted by the engine is lost in import", "statement": "Every function result the engine emits is represented by a function of the imported graph.", "quantifier": "all engine outputs", "why_tests_cant": "depends on the names of all results together", "anchors": ["diffkemp/simpll/simpll.py: run_simpll", "diffkemp/semdiff/caching.py: Vertex.from_yaml"]}
{"id": "C64", "title": "Linking never overwrites an original LLVM file", "statement": "Comparing two functions never writes to the LLVM file a module had before, whatever is linked.", "quantifier": "all file paths, all sequences of links", "why_tests_cant": "depends on the text of paths chosen by the user", "anchors": ["diffkemp/llvm_ir/llvm_module.py: LlvmModule.link_modules"]}
{"id": "C65", "title": "Results known before a comparison are known after it", "statement": "The graph attached to the result of a comparison contains every function of the graph that was passed in, also if the comparison fails.", "quantifier": "all graphs, all engine behaviours including failures after linking", "why_tests_cant": "needs a failure at a particular point of a sequence of engine runs", "anchors": ["diffkemp/semdiff/function_diff.py: functions_diff"]}
{"id": "C66", "title": "The cache contains no duplicates", "statement": "No cache file ever contains the same line twice (as the comment in functions_diff claims).", "quantifier": "all sequences of comparisons", "why_tests_cant": "invariant over histories of comparisons", "anchors": ["diffkemp/semdiff/function_diff.py: functions_diff", "diffkemp/semdiff/caching.py: SimpLLCache.update"]}
{"id": "C67", "title": "A strong dependency that differs is never hidden", "statement": "If a not-equal function is reached from the compared functions by a chain of calls ending with a strong dependency on both sides, the verdict of the comparison is not-equal or worse.", "quantifier": "all result graphs", "why_tests_cant": "depends on the order in which an arbitrary graph is searched", "anchors": ["diffkemp/semdiff/caching.py: reachable_from", "diffkemp/semdiff/function_diff.py: functions_diff"]}
{"id": "C68", "title": "Missing definitions are linked, and nothing else", "statement": "The final result of a comparison comes from a run of the engine on modules to which only modules found for symbols reported missing on the same side were linked, and for which nothing more could be linked for the definitions still reported missing.", "quantifier": "all engines, all lookups and linkers that may answer differently each time", "why_tests_cant": "ranges over all sequences of engine runs and lookups", "anchors": ["diffkemp/semdiff/function_diff.py: functions_diff, _link_symbol_def", "diffkemp/llvm_ir/llvm_module.py: LlvmModule.link_modules"]}
{"id": "C69", "title": "Creating a snapshot writes only into the snapshot", "statement": "Moving the LLVM files of a snapshot from the source directory to the snapshot directory gives every module a path inside the snapshot directory and overwrites no file of the source directory.", "quantifier": "all directory names and module paths", "why_tests_cant": "depends on the text of the paths the user chooses", "anchors": ["diffkemp/llvm_ir/llvm_module.py: LlvmModule.move_to_other_root_dir", "diffkemp/llvm_ir/source_tree.py: SourceTree.copy_source_files"]}
{"id": "C70", "title": "A generated snapshot lists exactly the requested functions", "statement": "Generating from a list of functions records each listed function once, with the module that defines it if there is one and without a module otherwise, and lists nothing else.", "quantifier": "all lists of function names, all source trees", "why_tests_cant": "arbitrary lists with repetitions and missing functions", "anchors": ["diffkemp/diffkemp.py: generate_from_function_list"]}
{"id": "C71", "title": "Every function that is not equal is mentioned", "statement": "After comparing two snapshots, every function that was not found equal is mentioned in the output: its differences are listed, or its verdict is printed. Listed differences are exactly the visible ones of that function, sorted by name, and nothing is listed for other functions.", "quantifier": "all pairs of snapshots, all comparison results", "why_tests_cant": "universal over verdicts, options and collections of functions", "anchors": ["diffkemp/diffkemp.py: compare, print_syntax_diff"]}
{"id": "C72", "title": "Reporting does not abort the comparison", "statement": "If no comparison of two functions raises an exception, the comparison of two snapshots completes, whatever the verdicts and options are.", "quantifier": "all pairs of snapshots, all comparison results, all options", "why_tests_cant": "depends on combinations of verdicts and options", "anchors": ["diffkemp/diffkemp.py: compare, print_syntax_diff"]}
{"id": "C73", "title": "A configured semantic tool decides the verdicts of differing functions", "statement": "If a semantic comparison tool is configured, the verdict listed for every differing function is the one given by the tool; without a tool it is the one of the syntactic engine.", "quantifier": "all tools, all engines, all result graphs", "why_tests_cant": "the tool and the engine are arbitrary", "anchors": ["diffkemp/semdiff/function_diff.py: functions_diff"]}
{"id": "C74", "title": "Known results are reused, and only definite ones", "statement": "A function is compared by the engine unless a previous comparison gave it a verdict other than assumed-equal for two functions in the same file. In that case the known results, the cache and the files are not changed.", "quantifier": "all histories of comparisons", "why_tests_cant": "depends on the results of arbitrary previous comparisons", "anchors": ["diffkemp/semdiff/function_diff.py: functions_diff"]}
{"id": "C75", "title": "Functions shown in the output are defined there", "statement": "Every compared function that is listed as not equal or occurs in a call stack of the YAML output is defined there with its file, first line and, if it can be found, last line in both snapshots; so is every differing type, and nothing else is.", "quantifier": "all comparison results, result graphs and iteration orders of sets", "why_tests_cant": "depends on arbitrary call stacks and graphs", "anchors": ["diffkemp/output.py: YamlOutput._create_function_defs, YamlOutput._create_type_defs"]}
{"id": "C76", "title": "Call stacks show paths relative to the snapshot", "statement": "A file of the snapshot is shown in the call stacks of the YAML output by its path relative to the snapshot directory; other files keep their paths.", "quantifier": "all directories and call stacks", "why_tests_cant": "arbitrary paths", "anchors": ["diffkemp/semdiff/result.py: Result.Callstack.to_output_yaml_with_rel_path"]}
{"id": "C77", "title": "The last line of a definition", "statement": "The last line given for a function or type is the first line from its start on that consists of a terminator and white space; it is omitted if there is none.", "quantifier": "all files and start lines", "why_tests_cant": "arbitrary files", "anchors": ["diffkemp/utils.py: get_end_line"]}
{"id": "C78", "title": "Both interfaces of the engine get the same patterns", "statement": "For every configuration made from the command line, the patterns that are active in the engine are exactly the configured ones, whether it is called as a library or as a program.", "quantifier": "all combinations of the options", "why_tests_cant": "all combinations of twelve patterns and two interfaces", "anchors": ["diffkemp/config.py: BuiltinPatterns.as_ffi_struct", "diffkemp/simpll/simpll.py: run_simpll", "diffkemp/simpll/SimpLL.cpp: main", "diffkemp/simpll/library/FFI.cpp: BuiltinPatternsFromC"]}
{"id": "C79", "title": "Diffs shown for functions contain the source lines", "statement": "The context diff shown for two functions contains the lines of the sources unchanged; only the line numbers of the hunks are shifted to those of the source files and the header of the function is added.", "quantifier": "all context diffs, all starting lines", "why_tests_cant": "arbitrary source lines", "anchors": ["diffkemp/syndiff/function_syntax_diff.py: syntax_diff"]}
{"id": "C80", "title": "Expansion of composite macro names terminates", "statement": "Replacing the parameters of a macro that are concatenated by ## by the arguments terminates for every macro body.", "quantifier": "all macro bodies, parameters and arguments", "why_tests_cant": "arbitrary texts", "anchors": ["diffkemp/simpll/SourceCodeUtils.cpp: expandCompositeMacroNames"]}
{"id": "C81", "title": "Modules using a symbol are found", "statement": "Looking up the modules that use a symbol gives exactly the existing LLVM files that the source finder knows to use it, for every kind of source tree.", "quantifier": "all source trees, finders and symbols", "why_tests_cant": "the finders return different kinds of results", "anchors": ["diffkemp/llvm_ir/source_tree.py: SourceTree.get_modules_using_symbol", "diffkemp/llvm_ir/single_llvm_finder.py: find_llvm_with_symbol_use", "diffkemp/llvm_ir/wrapper_build_finder.py: find_llvm_with_symbol_use"]}
{"id": "C82", "title": "Verdicts rest on recorded results of called functions", "statement": "After comparing functions, every pair of called functions met in the last comparison of a pair with a result has a result itself, so a difference found in a called function is reported.", "quantifier": "all modules, comparators, inlinings and orders of calls", "why_tests_cant": "the result of one pair is erased while another pair still depends on it; arbitrary call graphs", "anchors": ["diffkemp/simpll/ModuleComparator.cpp: ModuleComparator::compareFunctions", "diffkemp/simpll/DifferentialFunctionComparator.cpp: cmpGlobalValues"]}
{"id": "C83", "title": "Every comparison of two functions ends", "statement": "Comparing two functions of modules with finitely many functions ends with a recorded verdict; it neither runs forever nor aborts.", "quantifier": "all modules, comparators and inlinings, including recursive functions", "why_tests_cant": "arbitrary call graphs and numbers of inlinings", "anchors": ["diffkemp/simpll/ModuleComparator.cpp: ModuleComparator::compareFunctions, ModuleComparator::tryToInline"]}
{"id": "C84", "title": "Unreachable blocks are removed", "statement": "After slicing, exactly the blocks that cannot be reached from the entry of the function are removed; the others keep their order.", "quantifier": "all control-flow graphs", "why_tests_cant": "all graphs, with any number of blocks and cycles", "anchors": ["diffkemp/simpll/passes/VarDependencySlicer.cpp: deleteUnreachableBlocks, calculateReachableBlocksRecursive"]}
{"id": "C85", "title": "Slicing with respect to a variable finds everything that depends on it", "statement": "Every instruction that depends on the variable, through operands, branches or memory, is found to be dependent and kept in the slice.", "quantifier": "all functions: any blocks, instructions and operands", "why_tests_cant": "dependencies may go through arbitrarily long chains and loops", "anchors": ["diffkemp/simpll/passes/VarDependencySlicer.cpp: VarDependencySlicer::run, checkDependency, checkPhiDependency, addAllInstrs"]}
{"id": "C86", "title": "Variable of a module parameter", "statement": "The variable reported for a module parameter is the innermost variable in the description of the parameter; if there is none, none is reported.", "quantifier": "all descriptions of parameters, nested to any depth", "why_tests_cant": "any nesting", "anchors": ["diffkemp/simpll/library/DiffKempUtils.cpp: extractParamName"]}
{"id": "C87", "title": "Functions with different control flow are different", "statement": "Two functions that the comparison reports as equal return the same values with the same effects, in particular their loops and branches lead to the same code.", "quantifier": "all pairs of functions without phis and casts, all inputs, all machines", "why_tests_cant": "all control-flow graphs and all runs", "anchors": ["diffkemp/simpll/DifferentialFunctionComparator.cpp: cmpValues, cmpBasicBlocks", "diffkemp/simpll/llvm-lib/16/FunctionComparator.cpp: compare"]}
{"id": "C88", "title": "Skipped casts do not change results", "statement": "Two functions that are reported as equal after casts were skipped return the same values with the same effects.", "quantifier": "all pairs of functions with casts, all widths, all inputs", "why_tests_cant": "all values and all uses of the casts", "anchors": ["diffkemp/simpll/DifferentialFunctionComparator.cpp: maySkipInstruction, maySkipCast"]}
{"id": "C89", "title": "Comparisons can be repeated", "statement": "Comparing the same two functions once more gives the same verdict; a comparison leaves the functions as they were.", "quantifier": "all pairs of functions and all patterns", "why_tests_cant": "all histories of comparisons", "anchors": ["diffkemp/simpll/DifferentialFunctionComparator.cpp: cmpOperations, compare"]}
{"id": "C90", "title": "Skipped loads have the value of their replacement", "statement": "When the comparison skips a load because its value is already known, then whenever the load is executed it reads the current value of the replacement (an earlier load from the same pointer, or the value of an ignored store to it).", "quantifier": "all functions in SSA form, all runs from the entry, all machines", "why_tests_cant": "all control-flow graphs, all numbers of iterations of loops", "anchors": ["diffkemp/simpll/DifferentialFunctionComparator.cpp: maySkipLoad", "diffkemp/simpll/Utils.cpp: mayStoreTo, mayAlias"]}
{"id": "C91", "title": "Clicking in the viewer never leads to a broken page", "statement": "After any sequence of clicks the viewer shows a page whose list or difference exists, and every difference of the result file can be reached by clicks.", "quantifier": "all result files with distinct names, all sequences of clicks of any length", "why_tests_cant": "unbounded sequences of clicks over arbitrary result files", "anchors": ["view/src/components/ResultViewer.jsx: ResultViewer", "view/src/components/ResultNavigation.jsx: ResultNavigation", "view/src/Result.js: Result"]}
{"id": "C92", "title": "The viewer displays complete call stacks", "statement": "The viewer displays every call of the old and of the new call stack of a difference, in order.", "quantifier": "all pairs of call stacks of any lengths, all renamings", "why_tests_cant": "arbitrary pairs of call stacks", "anchors": ["view/src/components/Callstack.jsx: Callstack, findCorespondingPair"]}
{"id": "C93", "title": "Listings in the viewer show every function", "statement": "A listing shows a button for each function, in the given order, for any number of functions.", "quantifier": "all lists of functions", "why_tests_cant": "the split into columns depends on the number of functions", "anchors": ["view/src/components/FunctionListing.jsx: FunctionListing"]}
{"id": "C94", "title": "The viewer highlights the right calls", "statement": "For the selected function of a call stack the viewer highlights lines at which it makes a call of the call stack, in the old and in the new version, and none for the differing function.", "quantifier": "all pairs of call stacks and all selected functions", "why_tests_cant": "arbitrary pairs of call stacks", "anchors": ["view/src/components/Difference.jsx: Difference, getCallingLine"]}
{"id": "C95", "title": "Unifying copies of memory keeps behaviour", "statement": "Before the comparison, calls of `__memcpy` are replaced by LLVM's copy intrinsic; every function of the module has the same results and effects afterwards.", "quantifier": "all modules, all calls, all arguments and states, all machines in which `__memcpy` copies and returns the destination", "why_tests_cant": "arbitrary programs and executions of any length", "anchors": ["simpll/passes/UnifyMemcpyPass.cpp: UnifyMemcpyPass::run"]}
{"id": "C96", "title": "Merging functions that differ in their number keeps behaviour", "statement": "Before the comparison, functions whose names differ in a number after a dot are merged; every function does the same afterwards under its new name.", "quantifier": "all modules, all calls, arguments and states, all machines that do not depend on numbers in names", "why_tests_cant": "arbitrary programs and executions of any length", "anchors": ["simpll/passes/MergeNumberedFunctionsPass.cpp: MergeNumberedFunctionsPass::run"]}
{"id": "C97", "title": "Removing unused results keeps behaviour", "statement": "Calls whose result is not used are redirected to a new variant of the function without result; this succeeds, and every function of the module has the same results and effects afterwards.", "quantifier": "all modules, all other modules, all sets of called functions, all calls, arguments and states", "why_tests_cant": "arbitrary, also recursive programs and executions of any length", "anchors": ["simpll/passes/RemoveUnusedReturnValuesPass.cpp: RemoveUnusedReturnValuesPass::run"]}
{"id": "C98", "title": "Abstractions of indirect calls and inline assembly keep behaviour", "statement": "Indirect calls and inline assembly are replaced by calls of generated functions; with each generated function doing what it stands for, every function of the module does the same afterwards, and the new calls have the types of the generated functions.", "quantifier": "all modules, all sets of called functions, all calls, arguments and states", "why_tests_cant": "arbitrary programs; functions are shared between calls by a textual hash", "anchors": ["simpll/passes/FunctionAbstractionsGenerator.cpp: FunctionAbstractionsGenerator::run, funHash", "simpll/Utils.cpp: typeName"]}
{"id": "C99", "title": "Hiding what is printed changes nothing else", "statement": "Before the comparison of kernel functions the arguments of printing and warning functions are hidden; apart from what is printed, every function of the module has the same results and effects afterwards.", "quantifier": "all modules, all calls, arguments and states, all machines in which printing does not depend on the arguments otherwise", "why_tests_cant": "arbitrary programs and executions of any length", "anchors": ["simpll/passes/SimplifyKernelFunctionCallsPass.cpp: SimplifyKernelFunctionCallsPass::run, isKernelPrintFunction, isKernelWarnFunction"]}
{"id": "C100", "title": "Global values that are found equal stand for the same", "statement": "If two global values (variables, constants, functions) are found equal, then they have the same name, or they are constants with the same content, in which again the same global values are mentioned; cycles between constants included.", "quantifier": "all pairs of modules with any number of globals that mention each other arbitrarily", "why_tests_cant": "contents may be cyclic; pairs under comparison are assumed equal, which is only right if no difference can hide in the cycle", "anchors": ["simpll/DifferentialFunctionComparator.cpp: cmpGlobalValues", "simpll/llvm-lib/16/FunctionComparator.cpp: cmpConstants"]}
{"id": "C101", "title": "The comparison of global values ends and finds a module equal to itself", "statement": "The comparison of two global values ends for all modules, also if constants mention each other in cycles, and a global value is found equal to itself.", "quantifier": "all modules with any number of globals that mention each other arbitrarily", "why_tests_cant": "recursion over cyclic data of arbitrary size", "anchors": ["simpll/DifferentialFunctionComparator.cpp: cmpGlobalValues, assumedEqual"]}
{"id": "C102", "title": "Only values of macros may change", "statement": "Different constants of the two versions are only found equal if both were written as the same macro or enumerator.", "quantifier": "all macros and enumerators of the two versions, all constants", "why_tests_cant": "constants are matched by their value, so any literal anywhere may be concerned", "anchors": ["simpll/DebugInfo.cpp: calculateMacroAlignments, collectMacrosWithValue, addAlignment", "simpll/DifferentialFunctionComparator.cpp: cmpValues"]}
{"id": "C103", "title": "Changed values of macros and enumerators are ignored", "statement": "If the value of a macro or enumerator that is defined once in each version changes, then the constants it stands for are found equal.", "quantifier": "all macros and enumerators of the two versions, all values", "why_tests_cant": "depends on all other definitions with the same value, on signs and on where macros are defined", "anchors": ["simpll/DebugInfo.cpp: calculateMacroAlignments, collectMacrosWithValue, addAlignment, getEnumValue", "simpll/DifferentialFunctionComparator.cpp: cmpValues"]}
{"id": "C104", "title": "Calls that are found equal pass the same values", "statement": "Calls that are found equal call the same function, and each argument has the same value, or is written as the same macro for a place (such as __LINE__), or is the size of the same structure.", "quantifier": "all pairs of calls with any arguments, all values of variables, all source lines", "why_tests_cant": "arguments are accepted because of text in the source, and the rest of the call must still be compared", "anchors": ["simpll/DifferentialFunctionComparator.cpp: cmpOperationsWithOperands, cmpCallArgumentUsingCSource", "simpll/SourceCodeUtils.cpp: findFunctionCallSourceArguments"]}
{"id": "C105", "title": "Allocations that are found equal allocate the same", "statement": "Calls of an allocation function or memset that are found equal have the same values as arguments, except for sizes of the same structure.", "quantifier": "all pairs of calls of allocation functions and memset, all values of variables", "why_tests_cant": "holds for each argument and each combination of known types", "anchors": ["simpll/DifferentialFunctionComparator.cpp: cmpAllocs, cmpMemset"]}
{"id": "C106", "title": "An additional argument is only ignored if it is null", "statement": "Calls of which one has an additional argument are only found equal if they call the same function, the common arguments have the same values and the additional one is zero or null.", "quantifier": "all pairs of calls with different numbers of arguments, all values of variables", "why_tests_cant": "must hold for an additional argument on either side, whatever was compared before", "anchors": ["simpll/DifferentialFunctionComparator.cpp: cmpCallsWithExtraArg"]}
{"id": "C107", "title": "Exactly the macros of a line are found", "statement": "The macros that are found for a source line are exactly those to which the line expands: macros named in the line or in the body of another such macro. The search ends for all definitions.", "quantifier": "all source lines and all sets of macro definitions, also with cycles", "why_tests_cant": "names are found by a hand-written scanner and followed through bodies of any depth", "anchors": ["simpll/SourceCodeUtils.cpp: collectMacroUsesAtLocation", "simpll/Utils.cpp: isValidCharForIdentifier, isValidCharForIdentifierStart"]}
{"id": "C108", "title": "Differences of macros are found with correct stacks", "statement": "After any earlier queries, all macros that differ between two lines are reported, and each reported difference is a macro with different bodies, with stacks that lead from the line to the macro.", "quantifier": "all pairs of lines, all definitions of macros, all sequences of earlier queries", "why_tests_cant": "depends on what was stored by earlier queries and on chains of macros of any length", "anchors": ["simpll/SourceCodeUtils.cpp: findMacroDifferences, getAllMacroUsesAtLocation"]}
{"id": "C109", "title": "The definition of a macro is the one that holds", "statement": "The definition that is used for a macro is the one that holds at the end of the compile unit: the last one in the order of the source, unless it is undefined, definitions on the command line included.", "quantifier": "all trees of macro definitions in nested files", "why_tests_cant": "files are nested arbitrarily and names may be defined, undefined and redefined in any order", "anchors": ["simpll/SourceCodeUtils.cpp: collectMacroDefs"]}
{"id": "C110", "title": "Differences of macros do not depend on earlier queries", "statement": "What is reported for two lines does not depend on the lines for which differences were searched before.", "quantifier": "all sequences of queries for all lines and definitions", "why_tests_cant": "results are cached for each line and changed by later queries", "anchors": ["simpll/SourceCodeUtils.cpp: getAllMacroUsesAtLocation, findMacroDifferences"]}
{"id": "C111", "title": "Outputs of a matched pattern are used in the same places", "statement": "Where two functions are found equal with the help of a custom pattern, code that uses an output of the matched pattern in the first function uses the related output in the second one.", "quantifier": "all pairs of functions, all custom patterns and all their matches", "why_tests_cant": "depends on the numbers that values got in all comparisons before", "anchors": ["simpll/CustomPatternComparator.cpp: processPatternMatch, matchValuePattern", "simpll/DifferentialFunctionComparator.cpp: createPatternMapping"]}
{"id": "C112", "title": "The comparison with custom patterns ends", "statement": "The comparison of two functions ends for all custom patterns.", "quantifier": "all pairs of functions and all custom patterns", "why_tests_cant": "the comparison is repeated after every match, and matches may be anywhere in the code", "anchors": ["simpll/DifferentialFunctionComparator.cpp: cmpBasicBlocks", "simpll/InstPatternComparator.cpp: matchPattern"]}
{"id": "C113", "title": "What is matched is an occurrence of the pattern", "statement": "The code that is excluded from the comparison because of a custom pattern is an occurrence of the pattern in both functions: the same operations, on values that stand for those of the pattern, and all of its instructions.", "quantifier": "all pairs of functions and all custom patterns, with any instructions in between", "why_tests_cant": "code of any length and any order is matched with serial numbers and inputs that are changed by failed attempts", "anchors": ["simpll/InstPatternComparator.cpp: compare, cmpBasicBlocks, mapInputValues, checkInputMapping", "simpll/CustomPatternComparator.cpp: matchInstPattern"]}
{"id": "C114", "title": "Occurrences of a pattern are found", "statement": "Code of a custom pattern that occurs in a block is found, also if other instructions come in between.", "quantifier": "all patterns of one block, all programs and all occurrences", "why_tests_cant": "other instructions are compared first, and these failed comparisons must not change the state", "anchors": ["simpll/InstPatternComparator.cpp: cmpBasicBlocks, eraseNewlyMapped, cmpValues"]}
{"id": "C115", "title": "Pattern files are loaded", "statement": "Loading of a file of custom patterns does not crash, and gives the patterns that are described by its functions, with their outputs in order.", "quantifier": "all files with any functions", "why_tests_cant": "files are written by users and may contain any pairs of functions", "anchors": ["simpll/CustomPatternSet.cpp: addPatternFromModule, getPatternType, initializeInstPattern, initializeInstPatternSide, initializeValuePattern"]}
{"id": "C116", "title": "Value patterns equate described values only", "statement": "With value patterns, functions that are found equal use the same constants and results of instructions that were found equal, or two values that one of the patterns describes.", "quantifier": "all pairs of functions and all value patterns", "why_tests_cant": "loads may be skipped on one side, and values are compared by numbers afterwards", "anchors": ["simpll/CustomPatternComparator.cpp: matchValues, matchValuePattern", "simpll/ValuePatternComparator.cpp: compare"]}
{"id": "C117", "title": "Value patterns do not crash the comparison", "statement": "The comparison of two functions with value patterns does not crash.", "quantifier": "all pairs of functions and all value patterns", "why_tests_cant": "any values of the programs are compared with those of the patterns", "anchors": ["simpll/ValuePatternComparator.cpp: compare", "simpll/ValuePatternComparator.h: ValuePatternComparator"]}
{"id": "C118", "title": "Results of equal instructions are used in the same places", "statement": "Where two functions are found equal, an instruction that uses the result of an instruction of the first function is found equal only to one that uses the result of the instruction to which this one is equal.", "quantifier": "all pairs of functions and all custom patterns", "why_tests_cant": "numbers of values are taken back after failed comparisons and given away again", "anchors": ["simpll/DifferentialFunctionComparator.cpp: undoLastInstCompare, createPatternMapping, cmpValues"]}
{"id": "C119", "title": "Arguments of a matched pattern are equal in both programs", "statement": "When a custom pattern is matched, the values for each of its arguments in the two functions were found equal.", "quantifier": "all pairs of functions, all custom patterns with any number of arguments, all earlier comparisons", "why_tests_cant": "arguments may be used on one side only, and are then searched by their users", "anchors": ["simpll/CustomPatternComparator.cpp: inputMappingValid", "simpll/InstPatternComparator.cpp: cmpInputValues"]}
{"id": "C120", "title": "Every instruction is compared or matched", "statement": "If the code of two functions is found equal, every instruction of each of them is found equal to an instruction of the other, with the same operation and in the same order, or it is in code matched by a custom pattern.", "quantifier": "all pairs of functions and all custom patterns", "why_tests_cant": "instructions are skipped when they were marked by any earlier match", "anchors": ["simpll/DifferentialFunctionComparator.cpp: cmpBasicBlocks, isPartOfPattern", "simpll/CustomPatternComparator.cpp: processPatternMatch"]}
{"id": "C121", "title": "Index and name of a structure member belong together", "statement": "In the layout that the debug information describes, the name found at the index of a member is the name of a member in the same storage unit.", "quantifier": "all structures with distinct member names, with bit fields and any alignments", "why_tests_cant": "the index is computed from offsets, sizes and alignments of all members before", "anchors": ["simpll/DebugInfo.cpp: getTypeMemberIndex, getElementNameAtIndex, isSameElemIndex"]}
{"id": "C122", "title": "Collected names of members are true", "statement": "Every name that is recorded for an index of a structure type is the name of the member at this index in the debug information of the module the type comes from.", "quantifier": "all pairs of modules and all their address computations", "why_tests_cant": "names are recorded from all address computations of the module and from those at the same position in the other module", "anchors": ["simpll/DebugInfo.cpp: calculateGEPIndexAlignments, extractNamesFromGEPs"]}
{"id": "C123", "title": "Equal accesses reach the same member", "statement": "Two address computations with constant indices that are found equal compute the same offset, or go to members with the same names.", "quantifier": "all pairs of structure types and all constant indices", "why_tests_cant": "structures of both versions have any members, and the names depend on the whole module", "anchors": ["simpll/DifferentialFunctionComparator.cpp: cmpGEPs"]}
{"id": "C124", "title": "Equal sequences of field accesses do the same", "statement": "Two blocks that are found equal, with accesses split into steps in any way, execute the same other instructions with the same operands.", "quantifier": "all pairs of blocks, all arguments and all results of loads and calls", "why_tests_cant": "numbers of values are given before accesses are compared and stay if they fail", "anchors": ["simpll/DifferentialFunctionComparator.cpp: cmpFieldAccess, cmpBasicBlocks, getReplacementValue", "simpll/FieldAccessUtils.cpp: isConstantMemoryAccessToPtr"]}
{"id": "C125", "title": "Accesses that are only split differently are found equal", "statement": "Two versions of a program that differ only in how the accesses to members are split into steps with the same sum are found equal.", "quantifier": "all programs and all ways to split their accesses", "why_tests_cant": "depends on the numbers given to the pointers inside accesses, over the whole block", "anchors": ["simpll/DifferentialFunctionComparator.cpp: cmpFieldAccess, cmpBasicBlocks", "simpll/FieldAccessUtils.cpp: isConstantMemoryAccessToPtr"]}
{"id": "C126", "title": "Equality of types does not depend on the order of the versions", "statement": "If a type of the first version is found equal to one of the second version, it is so too when the versions are swapped.", "quantifier": "all types, all data layouts and all settings of the patterns", "why_tests_cant": "types nest to any depth and the rule for unions depends on sizes", "anchors": ["simpll/DifferentialFunctionComparator.cpp: cmpTypes"]}
{"id": "C127", "title": "Equal types have the same layout", "statement": "Types that are found equal have the same size and alignment.", "quantifier": "all types, all data layouts and all settings of the patterns", "why_tests_cant": "types nest to any depth", "anchors": ["simpll/DifferentialFunctionComparator.cpp: cmpTypes"]}
{"id": "C128", "title": "Equality of types carries over from version to version", "statement": "Every type is equal to itself, and if a type is equal over two steps of versions, it is equal over both together.", "quantifier": "all types of three versions and all settings of the patterns", "why_tests_cant": "relates three comparisons of types of any depth", "anchors": ["simpll/DifferentialFunctionComparator.cpp: cmpTypes"]}
{"id": "C129", "title": "Integer constants of different types are compared by value", "statement": "When casts are ignored, two integer constants are found equal exactly if they stand for the same number.", "quantifier": "all widths and values", "why_tests_cant": "all widths and values, also beyond 64 bits", "anchors": ["simpll/DifferentialFunctionComparator.cpp: cmpAPInts"]}
{"id": "C130", "title": "Snapshot of sysctl options is complete and exact", "statement": "If the generation of a snapshot from a list of sysctl options or patterns ends normally, then for every option of the kernel's tables that matches the list its group contains the handler, if there is source code for it, and all other functions using the data of the option; and the snapshot contains nothing else.", "quantifier": "all lists of patterns, all tables of options and all answers of the source tree", "why_tests_cant": "tables nest to any depth and patterns may match any number of options", "anchors": ["diffkemp/diffkemp.py: generate_from_sysctl_list", "diffkemp/llvm_ir/kernel_source_tree.py: get_sysctl_module", "diffkemp/simpll/library/SysctlTable.cpp: SysctlTable"]}
{"id": "C131", "title": "One sysctl option that cannot be analysed does not prevent the snapshot of others", "statement": "The generation of a snapshot from a list of sysctl options ends normally also if some of the options do not exist or are not used.", "quantifier": "all lists of options, all tables and all answers of the source tree", "why_tests_cant": "any option of the list may be missing, at any place of the hierarchy", "anchors": ["diffkemp/diffkemp.py: generate_from_sysctl_list", "diffkemp/llvm_ir/kernel_source_tree.py: get_sysctl_module"]}
{"id": "C132", "title": "Handler, data and child of a sysctl option are those of its table entry", "statement": "For every option found in a table, the reported handler is the function in its entry, and the reported data and child table are the variables whose addresses are in its entry, with the indices of the address.", "quantifier": "all tables, options and address expressions", "why_tests_cant": "tables of any length and addresses of any shape", "anchors": ["diffkemp/simpll/library/SysctlTable.cpp: getSysctl, getProcFun, getGlobalVariableAtIndex"]}
{"id": "C133", "title": "The table of a sysctl option is found by the names of its parents", "statement": "The search for the table of an option ends with a table iff this table is reached from the root table by following the child tables of the entries named by the components of the option.", "quantifier": "all options and all hierarchies of tables", "why_tests_cant": "hierarchies of any depth over any number of files", "anchors": ["diffkemp/llvm_ir/kernel_source_tree.py: get_sysctl_module"]}
{"id": "C134", "title": "LLVM files of kernel sources are those of the current sources", "statement": "Whenever the build of a source of the kernel returns, the LLVM file is what the current source and headers compile to, with the optimisations applied, after any history of changes and of builds that failed or were interrupted.", "quantifier": "all histories of edits, builds and failures", "why_tests_cant": "depends on the whole history of the directory, including interrupted builds", "anchors": ["diffkemp/llvm_ir/kernel_llvm_source_builder.py: _build_source_to_llvm"]}
{"id": "C135", "title": "LLVM files of kernel modules are those of the current sources", "statement": "Whenever the build of a kernel module returns, its LLVM file is linked from what the current sources of the module compile to, after any history of changes and of builds that failed or were interrupted.", "quantifier": "all modules and all histories of edits, builds, failures and interruptions", "why_tests_cant": "the crash may come between any two programs of any earlier build", "anchors": ["diffkemp/llvm_ir/kernel_llvm_source_builder.py: _build_kernel_mod_to_llvm"]}
{"id": "C136", "title": "Linking of LLVM files corresponds to linking of objects", "statement": "The llvm-link command made from a command of the linker links the LLVM files of the same objects in the same order into the LLVM file of the same output.", "quantifier": "all command lines of the linker", "why_tests_cant": "command lines have any number of words in any order", "anchors": ["diffkemp/llvm_ir/kernel_llvm_source_builder.py: _ld_to_llvm"]}
{"id": "C137", "title": "Every source of a kernel module is compiled", "statement": "The commands by which a module is built into LLVM IR contain, in the order of Kbuild, one for each compilation that Kbuild runs, except for the source generated for the module.", "quantifier": "all names of modules and all outputs of make", "why_tests_cant": "any output of make and any names of files", "anchors": ["diffkemp/llvm_ir/kernel_llvm_source_builder.py: _extract_gcc_or_ld_command_list, _kbuild_to_llvm_commands"]}
{"id": "C138", "title": "Every comparison receives the result of the engine", "statement": "In every sequence of comparisons, each comparison receives exactly what the engine says about the two functions, or is reported as an error if the engine fails on it; a failure affects no other comparison.", "quantifier": "all sequences of comparisons, all results of the engine including crashes and texts of any length, both interfaces", "why_tests_cant": "ranges over everything the engine may output and over its crashes", "anchors": ["diffkemp/simpll/simpll.py: run_simpll", "diffkemp/simpll/library/FFI.cpp: runSimpLL, parseAndRunSimpLL"]}
{"id": "C139", "title": "Loading modules in advance changes no result", "statement": "The option that keeps often used modules in memory does not change the outcome of any comparison.", "quantifier": "all sequences of comparisons and all choices of modules", "why_tests_cant": "depends on the history of comparisons that use the modules in memory", "anchors": ["diffkemp/simpll/simpll.py: run_simpll", "diffkemp/simpll/library.py: SimpLLModule.preprocess", "diffkemp/simpll/ModuleAnalysis.cpp: preprocessModule"]}
{"id": "C140", "title": "The modules loaded in advance are those used often", "statement": "The modules kept in memory are exactly those that are used at least as often as required by functions that are in both snapshots.", "quantifier": "all snapshots and all thresholds above zero", "why_tests_cant": "snapshots have any number of functions", "anchors": ["diffkemp/diffkemp.py: _get_modules_to_cache"]}
{"id": "C141", "title": "Differences of structures are reported with their definitions", "statement": "If two field accesses go through structures of the same name that differ, the difference is reported under this name with the files and lines of the definitions in both versions, and nothing else is reported.", "quantifier": "all modules with debug information, all sequences of types of field accesses and all comparisons of types", "why_tests_cant": "graphs of debug information have any size and any cycles", "anchors": ["diffkemp/simpll/passes/StructureDebugInfoAnalysis.cpp: run", "diffkemp/simpll/DifferentialFunctionComparator.cpp: findTypeDifferences, findTypeDifference"]}
{"id": "C142", "title": "All structures of a field access are examined", "statement": "When a difference is found at the end of a field access, the access is found from its end, and the types of all its steps are examined.", "quantifier": "all blocks and all field accesses in them", "why_tests_cant": "blocks and accesses have any length, and pointers may be used several times", "anchors": ["diffkemp/simpll/FieldAccessUtils.cpp: getFieldAccessStart, getFieldAccessSourceTypes"]}
{"id": "C143", "title": "Simplification of kernel globals keeps code", "statement": "Removal of the kernel symbol table and merging of compile-time assertions change nothing in the code of functions, except for the numbers of declared assertions.", "quantifier": "all modules", "why_tests_cant": "modules have any functions and variables with any names", "anchors": ["diffkemp/simpll/passes/SimplifyKernelGlobalsPass.cpp: run"]}
{"id": "C144", "title": "Anonymous structures have the same name in both versions", "statement": "Structures with names keep them, and anonymous structures that are declared in the same way get the same name in both versions.", "quantifier": "all pairs of modules, all hash functions and all orders of types", "why_tests_cant": "declarations refer to each other in any way", "anchors": ["diffkemp/simpll/passes/StructHashGeneratorPass.cpp: run"]}
{"id": "C145", "title": "A snapshot contains the sources of its modules", "statement": "When a snapshot is created, the C sources and headers in the source directory that the debug information of a module describes are in the snapshot, at the same place and with their contents, and no file outside of the snapshot changes.", "quantifier": "all modules, all contents of the source directory and of the snapshot directory, all orders of copying", "why_tests_cant": "any directory contents before the build and any paths in debug information", "anchors": ["diffkemp/llvm_ir/source_tree.py: copy_source_files", "diffkemp/llvm_ir/llvm_module.py: get_included_sources"]}
{"id": "C146", "title": "Moving a module changes its paths only", "statement": "In the copy of a module in a snapshot, paths in the source directory are replaced by paths in the snapshot, and nothing else is changed.", "quantifier": "all source directories, all snapshot directories and all lines of modules", "why_tests_cant": "any name of a directory may occur in any text of a module", "anchors": ["diffkemp/llvm_ir/llvm_module.py: move_to_other_root_dir"]}
{"id": "C147", "title": "Definitions are recognised in the text of a module", "statement": "A module is said to contain the definition of a function or a global variable exactly if its text defines it.", "quantifier": "all names and all modules printed by LLVM", "why_tests_cant": "names and modules are arbitrary", "anchors": ["diffkemp/llvm_ir/llvm_module.py: has_function, has_global"]}
{"id": "C148", "title": "The compiler wrapper works with the given settings", "statement": "In a build of a project, the wrapper uses the compiler, the linker, the appended and the dropped options given on the command line, and the build sees the other variables of the environment.", "quantifier": "all options and all environments", "why_tests_cant": "options and environments are arbitrary texts", "anchors": ["diffkemp/diffkemp.py: build_c_project", "diffkemp/building/cc_wrapper.py: wrapper"]}
{"id": "C149", "title": "Cleaning keeps the log of configure", "statement": "Cleaning the project before a build changes neither config.log nor config.log.bak, and after an interruption at any point the next run puts the log back.", "quantifier": "all contents of the two files, all effects of make clean and all points of interruption", "why_tests_cant": "the tool may be interrupted at any point", "anchors": ["diffkemp/diffkemp.py: build_c_project"]}
{"id": "C150", "title": "The project is configured again with its own command", "statement": "With a log of configure, the project is configured with the command in the log and the wrapper as compiler, unless the command has this setting.", "quantifier": "all logs, commands and paths of the wrapper", "why_tests_cant": "commands are arbitrary texts", "anchors": ["diffkemp/diffkemp.py: build_c_project"]}
{"id": "C151", "title": "All listed symbols are read", "statement": "Reading the list of functions that was written for a project gives exactly the functions of the project.", "quantifier": "all lists of functions", "why_tests_cant": "lists and names are arbitrary", "anchors": ["diffkemp/diffkemp.py: read_symbol_list", "diffkemp/llvm_ir/wrapper_build_finder.py: initialize"]}
{"id": "C152", "title": "Statistics count every differing object once", "statement": "The extended statistics print the number of different objects (functions, types, macros, pieces of assembly code) that differ, and each of them is counted in exactly one class.", "quantifier": "all results of comparisons", "why_tests_cant": "the number of results, their names and kinds are unbounded", "anchors": ["diffkemp/semdiff/result.py: Result.report_object_stat"]}
{"id": "C153", "title": "The log shows the comparisons that failed", "statement": "The log printed in verbose mode shows, in order and indented by depth, exactly the comparisons in which a difference was found and that lie only in such comparisons; with more verbosity also the important ones without a difference.", "quantifier": "all sequences of nested comparisons with any results, both levels of verbosity", "why_tests_cant": "nesting and results of comparisons are arbitrary", "anchors": ["diffkemp/simpll/Logger.cpp: Logger::log, Logger::dump", "diffkemp/simpll/Logger.h: PREP_LOG, RETURN_WITH_LOG", "diffkemp/simpll/DifferentialFunctionComparator.cpp: cmpGlobalValues"]}
{"id": "C154", "title": "Arguments of inline assembly are shown with their names", "statement": "For each argument of differing inline assembly a text is shown that contains the names of all variables and structure members that are accessed.", "quantifier": "all values, all types and names of members", "why_tests_cant": "values are arbitrarily nested", "anchors": ["diffkemp/simpll/Utils.cpp: getIdentifierForValue", "diffkemp/simpll/DifferentialFunctionComparator.cpp: findAsmDifference"]}
{"id": "C155", "title": "Functions with phis that are found equal behave equally", "statement": "If two functions with merges of values (phis), loops included, are found equal without patterns, they return the same values with the same effects for all arguments and every memory.", "quantifier": "all pairs of functions with the same control flow and without casts, all machines, arguments and memories, runs of any length", "why_tests_cant": "functions, paths through loops and values are unbounded", "anchors": ["diffkemp/simpll/DifferentialFunctionComparator.cpp: compare, cmpPHIs, cmpValues, cmpBasicBlocks"]}
{"id": "C156", "title": "The viewer shows the sources and the diffs of all compared definitions", "statement": "For every definition in the results of a comparison whose source files exist, the viewer shows the old source file of the definition and the differences of its two versions.", "quantifier": "all results, all source files and all locations of the snapshots", "why_tests_cant": "names, contents and locations of files are unbounded", "anchors": ["diffkemp/diffkemp.py: view", "diffkemp/syndiff/function_syntax_diff.py: unified_syntax_diff", "view/src: fetching of files"]}
{"id": "C157", "title": "Viewing leaves no traces", "statement": "After the viewer ends, the file system is as before, except that the data directory of the viewer is empty.", "quantifier": "all results, all file systems", "why_tests_cant": "which files are overwritten depends on paths in the results", "anchors": ["diffkemp/diffkemp.py: view"]}
{"id": "C158", "title": "Searching the sources of a kernel finds all occurrences of a symbol", "statement": "A search for a symbol in the sources of a kernel finds all occurrences in C sources outside of Documentation, scripts and tmp, with the current contents of the sources, and nothing else, no matter what was searched before.", "quantifier": "all trees of sources, all sequences of searches, all states left by previous runs", "why_tests_cant": "directories, names of files and sequences of searches are unbounded", "anchors": ["diffkemp/llvm_ir/kernel_llvm_source_builder.py: _build_cscope_database, _cscope_run"]}
{"id": "C159", "title": "The commands that build a kernel module are found by the name of the module", "statement": "If there is a file of a module, whose name may have dashes in place of underscores, the commands that make would use to build it are found by the name of the module.", "quantifier": "all modules, all behaviours of make", "why_tests_cant": "names and outputs of make are unbounded", "anchors": ["diffkemp/llvm_ir/kernel_llvm_source_builder.py: _kbuild_module_commands, _extract_gcc_or_ld_command_list"]}
{"id": "C160", "title": "The report lists the functions that it counts as unknown and as errors", "statement": "With --show-errors, the functions listed below each heading are exactly those counted in the statistics.", "quantifier": "all results of comparisons", "why_tests_cant": "the number of functions and all combinations of results are unbounded", "anchors": ["diffkemp/semdiff/result.py: report_symbol_stat"]}
{"id": "C161", "title": "A snapshot that can be loaded is complete", "statement": "Whenever the creation of a snapshot stops, by an error or because it is interrupted, a directory that can be loaded is the whole old snapshot or the whole new one, with all files that its description lists.", "quantifier": "all runs, all points at which a run stops, all previous contents of the directory", "why_tests_cant": "every point between two changes of files is a crash point", "anchors": ["diffkemp/snapshot.py: create_from_source, generate_snapshot_dir, load_from_dir", "diffkemp/diffkemp.py: build_kernel, build_c_project, build_c_file, llvm_to_snapshot"]}
{"id": "C162", "title": "A failed creation of a snapshot keeps the existing snapshot", "statement": "If a snapshot cannot be created, an existing snapshot in the output directory stays as it was; if it is created, it replaces everything that was in the directory.", "quantifier": "all lists of symbols, all contents of the directory, all results of the generation", "why_tests_cant": "inputs that fail and contents of directories are unbounded", "anchors": ["diffkemp/diffkemp.py: build_kernel, llvm_to_snapshot, read_symbol_list", "diffkemp/snapshot.py: create_from_source"]}
{"id": "C163", "title": "Creating a snapshot of a kernel leaves its headers as they were", "statement": "Whenever the creation of a snapshot of a kernel stops, the headers of the kernel have their original contents.", "quantifier": "all headers, all sequences of commands that stop anywhere", "why_tests_cant": "the headers depend on all previous commands and on the points at which they stopped", "anchors": ["diffkemp/diffkemp.py: build_kernel", "diffkemp/llvm_ir/kernel_llvm_source_builder.py: initialize, finalize, _disable_asm_features, _enable_asm_features", "diffkemp/snapshot.py: finalize"]}
{"id": "C164", "title": "If nothing is found different, the programs behave equally", "statement": "If a function is compared with its namesake in another program, no pair of functions is reported as different and no definition is reported as missing, then the function returns in the same cases in both programs, with the same values and effects, together with everything it calls, directly or recursively.", "quantifier": "all programs, all recursive calls, all arguments and memories, all depths of calls", "why_tests_cant": "the verdict combines the comparisons of all called functions and must hold for all executions of both programs", "anchors": ["diffkemp/simpll/ModuleComparator.cpp: compareFunctions", "diffkemp/simpll/DifferentialFunctionComparator.cpp: cmpGlobalValues, compare", "diffkemp/simpll/ModuleAnalysis.cpp: simplifyModulesDiff"]}
{"id": "C165", "title": "Inlining during the comparison does not hide differences", "statement": "Code may be moved into a new function or out of one, and calls are inlined while two programs are compared. If no pair of functions is reported as different and no definition is missing, the compared function does the same in both original programs, provided that inlining and simplification keep what the changed function does.", "quantifier": "all programs, all inliners that keep what functions do, all sequences of inlined calls, all arguments and memories", "why_tests_cant": "functions are changed while others rest on earlier results about them; this must be right for every order of comparisons, inlinings and recursive calls", "anchors": ["diffkemp/simpll/ModuleComparator.cpp: compareFunctions, tryToInline", "diffkemp/simpll/DifferentialFunctionComparator.cpp: compare"]}
{"id": "C166", "title": "Reordered operations are compared safely in functions without loops", "statement": "Two functions without loops and casts, with the same control flow, that are found equal with the pattern for reordered binary operations return the same, with the same effects, also when values are merged where control flow joins.", "quantifier": "all pairs of functions without loops, all arguments and memories", "why_tests_cant": "the numbers that stand for values depend on all comparisons that were tried and undone before", "anchors": ["diffkemp/simpll/DifferentialFunctionComparator.cpp: cmpBasicBlocks, undoLastInstCompare, cmpValues, collectBinaryOperands"]}
{"id": "C167", "title": "More patterns never report more differences", "statement": "Two functions that are found equal are still found equal when more built-in patterns are switched on.", "quantifier": "all pairs of functions, all sets of patterns", "why_tests_cant": "patterns interact through the common state of the comparison; every combination on every pair of functions counts", "anchors": ["diffkemp/simpll/DifferentialFunctionComparator.cpp: cmpBasicBlocks, cmpOperations, maySkipInstruction", "diffkemp/simpll/Config.h: BuiltinPatterns"]}
{"id": "C168", "title": "Direct calls instead of calls through casts do the same", "statement": "Before the comparison, calls of functions through casts are replaced by direct calls with casts of arguments and results. The changed function returns the same values with the same effects as the original one.", "quantifier": "all functions with branches, loops and phis, all types of called functions, all arguments and memories", "why_tests_cant": "uses of replaced calls are everywhere in the function; every path through it counts", "anchors": ["diffkemp/simpll/passes/SeparateCallsToBitcastPass.cpp: run"]}
{"id": "C169", "title": "Direct calls instead of calls through casts are valid", "statement": "The code in which calls through casts were replaced by direct calls is valid: calls fit the type of the called function, values are cast only to types of the same size, every used value is defined once, with its type.", "quantifier": "all valid functions, all types of called functions", "why_tests_cant": "every combination of types of arguments, parameters and results counts", "anchors": ["diffkemp/simpll/passes/SeparateCallsToBitcastPass.cpp: run"]}
{"id": "C170", "title": "The source text of a place contains its line", "statement": "The text that is taken from the source for a place in the program consists of consecutive lines of the file, among them the line of the place.", "quantifier": "all files and all lines that are not empty", "why_tests_cant": "texts are extended over any number of lines, backwards and forwards", "anchors": ["diffkemp/simpll/SourceCodeUtils.cpp: extractLineFromLocation"]}
{"id": "C171", "title": "No source text is taken for missing lines", "statement": "For a place whose line is empty or missing in the file no text is taken from the source.", "quantifier": "all files and line numbers", "why_tests_cant": "the search passes over the whole file and empty lines", "anchors": ["diffkemp/simpll/SourceCodeUtils.cpp: extractLineFromLocation"]}
{"id": "C172", "title": "Brackets opened in a source text are closed in it", "statement": "If a bracket is opened in the text that is taken for a place, it is closed in it, or the text reaches to the end of the file.", "quantifier": "all files and line numbers", "why_tests_cant": "statements may span any number of lines", "anchors": ["diffkemp/simpll/SourceCodeUtils.cpp: extractLineFromLocation"]}
{"id": "C173", "title": "The search for source text stays in the file", "statement": "The search for the source text of a place does not read behind the end of the file.", "quantifier": "all files and line numbers", "why_tests_cant": "statements may be unfinished anywhere in the file", "anchors": ["diffkemp/simpll/SourceCodeUtils.cpp: extractLineFromLocation"]}
{"id": "C174", "title": "Operands of inline assembly are taken from its own statement", "statement": "The source operands that are found for inline assembly are those of a statement with the same assembly.", "quantifier": "all lists of statements on a line or in its macros, with any operands", "why_tests_cant": "any number of statements may be candidates", "anchors": ["diffkemp/simpll/SourceCodeUtils.cpp: findInlineAssemblySourceArguments, convertInlineAsmToLLVMFormat"]}
{"id": "C175", "title": "Operands of inline assembly are found in their order", "statement": "The source expression that is used for an operand of inline assembly is the one it is written as.", "quantifier": "all statements with inline assembly, with any outputs and inputs", "why_tests_cant": "any number of operands with nested brackets", "anchors": ["diffkemp/simpll/SourceCodeUtils.cpp: findInlineAssemblySourceArguments", "diffkemp/simpll/DifferentialFunctionComparator.cpp: cmpCallArgumentUsingCSource"]}
{"id": "C176", "title": "The search for the statement of inline assembly stays in the strings", "statement": "The search for operands of inline assembly in the source does not read behind the end of strings.", "quantifier": "all source lines, macros and assembly", "why_tests_cant": "candidates are compared character by character until one is left", "anchors": ["diffkemp/simpll/SourceCodeUtils.cpp: findInlineAssemblySourceArguments"]}
{"id": "C177", "title": "Operands in assembly templates are converted to LLVM's notation", "statement": "The template of inline assembly in the source is converted to what LLVM makes of it: operands printed as constants get LLVM's notation, other text is kept.", "quantifier": "all templates with text and operands", "why_tests_cant": "replacements are done one after another on the whole text", "anchors": ["diffkemp/simpll/SourceCodeUtils.cpp: convertInlineAsmToLLVMFormat"]}
{"id": "C178", "title": "The called function of every compared call is known", "statement": "When functions are compared, every call in a function that may be called from them is a call of a function of the module; pointers and inline assembly have been replaced, so that looking up the called function cannot fail.", "quantifier": "all modules and all sets of functions that may be called", "why_tests_cant": "any number of calls through pointers, inline assembly and direct calls", "anchors": ["diffkemp/simpll/passes/FunctionAbstractionsGenerator.cpp: run", "diffkemp/simpll/DifferentialFunctionComparator.cpp: findMacroFunctionDifference, processCallInstDifference"]}
{"id": "C179", "title": "A function that became a macro is reported, and nothing else is reported as such", "statement": "At a difference of calls, the report that a function of one program is a macro in the other one is given if and only if the line is the same in both programs, one program calls the function there and the line of the other program expands to a macro with its name, but not the own line.", "quantifier": "all pairs of places, macros and called functions, after any history of earlier queries", "why_tests_cant": "macros are collected transitively and recorded over all earlier queries", "anchors": ["diffkemp/simpll/DifferentialFunctionComparator.cpp: findMacroFunctionDifference, findDifference", "diffkemp/simpll/MacroUtils.cpp: getAllMacroUsesAtLocation"]}
{"id": "C180", "title": "The text shown for a syntactic difference is its own", "statement": "In a comparison that does not fail, every entry shown for a macro or assembly difference has the name and the call stacks of one recorded difference, and its text consists of the two bodies recorded for this very difference, even if several differences have the same name.", "quantifier": "all result graphs, with any number of differences of the same name, with and without full diffs and a semantic tool", "why_tests_cant": "texts and entries are stored in different tables under names; they must agree for every order of collisions", "anchors": ["diffkemp/semdiff/caching.py: ComparisonGraph.graph_to_fun_pair_list", "diffkemp/semdiff/function_diff.py: functions_diff", "diffkemp/semdiff/result.py: Result.add_inner"]}
{"id": "C181", "title": "Full diffs do not change whether a difference is reported", "statement": "If the same two functions are compared with and without full diffs and neither comparison fails, a difference is reported in both cases or in none.", "quantifier": "all result graphs and all answers of the engine", "why_tests_cant": "the engine records differences before it knows whether the functions are equal; all such histories count", "anchors": ["diffkemp/semdiff/function_diff.py: functions_diff", "diffkemp/semdiff/caching.py: ComparisonGraph.graph_to_fun_pair_list", "diffkemp/simpll/DifferentialFunctionComparator.cpp: cmpBasicBlocks, findDifference", "diffkemp/simpll/Output.cpp: MappingTraits<Result>"]}
{"id": "C182", "title": "A semantic diff tool decides about functions found different", "statement": "If a semantic diff tool is configured, it is asked about the functions that the engine finds different: if it shows all of them equal, no difference is reported; and the use of the tool does not make a comparison fail that gives a verdict without it.", "quantifier": "all result graphs, all answers of the engine and of the tool", "why_tests_cant": "depends on the kinds of all listed objects and on names of macros that may or may not be functions", "anchors": ["diffkemp/semdiff/function_diff.py: functions_diff, functions_semdiff", "diffkemp/llvm_ir/llvm_module.py: LlvmModule.get_functions_called_by", "diffkemp/simpll/simpll.py: run_simpll"]}
{"id": "C183", "title": "Every line of a displayed function can be seen", "statement": "In the viewer, whatever has been clicked before, every line of the displayed function is shown or is shown after a click on one of the buttons between the shown parts, and no click hides anything. From the beginning the first and the last line and all changes inside the function are shown; if a called function was selected, the call is shown with ten lines before and after, and functions of up to 25 lines are shown completely.", "quantifier": "all diffs, all functions of a file, all sequences of clicks, every implementation of the expansion of hunks that fulfils its documentation", "why_tests_cant": "sequences of clicks and positions of changes relative to the function are unbounded", "anchors": ["view/src/components/DiffViewWrapper.jsx: DiffViewWrapper, expandHunks, renderHunks"]}
{"id": "C184", "title": "Differences of inline assembly are shown", "statement": "If differences of assembly are to be printed, then for each pair of calls of inline assembly found different because of the assembly text or its constraints, a difference is reported with both assembly texts, the names of all arguments and the places of both functions; the differences of a run have different names, and the search never ends the run.", "quantifier": "all sequences of pairs of calls in a run, all texts, constraints, arguments and debug information", "why_tests_cant": "the names depend on the whole history of a run; arguments are arbitrary expressions", "anchors": ["diffkemp/simpll/DifferentialFunctionComparator.cpp: findAsmDifference, findDifference", "diffkemp/simpll/Utils.cpp: getIdentifierForValue"]}
{"id": "C185", "title": "The viewer shows the files of the selected function", "statement": "Whatever the user clicks and in whatever order the requested files arrive or fail to arrive: code that is displayed is described by the definition of the function that is selected, and its text and its diff are the files of this function. When the files requested last have arrived, in any order and mixed with answers to older requests, the code is displayed.", "quantifier": "all results, all sequences of clicks, all orders and interleavings of answers and failures", "why_tests_cant": "the interleaving of clicks and answers is a race that tests do not control", "anchors": ["view/src/components/Code.jsx: Code", "view/src/components/Difference.jsx: Difference", "view/src/components/ResultViewer.jsx: ResultViewer"]}
{"id": "C186", "title": "Opening a difference selects the differing function", "statement": "When another difference is opened in the viewer, the last function of its call stack is selected; and the selected function always belongs to the call stack of the displayed difference.", "quantifier": "all results, all sequences of clicks and answers", "why_tests_cant": "depends on the names of all compared and differing functions and on the history of clicks", "anchors": ["view/src/components/ResultViewer.jsx: ResultViewer", "view/src/components/Difference.jsx: Difference"]}
{"id": "C187", "title": "Comparisons of integers that are found equal have the same outcome", "statement": "If two comparisons of integers are found equal, they have the same outcome for the same numbers. If they are found to be inverse conditions, they have opposite outcomes.", "quantifier": "all predicates, widths, numbers and choices of the patterns for type casts and inverse conditions", "why_tests_cant": "numbers of all widths and signs, and combinations of patterns", "anchors": ["simpll/DifferentialFunctionComparator.cpp: cmpOperations, cmpTypes"]}
{"id": "C188", "title": "Expressions in sizeof get the type of the variable that is visible", "statement": "If the type of an expression that consists of a variable and the operators * and & is looked up to compare arguments sizeof(..) of calls, the type that is found is the type of the expression in C at the place of the call.", "quantifier": "all sets of functions in any order, all nested blocks with variables and global variables, all expressions and types", "why_tests_cant": "combinations of variables of the same name, of nested types and of orders of functions", "anchors": ["simpll/DebugInfo.cpp: collectLocalVariables", "simpll/Utils.cpp: getCSourceIdentifierType", "simpll/DifferentialFunctionComparator.cpp: cmpCallArgumentUsingCSource"]}
{"id": "C189", "title": "The engine as a program does the same as the library", "statement": "Run as a program, the engine works with the same files, functions, variable, cache directory, patterns and settings as when it is called as a library with the same request, and the modules are written to the files that are read afterwards.", "quantifier": "all requests: names of files, functions and variables, suffixes, directories and settings", "why_tests_cant": "combinations of optional arguments and of names with dots, slashes and commas", "anchors": ["simpll/simpll.py: run_simpll, add_suffix", "simpll/SimpLL.cpp: main, addSuffix, parseFunOption", "simpll/library/FFI.cpp: runSimpLL"]}
{"id": "C190", "title": "The optimiser runs the requested passes in order for all versions of LLVM", "statement": "Whatever the version of LLVM, the command for the optimiser makes it read the file, run exactly the requested passes in the requested order, and replace the file exactly if this is asked for. The optimised module is the same for all versions.", "quantifier": "all versions, lists of passes, file names and modules", "why_tests_cant": "only one version of LLVM is installed where tests run", "anchors": ["diffkemp/utils.py: get_opt_command", "diffkemp/llvm_ir/kernel_llvm_source_builder.py: _opt_llvm"]}
{"id": "C191", "title": "Constants found equal by the sizes of structures are sizes of one structure", "statement": "If two constant arguments written with sizeof are found equal because of the sizes of structures, they are the sizes of one structure, in the first and in the second module. Sizes that are written for different structures are not found equal.", "quantifier": "all modules with any structures and sizes, all constants", "why_tests_cant": "combinations of structures of the same size, and constants of all widths", "anchors": ["simpll/passes/StructureSizeAnalysis.cpp: run", "simpll/DifferentialFunctionComparator.cpp: cmpCallArgumentUsingCSource"]}
{"id": "C192", "title": "Calls and functions that lose their result keep the attributes of their arguments", "statement": "If a call or function is replaced by a variant without result before the comparison, the attributes of all its arguments stay, and no attributes stay at the result that do not fit to a missing result.", "quantifier": "all calls and functions with any attributes of the result, the function and any number of arguments", "why_tests_cant": "combinations of attributes and arguments", "anchors": ["simpll/Utils.cpp: copyCallInstProperties, copyFunctionProperties, cleanAttributeList"]}
{"id": "C193", "title": "Constants that are found equal have the same value", "statement": "If two constants, also computed ones such as addresses of elements, are found equal, they have the same value, wherever global values are placed.", "quantifier": "all constants with nested casts and operations, with and without the pattern for type casts, all addresses", "why_tests_cant": "constants of any nesting, and addresses are not known", "anchors": ["simpll/DifferentialFunctionComparator.cpp: cmpConstants, cmpAPInts, cmpTypes", "simpll/llvm-lib/16/FunctionComparator.cpp: cmpConstants"]}
{"id": "C194", "title": "The functions of a compiled C file are listed", "statement": "When a snapshot is made of a single C file, the listed functions are exactly those functions that are defined in the file and whose names are names in C, each once and in the order of the file; names that are only declared, called or made by the compiler are not listed.", "quantifier": "all files with any number of definitions and any other lines", "why_tests_cant": "files of any size, with any texts in attributes and sections", "anchors": ["diffkemp/utils.py: get_functions_from_llvm, LLVM_FUNCTION_REGEX", "diffkemp/llvm_ir/single_c_builder.py: get_function_list"]}
{"id": "C195", "title": "The lines of a call are marked in the viewer", "statement": "When the viewer shows a call of another function, exactly the line of the call in the old version and the line of the call in the new version are marked among the shown lines; without a call nothing is marked.", "quantifier": "all diffs with unchanged, added and removed lines, all pairs of lines", "why_tests_cant": "diffs of any length, calls on any lines", "anchors": ["view/src/components/DiffViewWrapper.jsx: getLinesToHighlight, DiffViewWrapper"]}
{"id": "C196", "title": "The library uses and frees memory correctly", "statement": "In whatever order modules are loaded, functions and sysctl tables are taken from them, used and given up, the library never uses memory that was freed and frees none twice: a module stays as long as one of its functions or tables is referred to. Memory that can no longer be reached is freed.", "quantifier": "all sequences of uses of the objects of the library, with any number of modules, functions and tables", "why_tests_cant": "histories of any length, and objects are given up in any order", "anchors": ["diffkemp/simpll/library.py: SimpLLModule, SimpLLFunction, SimpLLSysctlTable", "diffkemp/simpll/library/FFI.cpp: loadModule, freeModule, freePointerArray, getChild, getData"]}
{"id": "C197", "title": "The command that builds an object file of the kernel is found", "statement": "For a source file of the kernel, the command that is taken from the output of make is the last command that starts with gcc; an error is raised only if there is none.", "quantifier": "all outputs of make, with any number of lines and of commands in a line", "why_tests_cant": "outputs of any length", "anchors": ["diffkemp/llvm_ir/kernel_llvm_source_builder.py: _kbuild_object_command, _extract_gcc_command"]}
{"id": "C198", "title": "Slicing keeps the blocks that depend on the variable", "statement": "When a function is reduced to what depends on a variable, every block with instructions that depend on the variable and that was reached before is still reached, and no other block becomes reached. A branch stays conditional exactly if each way leads to a needed block that the other way does not lead to.", "quantifier": "all functions with any graph of blocks, all sets of dependent instructions", "why_tests_cant": "graphs with any loops and any number of branches that are replaced one after another", "anchors": ["diffkemp/simpll/passes/VarDependencySlicer.cpp: run, includedSuccessors, reachableBlocksThroughSucc"]}
{"id": "C199", "title": "Slicing removes no operand of what it keeps", "statement": "When a function is reduced to what depends on a variable, no instruction that stays uses an instruction that is removed; stores to local variables that it uses are kept with it. Nothing is kept that is not needed by an instruction that depends on the variable or by a branch that stays. The search ends.", "quantifier": "all functions with any instructions and operands, all sets of dependent instructions", "why_tests_cant": "chains of operands of any length, with cycles through phis", "anchors": ["diffkemp/simpll/passes/VarDependencySlicer.cpp: run, addAllOpsToIncluded, addStoresToIncluded, addToIncluded"]}
{"id": "C200", "title": "After slicing no block is left that is not reached", "statement": "When a function was reduced to what depends on a variable, the function that is found under its name has exactly the blocks that are reached from its first block. Its return type changes only if its return does not depend on the variable and the function is not called.", "quantifier": "all functions with any graph of blocks", "why_tests_cant": "graphs of any size with any loops", "anchors": ["diffkemp/simpll/passes/VarDependencySlicer.cpp: run, changeToVoid, deleteUnreachableBlocks, calculateReachableBlocksRecursive"]}
{"id": "C201", "title": "Slicing keeps the stores that a use of a local variable may see", "statement": "When a function is reduced to what depends on a variable and a kept instruction uses a local variable, every store to this local variable, directly or through a pointer into it, is kept that may be executed after its allocation and before the use. The search for stores ends.", "quantifier": "all functions with any flow of control, all local variables and uses", "why_tests_cant": "flows of any length with loops, chains of derived pointers of any length", "anchors": ["diffkemp/simpll/passes/VarDependencySlicer.cpp: addStoresToIncluded"]}
{"id": "C202", "title": "Slicing removes the entry of a function only if nothing is lost", "statement": "When a function is reduced to what depends on a variable and its first block is removed, all blocks with instructions that are needed are still reached from the new first block.", "quantifier": "all functions with any graph of blocks, all sets of needed blocks", "why_tests_cant": "graphs of any size and any order of blocks", "anchors": ["diffkemp/simpll/passes/VarDependencySlicer.cpp: run, canRemoveFirstBlock"]}
{"id": "C203", "title": "Slicing removes a block only if phis stay valid", "statement": "When a function is reduced to what depends on a variable, a block without needed instructions is removed only if it has one successor and every phi of the successor has afterwards one value for each incoming block; it is kept only if this is not so.", "quantifier": "all blocks with any predecessors, all phis of their successor", "why_tests_cant": "any number of predecessors, phis and incoming values", "anchors": ["diffkemp/simpll/passes/VarDependencySlicer.cpp: canRemoveBlock"]}
{"id": "C204", "title": "Slicing looks at every instruction at most once for each use of a local variable", "statement": "When a function is reduced to what depends on a variable, the search for the stores to a local variable before a use looks at no more instructions than the function has, so that the time of the reduction stays in proportion to the size of the function.", "quantifier": "all functions with any flow of control, all local variables and uses", "why_tests_cant": "functions with any number of branches; the time of the worst case is seen for large functions only", "anchors": ["diffkemp/simpll/passes/VarDependencySlicer.cpp: addStoresToIncluded"]}
