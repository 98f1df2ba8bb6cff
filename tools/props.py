#!/usr/bin/env python3
"""Source of properties.jsonl: each entry is (id, title, statement, quantifier, why_tests_cant, anchors)."""
import json, os
P = []
def p(i, title, statement, quantifier, why, *anchors):
    P.append(dict(id=i, title=title, statement=statement, quantifier=quantifier,
                  why_tests_cant=why, anchors=list(anchors)))

# ---------------------------------------------------------------- aggregation
p("C01", "Aggregated verdict is the worst verdict of the parts",
  "After any sequence of inner results has been added to a result, its kind is the maximum (in the priority order none < equal < assumed-equal < not-equal < unknown < timeout < error) of its initial kind and all kinds added; it does not depend on the order of the additions and no addition can lower it.",
  "all finite sequences of inner results, all initial kinds, all permutations",
  "the number and order of compared functions is unbounded; tests add two or three results",
  "diffkemp/semdiff/result.py: Result.Kind, Result.add_inner")
p("C02", "Symbol statistics account for every compared symbol",
  "The printed counts Equal, Not equal, Unknown and Errors are pairwise disjoint and sum to Total symbols, and (empty diff) never exceeds Not equal.",
  "all results with any number of inner results of any kind",
  "requires a sum over an arbitrary collection; a unit test shows one collection",
  "diffkemp/semdiff/result.py: Result.report_symbol_stat")
p("C03", "No compared function is lost from the overall result",
  "After comparing two snapshots, every function that occurs in both snapshots (in the same group) has its own entry with its own verdict in the overall result, and no other function has one.",
  "all pairs of snapshots, with any number of groups and functions, any verdicts",
  "depends on name coincidences across groups in arbitrary snapshots",
  "diffkemp/diffkemp.py: compare", "diffkemp/semdiff/result.py: Result.add_inner")

# ---------------------------------------------------------------- graph search
p("C04", "Every reported function is really reachable",
  "Each function reported by the dependency search from a start function is the start function or is reached from it by a chain of calls recorded in the graph, on the requested side, none of which enters a .c file different from the start function's file, and whose last call is a strong dependency.",
  "all graphs (cyclic, with dangling callees, duplicate edges), both sides, all start functions",
  "graphs are unbounded; a test fixes one graph",
  "diffkemp/semdiff/caching.py: ComparisonGraph.reachable_from")
p("C05", "Every reachable strong dependency is reported",
  "Each function that can be reached from the start function by calls that stay within the comparison boundary, the last of which is a strong dependency, is in the search result.",
  "all graphs, both sides, all start functions",
  "an omission only shows for particular interleavings of weak and strong edges",
  "diffkemp/semdiff/caching.py: ComparisonGraph.reachable_from")
p("C06", "Call stacks shown for differences are real call paths",
  "For every function found by the search, the call stack produced for it exists (its extraction terminates and never fails), starts with a call made by the start function, ends with a call of the function, and every consecutive pair of entries is a call made by the callee of the previous entry; it is empty exactly for the start function.",
  "all graphs, both sides, all start functions, all found functions",
  "loop termination and path validity over arbitrary cyclic graphs",
  "diffkemp/semdiff/caching.py: _get_callstack, ComparisonGraph.reachable_from")
p("C07", "The dependency search terminates",
  "The dependency search terminates for every graph, including cyclic graphs and graphs with several call paths between the same functions; for every acyclic-ladder size n there is a graph with 2n+1 functions for which it enqueues at least 2^n entries.",
  "all graphs",
  "termination for all inputs cannot be tested",
  "diffkemp/semdiff/caching.py: ComparisonGraph.reachable_from")
p("C08", "The list of objects to compare contains exactly the interesting reachable differences",
  "A function pair is listed for output iff it is found by the search on both sides and is neither assumed-equal nor (unless full diff is on) equal; every non-function difference attached to a listed pair is listed as not-equal, and no other object is listed.",
  "all graphs, all pairs of start functions, both values of full_diff",
  "set equality over arbitrary graphs",
  "diffkemp/semdiff/caching.py: ComparisonGraph.graph_to_fun_pair_list")
p("C09", "Merging graphs never loses functions or known verdicts",
  "Absorbing a partial result graph keeps every function of both graphs, changes no function that only one of them knows, and never replaces a known verdict (equal, not-equal) by unknown or assumed-equal.",
  "all pairs of graphs and all sequences of absorptions",
  "holds over histories of comparisons of any length",
  "diffkemp/semdiff/caching.py: ComparisonGraph.absorb_graph, Vertex.compare_vertex_priority")
p("C10", "The set of equal functions agrees with the graph",
  "At any time the set of equal functions kept by a graph is exactly the set of (left) names of its functions whose verdict is equal.",
  "all sequences of insertions and absorptions",
  "state invariant over histories",
  "diffkemp/semdiff/caching.py: ComparisonGraph.__setitem__, absorb_graph, normalize")
p("C11", "Normalisation succeeds and removes all variant functions",
  "For any output of the engine, normalisation completes without failing and afterwards no key and no edge target recorded through the graph ends with '.void'.",
  "all graphs built from engine output",
  "depends on which combinations of variant pairs occur",
  "diffkemp/semdiff/caching.py: ComparisonGraph.normalize, add_edge, __setitem__", "diffkemp/simpll/simpll.py: run_simpll")
p("C12", "Normalisation preserves the verdicts of ordinary functions",
  "Normalisation leaves the key, the names and the verdict of every non-variant function unchanged; a variant function is renamed to its base name only if the base name was absent, and then an equal verdict becomes assumed-equal while every other verdict is kept.",
  "all graphs",
  "quantifies over arbitrary sets of variant functions",
  "diffkemp/semdiff/caching.py: ComparisonGraph.normalize")
p("C13", "Uncachable functions are exactly the header callers of assumed-equal code",
  "After marking, a function is uncachable iff it is defined in a header and it calls, through a chain of functions all defined in headers, a function that is assumed equal and not defined in a header.",
  "all graphs with populated predecessor lists, initially all functions cachable",
  "reachability characterisation over arbitrary graphs",
  "diffkemp/semdiff/caching.py: ComparisonGraph.populate_predecessor_lists, mark_uncachable_from_assumed_equal")

# ---------------------------------------------------------------- cache
p("C14", "Only settled and cachable verdicts are written to the cache",
  "Every function pair ever written to a cache file belongs to a graph function whose verdict is neither unknown nor assumed-equal and which is not marked uncachable; and every such function of the graph is written.",
  "all histories of comparisons",
  "invariant over histories of updates",
  "diffkemp/semdiff/function_diff.py: functions_diff", "diffkemp/semdiff/caching.py: SimpLLCache.update")
p("C15", "What the cache writer stores, the engine reads back",
  "A function pair is treated as cached by the engine iff it has been written by the cache writer for the same pair of source files.",
  "all update histories, all function names without ':' and newline, all file paths",
  "two implementations in two languages must agree for all paths",
  "diffkemp/semdiff/caching.py: SimpLLCache.CacheFile", "diffkemp/simpll/ResultsCache.cpp: ResultsCache::isFunctionPairCached, importFileToCacheMap", "diffkemp/simpll/Utils.cpp: joinPath, findAndReplace")
p("C16", "Different source file pairs use different cache files",
  "Two different pairs of source files never share a cache file.",
  "all pairs of file paths",
  "injectivity over all paths",
  "diffkemp/semdiff/caching.py: SimpLLCache.CacheFile.__init__")

# ---------------------------------------------------------------- functions_diff
p("C17", "Linking missing definitions terminates",
  "Comparing two functions runs the engine finitely often: at most one more time than there are modules that can be linked, whatever missing definitions the engine reports and whatever modules are found for them.",
  "all engine behaviours, all module lookups, all finite sets of modules",
  "termination under an adversarial engine",
  "diffkemp/semdiff/function_diff.py: functions_diff, _link_symbol_def", "diffkemp/llvm_ir/llvm_module.py: LlvmModule.link_modules, links_mod")
p("C18", "Comparison leaves the modules unlinked",
  "After a comparison of two functions each of the two modules refers to its original LLVM file again and has no linked modules, whatever was linked meanwhile.",
  "all sequences of link operations, successful or failing comparison",
  "holds over all link histories including failures",
  "diffkemp/semdiff/function_diff.py: functions_diff", "diffkemp/llvm_ir/llvm_module.py: LlvmModule.link_modules, restore_unlinked_llvm")
p("C19", "A difference reachable on both sides is never reported as equal",
  "If the result graph of a comparison contains a not-equal function found on both sides, the verdict of the comparison is not-equal or worse; if it contains only equal and assumed-equal functions there, no difference is reported (and without full diff the verdict is equal); if a run of the engine fails the verdict is error.",
  "all result graphs, both values of full diff, no semantic-diff tool",
  "quantifies over all graphs and diffs",
  "diffkemp/semdiff/function_diff.py: functions_diff")
p("C20", "Every comparison ends with a definite verdict",
  "The verdict returned by a comparison of two functions is never 'none'.",
  "all graphs, both values of full diff, all syntactic diffs",
  "the bad case needs a particular combination of full diff and empty diffs",
  "diffkemp/semdiff/function_diff.py: functions_diff")

# ---------------------------------------------------------------- compare
p("C21", "Functions missing from one snapshot are skipped, functions without a module are unknown",
  "When comparing snapshots, a function of the old snapshot that is missing from the same group of the new one contributes no result; a function for which a module is missing on either side contributes the verdict unknown; all others are compared in the lexicographic order of groups and names.",
  "all pairs of snapshots",
  "arbitrary snapshots",
  "diffkemp/diffkemp.py: compare")
p("C22", "The regex filter only hides not-equal functions whose diffs do not match",
  "With a regex filter, a function is reported equal only if it was equal or it was not-equal and none of its diffs matches; in particular an error stays an error.",
  "all inner results, all match predicates",
  "universal over diffs and kinds",
  "diffkemp/diffkemp.py: compare")
p("C23", "The overall result always carries the comparison graph",
  "If at least one function has been compared, the overall result used for statistics and for the YAML output carries the graph with all compared functions.",
  "all sequences of functions to compare",
  "depends on which function is processed last",
  "diffkemp/diffkemp.py: compare", "diffkemp/semdiff/result.py: Result.add_inner, report_object_stat", "diffkemp/output.py: YamlOutput")
p("C24", "The default output directory is fresh",
  "The default output directory name does not exist yet, has the form <base> or <base>-n, and n is the least unused suffix; the search terminates in every file system with finitely many entries.",
  "all finite sets of existing paths",
  "termination and minimality over all file systems",
  "diffkemp/diffkemp.py: default_output_dir")

# ---------------------------------------------------------------- snapshot
p("C25", "A snapshot's function list is a map from (group, name)",
  "Looking up a function in a group returns the description given by the last addition of that name to that group, or nothing if there was none; additions to other groups or names have no effect on it.",
  "all sequences of additions",
  "refinement over all histories",
  "diffkemp/snapshot.py: Snapshot.add_fun, get_by_name")
p("C26", "Saving and loading a snapshot preserves its function list",
  "Loading the YAML produced for a snapshot yields a snapshot with the same groups, functions, global variables, tags and module files.",
  "all snapshots",
  "round trip over all snapshots",
  "diffkemp/snapshot.py: Snapshot.to_yaml, _from_yaml")
p("C27", "Filtering a snapshot keeps exactly the requested functions",
  "Filtering a group to a list of names keeps exactly these names with their descriptions, in that order, leaves all other groups unchanged and fails iff some name or the group is missing.",
  "all snapshots and name lists",
  "arbitrary lists",
  "diffkemp/snapshot.py: Snapshot.filter")

# ---------------------------------------------------------------- config
p("C28", "Built-in pattern options",
  "A pattern is active after processing the options iff it is in the defaults (or all patterns are enabled / none if all are disabled), unless it was enabled, unless it was disabled; disabling wins over enabling; control-flow-only implies type-casts; every pattern name accepted on the command line has this effect.",
  "all combinations of the options",
  "all combinations of thirteen patterns and four options",
  "diffkemp/config.py: BuiltinPatterns.update_from_args, resolve_dependencies", "diffkemp/cli.py: BUILTIN_PATTERNS")
p("C29", "Custom pattern loading",
  "Loading custom patterns yields exactly the files that were parsed successfully; with the warning policy a failing pattern is skipped, with the error policy it aborts the run.",
  "all configuration files",
  "arbitrary lists of pattern files and failures",
  "diffkemp/semdiff/custom_pattern_config.py: CustomPatternConfig")

# ---------------------------------------------------------------- syntax diff
p("C30", "Line numbers in diffs refer to the source files",
  "In the unified diff of two functions every hunk header gives the line numbers of the original files, i.e. the numbers of the diff of the extracted functions shifted by the starting lines.",
  "all diffs with any number of hunks, all starting lines",
  "arbitrary numbers",
  "diffkemp/syndiff/function_syntax_diff.py: unified_syntax_diff, syntax_diff")
p("C31", "Extracted function text is the smallest block up to the terminator",
  "The end line found for a function (type) is the first line at or after its start that is a terminator for its kind, the extracted text is exactly the lines from start to end, and the search fails only if there is no such line.",
  "all source files and start lines",
  "arbitrary files",
  "diffkemp/utils.py: get_end_line", "diffkemp/syndiff/function_syntax_diff.py: extract_code")

# ---------------------------------------------------------------- building
p("C32", "The compiler wrapper is transparent",
  "The wrapper passes the original arguments unchanged and in order to the real compiler, returns its exit code when it fails or when nothing is to be generated, and never lets a failure of the LLVM step change what the real compiler produced.",
  "all argument lists, all exit codes",
  "arbitrary command lines",
  "diffkemp/building/cc_wrapper.py: wrapper")
p("C33", "The build database records the generated LLVM files",
  "Each object file produced by a compile command for which an LLVM file was generated has an entry in the database that is read back to exactly that LLVM file's path; everything that is read back existed after a successful run of the LLVM tool.",
  "all sequences of wrapper invocations",
  "histories of compiler invocations",
  "diffkemp/building/cc_wrapper.py: wrapper", "diffkemp/llvm_ir/wrapper_build_finder.py: WrapperBuildFinder")
p("C34", "Candidate source files are unique and ordered by relevance",
  "The list of source files searched for a symbol definition has no duplicates, contains every file reported by either search step, and lists files with higher priority first.",
  "all outputs of the search tools",
  "arbitrary lists",
  "diffkemp/llvm_ir/kernel_llvm_source_builder.py: KernelLlvmSourceBuilder._find_srcs_with_symbol_def")
p("C35", "gcc commands are translated to LLVM commands faithfully",
  "Translating a compile command keeps every supported option in order, drops exactly the unsupported ones, and directs the output to the .ll file.",
  "all command lines",
  "arbitrary command lines",
  "diffkemp/llvm_ir/kernel_llvm_source_builder.py: gcc_to_llvm")
p("C36", "Temporary header changes are undone",
  "Disabling and then re-enabling the assembler features of a kernel header restores the original header.",
  "all header contents",
  "arbitrary texts",
  "diffkemp/llvm_ir/kernel_llvm_source_builder.py: _disable_asm_features, _enable_asm_features")
p("C37", "Module lookup is consistent and respects the snapshot time",
  "For one source tree the same LLVM file is always represented by the same module object, and a module found for a symbol with a time limit was not modified after that time and defines the symbol.",
  "all sequences of lookups",
  "histories",
  "diffkemp/llvm_ir/source_tree.py: SourceTree.get_module_for_symbol, _get_or_create_module")

# ---------------------------------------------------------------- engine (C++)
p("C38", "Function name suffix handling",
  "A name has a droppable suffix iff it ends with '.void' or its part after the last dot consists of digits only and something other than digits and dots precedes; dropping it yields the part before the last dot; names match iff they are equal after dropping (or the right one carries the pattern prefix).",
  "all strings",
  "all strings",
  "diffkemp/simpll/Utils.cpp: hasSuffix, dropSuffix, namesMatch")
p("C39", "Verdict for functions without bodies",
  "Two declarations are assumed equal iff their names agree up to suffixes; a declaration and a definition of the same name are assumed equal and exactly the missing side is reported as a missing definition (unless only control flow is compared); different names are not equal; a cached pair is unknown.",
  "all names, all combinations of bodies, both modes",
  "full decision table over all names",
  "diffkemp/simpll/ModuleComparator.cpp: ModuleComparator::compareFunctions")
p("C40", "Function pairs become equal only after a successful comparison",
  "After comparing two functions with bodies, including all rounds of inlining, the recorded verdict is equal iff the last comparison run found no difference, and not-equal otherwise; pairs inlined on the way are dropped from the results only in the former case.",
  "all behaviours of the comparator and of inlining",
  "loop with unbounded number of rounds",
  "diffkemp/simpll/ModuleComparator.cpp: ModuleComparator::compareFunctions, tryToInline")
p("C41", "Reordering of binary operations is sound",
  "If the reordered-binary-operations pattern declares two operation trees equal, they compute the same value for all inputs and all bit widths.",
  "all operation trees over add, mul, and, or, xor, all bit widths, all values of the operands",
  "all trees and all 2^n inputs",
  "diffkemp/simpll/DifferentialFunctionComparator.cpp: collectBinaryOperands, cmpBasicBlocks", "diffkemp/simpll/Utils.cpp: isReorderableBinaryOp")
p("C42", "Inverse conditions pattern is sound",
  "If two comparisons have inverse predicates on equal operands and the branches (or selects, or boolean negations) using them are swapped, control flows to corresponding successors for all operand values.",
  "all predicates, all bit widths, all operand values",
  "all values",
  "diffkemp/simpll/DifferentialFunctionComparator.cpp: cmpOperations, checkInverseCondUsers")
p("C43", "Functions the comparator finds equal behave equally",
  "If the basic comparator (no patterns) finds two functions equal, then for all arguments and initial memories running them gives the same outcome: same result, same final memory and same sequence of external calls, or both run forever or both get stuck.",
  "all pairs of functions of the modelled instruction set (arbitrary control flow, loops), all inputs, all numbers of steps",
  "semantic equivalence over all inputs",
  "diffkemp/simpll/llvm-lib/16/FunctionComparator.cpp: compare, cmpBasicBlocks, cmpOperations, cmpValues")
p("C44", "The comparator is reflexive and insensitive to names and block order",
  "Comparing a function with itself, or with a copy in which values and blocks are renamed injectively and blocks are listed in a different order, yields equal.",
  "all functions, all renamings",
  "all programs",
  "diffkemp/simpll/llvm-lib/16/FunctionComparator.cpp: compare, cmpValues")
p("C45", "Code relocations are accepted only if independent",
  "If moving a block of instructions past another instruction is accepted as a relocation, no instruction of the block reads or writes memory or a value that the other instruction writes, and vice versa.",
  "all blocks of instructions",
  "arbitrary instruction sequences",
  "diffkemp/simpll/DifferentialFunctionComparator.cpp: isDependingOnReloc")
p("C46", "The alias check is conservative",
  "If the alias check says that two pointers do not alias, they denote different memory cells for all values of the non-constant indices.",
  "all pointer expressions, all index values",
  "all values",
  "diffkemp/simpll/Utils.cpp: mayAlias, getAllocaFromPtr, mayStoreTo")
p("C47", "Slicing keeps everything the kept code depends on",
  "After control-flow slicing no remaining instruction uses the value of a removed one, all terminators and all calls except side-effect-free calls whose result is only stored are kept, and the remaining instructions keep their order.",
  "all functions",
  "dependency closure for all programs",
  "diffkemp/simpll/passes/ControlFlowSlicer.cpp: ControlFlowSlicer::run, addWithOperands")
p("C48", "The called-functions analysis finds exactly the potentially called functions",
  "The analysis terminates and returns exactly the functions reachable from the main function through calls, operands and constant initialisers.",
  "all modules",
  "reachability over arbitrary modules",
  "diffkemp/simpll/passes/CalledFunctionsAnalysis.cpp: collectCalled, processValue")
p("C49", "The side-effect check is conservative",
  "If the check says that a function has no side effect then no execution of it stores to memory, calls an unknown function or calls a function through a pointer, including in all functions it calls directly or indirectly.",
  "all call graphs, including recursive ones",
  "fixed point over arbitrary call graphs",
  "diffkemp/simpll/Utils.cpp: hasSideEffect")
p("C50", "Argument lists are split correctly",
  "For a call text whose arguments have balanced brackets and no top-level comma, extracting the bracketed text and splitting it yields exactly the arguments (stripped of blanks).",
  "all lists of balanced arguments",
  "all nesting depths",
  "diffkemp/simpll/SourceCodeUtils.cpp: getSubstringToMatchingBracket, splitArgumentsList")
p("C51", "Sysctl patterns",
  "A sysctl name component matches a pattern component iff the pattern is '*', or is a brace list containing the name, or equals the name; both implementations agree; sysctls found for a pattern are exactly the entries of the table that match.",
  "all strings",
  "two implementations over all strings",
  "diffkemp/llvm_ir/llvm_sysctl_module.py: matches", "diffkemp/simpll/library/SysctlTable.cpp: matches, parseSysctls")
p("C52", "Parameter index filtering",
  "A use of a structured parameter is attributed to a field iff the constant indices of the access agree with the field's indices on their common length.",
  "all index lists",
  "all lists",
  "diffkemp/simpll/library/DiffKempUtils.cpp: checkGEPIndicesCorrespond")

# ---------------------------------------------------------------- viewer, output
p("C53", "Navigation in the viewer visits every difference",
  "Following 'next' from the first compared (differing) function visits every function exactly once in the displayed order and ends; 'previous' is its inverse; first/last tests agree with them.",
  "all result files",
  "all lists",
  "view/src/Result.js: getNextCompName, getPrevCompName, getNextDiffFunNameForComp, isFirstCompFun, isLastCompFun")
p("C54", "The viewer's two indices agree",
  "A compared function is listed for a differing function iff that differing function is listed for the compared function, and the diff returned for the pair is the one in the result file.",
  "all result files",
  "all files",
  "view/src/Result.js: #createAllCompAndDiffFuns, getCompFuns, getDiffFuns, getDiff")
p("C55", "The YAML output lists exactly the visible differences",
  "The results section lists exactly the functions with verdict not-equal, in the order of their comparison (sorted by name if all are in one group), and for each of them exactly the differing objects except those with an empty diff that are covered by a non-function difference.",
  "all results",
  "all collections",
  "diffkemp/output.py: YamlOutput._create_results")
p("C56", "Symbol names are extracted completely from call stacks",
  "Every entry of a call stack is attributed to exactly one of functions, macros and types according to its kind tag, and a type is paired with the function it is used in.",
  "all call stacks",
  "arbitrary stacks",
  "diffkemp/semdiff/result.py: Result.Callstack.get_symbol_names")
p("C57", "Solver outcome mapping",
  "The verdict of the semantic comparison is timeout iff the time limit fired, otherwise error iff the solver failed or printed no answer, otherwise the verdict of the last answer printed.",
  "all solver outputs, exit codes and timer states",
  "arbitrary output streams",
  "diffkemp/semdiff/function_diff.py: _run_llreve_z3")
p("C58", "Engine output is imported completely",
  "For every function result the engine emits, the imported function has exactly the calls of the left function on the left side and those of the right function on the right side.",
  "all engine outputs (sections for empty lists are omitted by the engine)",
  "depends on which sections are omitted",
  "diffkemp/semdiff/caching.py: Vertex.from_yaml", "diffkemp/simpll/Output.cpp: MappingTraits<FunctionInfo>")
p("C59", "Blocks affected by a branch",
  "The blocks considered affected by a conditional branch are exactly those reachable through one of its successors but not through all of them.",
  "all control-flow graphs",
  "all graphs",
  "diffkemp/simpll/passes/VarDependencySlicer.cpp: affectedBasicBlocks, reachableBlocksThroughSucc")
p("C60", "Textual replacement",
  "Replacing a non-empty text in a string terminates, replaces all non-overlapping occurrences from left to right and nothing else; replacing '/' by '$' is injective on strings without '$'.",
  "all strings",
  "all strings",
  "diffkemp/simpll/Utils.cpp: findAndReplace")

p("C61", "Cache safety survives merging",
  "After the marks of a result have been computed and a later result has been merged into it, a function defined in a header that still depends through headers on an assumed-equal function defined outside of headers is still not cached.",
  "all call graphs and all later results",
  "needs two assumed-equal functions below one header function of which only one is resolved later",
  "diffkemp/semdiff/caching.py: ComparisonGraph.absorb_graph, mark_uncachable_from_assumed_equal")

p("C62", "Every difference keeps its own text and entry",
  "When a comparison of two functions finds several differing objects, each of them has its own entry in the result of the comparison, and the text shown for a syntactic difference is the one the engine attached to that difference.",
  "all result graphs and lists of differences",
  "needs two differences with the same name in different engine runs",
  "diffkemp/semdiff/caching.py: graph_to_fun_pair_list", "diffkemp/semdiff/function_diff.py: functions_diff", "diffkemp/semdiff/result.py: Result.add_inner")
p("C63", "No result emitted by the engine is lost in import",
  "Every function result the engine emits is represented by a function of the imported graph.",
  "all engine outputs",
  "depends on the names of all results together",
  "diffkemp/simpll/simpll.py: run_simpll", "diffkemp/semdiff/caching.py: Vertex.from_yaml")

p("C64", "Linking never overwrites an original LLVM file",
  "Comparing two functions never writes to the LLVM file a module had before, whatever is linked.",
  "all file paths, all sequences of links",
  "depends on the text of paths chosen by the user",
  "diffkemp/llvm_ir/llvm_module.py: LlvmModule.link_modules")

p("C65", "Results known before a comparison are known after it",
  "The graph attached to the result of a comparison contains every function of the graph that was passed in, also if the comparison fails.",
  "all graphs, all engine behaviours including failures after linking",
  "needs a failure at a particular point of a sequence of engine runs",
  "diffkemp/semdiff/function_diff.py: functions_diff")

p("C66", "The cache contains no duplicates",
  "No cache file ever contains the same line twice (as the comment in functions_diff claims).",
  "all sequences of comparisons",
  "invariant over histories of comparisons",
  "diffkemp/semdiff/function_diff.py: functions_diff", "diffkemp/semdiff/caching.py: SimpLLCache.update")

p("C67", "A strong dependency that differs is never hidden",
  "If a not-equal function is reached from the compared functions by a chain of calls ending with a strong dependency on both sides, the verdict of the comparison is not-equal or worse.",
  "all result graphs",
  "depends on the order in which an arbitrary graph is searched",
  "diffkemp/semdiff/caching.py: reachable_from", "diffkemp/semdiff/function_diff.py: functions_diff")

p("C68", "Missing definitions are linked, and nothing else",
  "The final result of a comparison comes from a run of the engine on modules to which only modules found for symbols reported missing on the same side were linked, and for which nothing more could be linked for the definitions still reported missing.",
  "all engines, all lookups and linkers that may answer differently each time",
  "ranges over all sequences of engine runs and lookups",
  "diffkemp/semdiff/function_diff.py: functions_diff, _link_symbol_def", "diffkemp/llvm_ir/llvm_module.py: LlvmModule.link_modules")

p("C69", "Creating a snapshot writes only into the snapshot",
  "Moving the LLVM files of a snapshot from the source directory to the snapshot directory gives every module a path inside the snapshot directory and overwrites no file of the source directory.",
  "all directory names and module paths",
  "depends on the text of the paths the user chooses",
  "diffkemp/llvm_ir/llvm_module.py: LlvmModule.move_to_other_root_dir", "diffkemp/llvm_ir/source_tree.py: SourceTree.copy_source_files")

p("C70", "A generated snapshot lists exactly the requested functions",
  "Generating from a list of functions records each listed function once, with the module that defines it if there is one and without a module otherwise, and lists nothing else.",
  "all lists of function names, all source trees",
  "arbitrary lists with repetitions and missing functions",
  "diffkemp/diffkemp.py: generate_from_function_list")

p("C71", "Every function that is not equal is mentioned",
  "After comparing two snapshots, every function that was not found equal is mentioned in the output: its differences are listed, or its verdict is printed. Listed differences are exactly the visible ones of that function, sorted by name, and nothing is listed for other functions.",
  "all pairs of snapshots, all comparison results",
  "universal over verdicts, options and collections of functions",
  "diffkemp/diffkemp.py: compare, print_syntax_diff")

p("C72", "Reporting does not abort the comparison",
  "If no comparison of two functions raises an exception, the comparison of two snapshots completes, whatever the verdicts and options are.",
  "all pairs of snapshots, all comparison results, all options",
  "depends on combinations of verdicts and options",
  "diffkemp/diffkemp.py: compare, print_syntax_diff")

p("C73", "A configured semantic tool decides the verdicts of differing functions",
  "If a semantic comparison tool is configured, the verdict listed for every differing function is the one given by the tool; without a tool it is the one of the syntactic engine.",
  "all tools, all engines, all result graphs",
  "the tool and the engine are arbitrary",
  "diffkemp/semdiff/function_diff.py: functions_diff")

p("C74", "Known results are reused, and only definite ones",
  "A function is compared by the engine unless a previous comparison gave it a verdict other than assumed-equal for two functions in the same file. In that case the known results, the cache and the files are not changed.",
  "all histories of comparisons",
  "depends on the results of arbitrary previous comparisons",
  "diffkemp/semdiff/function_diff.py: functions_diff")

p("C75", "Functions shown in the output are defined there",
  "Every compared function that is listed as not equal or occurs in a call stack of the YAML output is defined there with its file, first line and, if it can be found, last line in both snapshots; so is every differing type, and nothing else is.",
  "all comparison results, result graphs and iteration orders of sets",
  "depends on arbitrary call stacks and graphs",
  "diffkemp/output.py: YamlOutput._create_function_defs, YamlOutput._create_type_defs")

p("C76", "Call stacks show paths relative to the snapshot",
  "A file of the snapshot is shown in the call stacks of the YAML output by its path relative to the snapshot directory; other files keep their paths.",
  "all directories and call stacks",
  "arbitrary paths",
  "diffkemp/semdiff/result.py: Result.Callstack.to_output_yaml_with_rel_path")

p("C77", "The last line of a definition",
  "The last line given for a function or type is the first line from its start on that consists of a terminator and white space; it is omitted if there is none.",
  "all files and start lines",
  "arbitrary files",
  "diffkemp/utils.py: get_end_line")

p("C78", "Both interfaces of the engine get the same patterns",
  "For every configuration made from the command line, the patterns that are active in the engine are exactly the configured ones, whether it is called as a library or as a program.",
  "all combinations of the options",
  "all combinations of twelve patterns and two interfaces",
  "diffkemp/config.py: BuiltinPatterns.as_ffi_struct", "diffkemp/simpll/simpll.py: run_simpll", "diffkemp/simpll/SimpLL.cpp: main", "diffkemp/simpll/library/FFI.cpp: BuiltinPatternsFromC")

p("C79", "Diffs shown for functions contain the source lines",
  "The context diff shown for two functions contains the lines of the sources unchanged; only the line numbers of the hunks are shifted to those of the source files and the header of the function is added.",
  "all context diffs, all starting lines",
  "arbitrary source lines",
  "diffkemp/syndiff/function_syntax_diff.py: syntax_diff")

p("C80", "Expansion of composite macro names terminates",
  "Replacing the parameters of a macro that are concatenated by ## by the arguments terminates for every macro body.",
  "all macro bodies, parameters and arguments",
  "arbitrary texts",
  "diffkemp/simpll/SourceCodeUtils.cpp: expandCompositeMacroNames")

p("C81", "Modules using a symbol are found",
  "Looking up the modules that use a symbol gives exactly the existing LLVM files that the source finder knows to use it, for every kind of source tree.",
  "all source trees, finders and symbols",
  "the finders return different kinds of results",
  "diffkemp/llvm_ir/source_tree.py: SourceTree.get_modules_using_symbol", "diffkemp/llvm_ir/single_llvm_finder.py: find_llvm_with_symbol_use",
  "diffkemp/llvm_ir/wrapper_build_finder.py: find_llvm_with_symbol_use")
p("C82", "Verdicts rest on recorded results of called functions",
  "After comparing functions, every pair of called functions met in the last comparison of a pair with a result has a result itself, so a difference found in a called function is reported.",
  "all modules, comparators, inlinings and orders of calls",
  "the result of one pair is erased while another pair still depends on it; arbitrary call graphs",
  "diffkemp/simpll/ModuleComparator.cpp: ModuleComparator::compareFunctions", "diffkemp/simpll/DifferentialFunctionComparator.cpp: cmpGlobalValues")

p("C83", "Every comparison of two functions ends",
  "Comparing two functions of modules with finitely many functions ends with a recorded verdict; it neither runs forever nor aborts.",
  "all modules, comparators and inlinings, including recursive functions",
  "arbitrary call graphs and numbers of inlinings",
  "diffkemp/simpll/ModuleComparator.cpp: ModuleComparator::compareFunctions, ModuleComparator::tryToInline")

p("C84", "Unreachable blocks are removed",
  "After slicing, exactly the blocks that cannot be reached from the entry of the function are removed; the others keep their order.",
  "all control-flow graphs",
  "all graphs, with any number of blocks and cycles",
  "diffkemp/simpll/passes/VarDependencySlicer.cpp: deleteUnreachableBlocks, calculateReachableBlocksRecursive")
p("C85", "Slicing with respect to a variable finds everything that depends on it",
  "Every instruction that depends on the variable, through operands, branches or memory, is found to be dependent and kept in the slice.",
  "all functions: any blocks, instructions and operands",
  "dependencies may go through arbitrarily long chains and loops",
  "diffkemp/simpll/passes/VarDependencySlicer.cpp: VarDependencySlicer::run, checkDependency, checkPhiDependency, addAllInstrs")
p("C86", "Variable of a module parameter",
  "The variable reported for a module parameter is the innermost variable in the description of the parameter; if there is none, none is reported.",
  "all descriptions of parameters, nested to any depth",
  "any nesting",
  "diffkemp/simpll/library/DiffKempUtils.cpp: extractParamName")

p("C87", "Functions with different control flow are different",
  "Two functions that the comparison reports as equal return the same values with the same effects, in particular their loops and branches lead to the same code.",
  "all pairs of functions without phis and casts, all inputs, all machines",
  "all control-flow graphs and all runs",
  "diffkemp/simpll/DifferentialFunctionComparator.cpp: cmpValues, cmpBasicBlocks", "diffkemp/simpll/llvm-lib/16/FunctionComparator.cpp: compare")
p("C88", "Skipped casts do not change results",
  "Two functions that are reported as equal after casts were skipped return the same values with the same effects.",
  "all pairs of functions with casts, all widths, all inputs",
  "all values and all uses of the casts",
  "diffkemp/simpll/DifferentialFunctionComparator.cpp: maySkipInstruction, maySkipCast")
p("C89", "Comparisons can be repeated",
  "Comparing the same two functions once more gives the same verdict; a comparison leaves the functions as they were.",
  "all pairs of functions and all patterns",
  "all histories of comparisons",
  "diffkemp/simpll/DifferentialFunctionComparator.cpp: cmpOperations, compare")

p("C90", "Skipped loads have the value of their replacement",
  "When the comparison skips a load because its value is already known, then whenever the load is executed it reads the current value of the replacement (an earlier load from the same pointer, or the value of an ignored store to it).",
  "all functions in SSA form, all runs from the entry, all machines",
  "all control-flow graphs, all numbers of iterations of loops",
  "diffkemp/simpll/DifferentialFunctionComparator.cpp: maySkipLoad", "diffkemp/simpll/Utils.cpp: mayStoreTo, mayAlias")

p("C91", "Clicking in the viewer never leads to a broken page",
  "After any sequence of clicks the viewer shows a page whose list or difference exists, and every difference of the result file can be reached by clicks.",
  "all result files with distinct names, all sequences of clicks of any length",
  "unbounded sequences of clicks over arbitrary result files",
  "view/src/components/ResultViewer.jsx: ResultViewer", "view/src/components/ResultNavigation.jsx: ResultNavigation", "view/src/Result.js: Result")
p("C92", "The viewer displays complete call stacks",
  "The viewer displays every call of the old and of the new call stack of a difference, in order.",
  "all pairs of call stacks of any lengths, all renamings",
  "arbitrary pairs of call stacks",
  "view/src/components/Callstack.jsx: Callstack, findCorespondingPair")
p("C93", "Listings in the viewer show every function",
  "A listing shows a button for each function, in the given order, for any number of functions.",
  "all lists of functions",
  "the split into columns depends on the number of functions",
  "view/src/components/FunctionListing.jsx: FunctionListing")
p("C94", "The viewer highlights the right calls",
  "For the selected function of a call stack the viewer highlights lines at which it makes a call of the call stack, in the old and in the new version, and none for the differing function.",
  "all pairs of call stacks and all selected functions",
  "arbitrary pairs of call stacks",
  "view/src/components/Difference.jsx: Difference, getCallingLine")
p("C95", "Unifying copies of memory keeps behaviour",
  "Before the comparison, calls of `__memcpy` are replaced by LLVM's copy intrinsic; every function of the module has the same results and effects afterwards.",
  "all modules, all calls, all arguments and states, all machines in which `__memcpy` copies and returns the destination",
  "arbitrary programs and executions of any length",
  "simpll/passes/UnifyMemcpyPass.cpp: UnifyMemcpyPass::run")
p("C96", "Merging functions that differ in their number keeps behaviour",
  "Before the comparison, functions whose names differ in a number after a dot are merged; every function does the same afterwards under its new name.",
  "all modules, all calls, arguments and states, all machines that do not depend on numbers in names",
  "arbitrary programs and executions of any length",
  "simpll/passes/MergeNumberedFunctionsPass.cpp: MergeNumberedFunctionsPass::run")
p("C97", "Removing unused results keeps behaviour",
  "Calls whose result is not used are redirected to a new variant of the function without result; this succeeds, and every function of the module has the same results and effects afterwards.",
  "all modules, all other modules, all sets of called functions, all calls, arguments and states",
  "arbitrary, also recursive programs and executions of any length",
  "simpll/passes/RemoveUnusedReturnValuesPass.cpp: RemoveUnusedReturnValuesPass::run")
p("C98", "Abstractions of indirect calls and inline assembly keep behaviour",
  "Indirect calls and inline assembly are replaced by calls of generated functions; with each generated function doing what it stands for, every function of the module does the same afterwards, and the new calls have the types of the generated functions.",
  "all modules, all sets of called functions, all calls, arguments and states",
  "arbitrary programs; functions are shared between calls by a textual hash",
  "simpll/passes/FunctionAbstractionsGenerator.cpp: FunctionAbstractionsGenerator::run, funHash", "simpll/Utils.cpp: typeName")
p("C99", "Hiding what is printed changes nothing else",
  "Before the comparison of kernel functions the arguments of printing and warning functions are hidden; apart from what is printed, every function of the module has the same results and effects afterwards.",
  "all modules, all calls, arguments and states, all machines in which printing does not depend on the arguments otherwise",
  "arbitrary programs and executions of any length",
  "simpll/passes/SimplifyKernelFunctionCallsPass.cpp: SimplifyKernelFunctionCallsPass::run, isKernelPrintFunction, isKernelWarnFunction")

p("C100", "Global values that are found equal stand for the same",
  "If two global values (variables, constants, functions) are found equal, then they have the same name, or they are constants with the same content, in which again the same global values are mentioned; cycles between constants included.",
  "all pairs of modules with any number of globals that mention each other arbitrarily",
  "contents may be cyclic; pairs under comparison are assumed equal, which is only right if no difference can hide in the cycle",
  "simpll/DifferentialFunctionComparator.cpp: cmpGlobalValues", "simpll/llvm-lib/16/FunctionComparator.cpp: cmpConstants")
p("C101", "The comparison of global values ends and finds a module equal to itself",
  "The comparison of two global values ends for all modules, also if constants mention each other in cycles, and a global value is found equal to itself.",
  "all modules with any number of globals that mention each other arbitrarily",
  "recursion over cyclic data of arbitrary size",
  "simpll/DifferentialFunctionComparator.cpp: cmpGlobalValues, assumedEqual")
p("C102", "Only values of macros may change",
  "Different constants of the two versions are only found equal if both were written as the same macro or enumerator.",
  "all macros and enumerators of the two versions, all constants",
  "constants are matched by their value, so any literal anywhere may be concerned",
  "simpll/DebugInfo.cpp: calculateMacroAlignments, collectMacrosWithValue, addAlignment", "simpll/DifferentialFunctionComparator.cpp: cmpValues")
p("C103", "Changed values of macros and enumerators are ignored",
  "If the value of a macro or enumerator that is defined once in each version changes, then the constants it stands for are found equal.",
  "all macros and enumerators of the two versions, all values",
  "depends on all other definitions with the same value, on signs and on where macros are defined",
  "simpll/DebugInfo.cpp: calculateMacroAlignments, collectMacrosWithValue, addAlignment, getEnumValue", "simpll/DifferentialFunctionComparator.cpp: cmpValues")

p("C104", "Calls that are found equal pass the same values",
  "Calls that are found equal call the same function, and each argument has the same value, or is written as the same macro for a place (such as __LINE__), or is the size of the same structure.",
  "all pairs of calls with any arguments, all values of variables, all source lines",
  "arguments are accepted because of text in the source, and the rest of the call must still be compared",
  "simpll/DifferentialFunctionComparator.cpp: cmpOperationsWithOperands, cmpCallArgumentUsingCSource", "simpll/SourceCodeUtils.cpp: findFunctionCallSourceArguments")
p("C105", "Allocations that are found equal allocate the same",
  "Calls of an allocation function or memset that are found equal have the same values as arguments, except for sizes of the same structure.",
  "all pairs of calls of allocation functions and memset, all values of variables",
  "holds for each argument and each combination of known types",
  "simpll/DifferentialFunctionComparator.cpp: cmpAllocs, cmpMemset")
p("C106", "An additional argument is only ignored if it is null",
  "Calls of which one has an additional argument are only found equal if they call the same function, the common arguments have the same values and the additional one is zero or null.",
  "all pairs of calls with different numbers of arguments, all values of variables",
  "must hold for an additional argument on either side, whatever was compared before",
  "simpll/DifferentialFunctionComparator.cpp: cmpCallsWithExtraArg")
p("C107", "Exactly the macros of a line are found",
  "The macros that are found for a source line are exactly those to which the line expands: macros named in the line or in the body of another such macro. The search ends for all definitions.",
  "all source lines and all sets of macro definitions, also with cycles",
  "names are found by a hand-written scanner and followed through bodies of any depth",
  "simpll/SourceCodeUtils.cpp: collectMacroUsesAtLocation", "simpll/Utils.cpp: isValidCharForIdentifier, isValidCharForIdentifierStart")
p("C108", "Differences of macros are found with correct stacks",
  "After any earlier queries, all macros that differ between two lines are reported, and each reported difference is a macro with different bodies, with stacks that lead from the line to the macro.",
  "all pairs of lines, all definitions of macros, all sequences of earlier queries",
  "depends on what was stored by earlier queries and on chains of macros of any length",
  "simpll/SourceCodeUtils.cpp: findMacroDifferences, getAllMacroUsesAtLocation")
p("C109", "The definition of a macro is the one that holds",
  "The definition that is used for a macro is the one that holds at the end of the compile unit: the last one in the order of the source, unless it is undefined, definitions on the command line included.",
  "all trees of macro definitions in nested files",
  "files are nested arbitrarily and names may be defined, undefined and redefined in any order",
  "simpll/SourceCodeUtils.cpp: collectMacroDefs")
p("C110", "Differences of macros do not depend on earlier queries",
  "What is reported for two lines does not depend on the lines for which differences were searched before.",
  "all sequences of queries for all lines and definitions",
  "results are cached for each line and changed by later queries",
  "simpll/SourceCodeUtils.cpp: getAllMacroUsesAtLocation, findMacroDifferences")
p("C111", "Outputs of a matched pattern are used in the same places",
  "Where two functions are found equal with the help of a custom pattern, code that uses an output of the matched pattern in the first function uses the related output in the second one.",
  "all pairs of functions, all custom patterns and all their matches",
  "depends on the numbers that values got in all comparisons before",
  "simpll/CustomPatternComparator.cpp: processPatternMatch, matchValuePattern", "simpll/DifferentialFunctionComparator.cpp: createPatternMapping")
p("C112", "The comparison with custom patterns ends",
  "The comparison of two functions ends for all custom patterns.",
  "all pairs of functions and all custom patterns",
  "the comparison is repeated after every match, and matches may be anywhere in the code",
  "simpll/DifferentialFunctionComparator.cpp: cmpBasicBlocks", "simpll/InstPatternComparator.cpp: matchPattern")
p("C113", "What is matched is an occurrence of the pattern",
  "The code that is excluded from the comparison because of a custom pattern is an occurrence of the pattern in both functions: the same operations, on values that stand for those of the pattern, and all of its instructions.",
  "all pairs of functions and all custom patterns, with any instructions in between",
  "code of any length and any order is matched with serial numbers and inputs that are changed by failed attempts",
  "simpll/InstPatternComparator.cpp: compare, cmpBasicBlocks, mapInputValues, checkInputMapping", "simpll/CustomPatternComparator.cpp: matchInstPattern")
p("C114", "Occurrences of a pattern are found",
  "Code of a custom pattern that occurs in a block is found, also if other instructions come in between.",
  "all patterns of one block, all programs and all occurrences",
  "other instructions are compared first, and these failed comparisons must not change the state",
  "simpll/InstPatternComparator.cpp: cmpBasicBlocks, eraseNewlyMapped, cmpValues")
p("C115", "Pattern files are loaded",
  "Loading of a file of custom patterns does not crash, and gives the patterns that are described by its functions, with their outputs in order.",
  "all files with any functions",
  "files are written by users and may contain any pairs of functions",
  "simpll/CustomPatternSet.cpp: addPatternFromModule, getPatternType, initializeInstPattern, initializeInstPatternSide, initializeValuePattern")
p("C116", "Value patterns equate described values only",
  "With value patterns, functions that are found equal use the same constants and results of instructions that were found equal, or two values that one of the patterns describes.",
  "all pairs of functions and all value patterns",
  "loads may be skipped on one side, and values are compared by numbers afterwards",
  "simpll/CustomPatternComparator.cpp: matchValues, matchValuePattern", "simpll/ValuePatternComparator.cpp: compare")
p("C117", "Value patterns do not crash the comparison",
  "The comparison of two functions with value patterns does not crash.",
  "all pairs of functions and all value patterns",
  "any values of the programs are compared with those of the patterns",
  "simpll/ValuePatternComparator.cpp: compare", "simpll/ValuePatternComparator.h: ValuePatternComparator")
p("C118", "Results of equal instructions are used in the same places",
  "Where two functions are found equal, an instruction that uses the result of an instruction of the first function is found equal only to one that uses the result of the instruction to which this one is equal.",
  "all pairs of functions and all custom patterns",
  "numbers of values are taken back after failed comparisons and given away again",
  "simpll/DifferentialFunctionComparator.cpp: undoLastInstCompare, createPatternMapping, cmpValues")
p("C119", "Arguments of a matched pattern are equal in both programs",
  "When a custom pattern is matched, the values for each of its arguments in the two functions were found equal.",
  "all pairs of functions, all custom patterns with any number of arguments, all earlier comparisons",
  "arguments may be used on one side only, and are then searched by their users",
  "simpll/CustomPatternComparator.cpp: inputMappingValid", "simpll/InstPatternComparator.cpp: cmpInputValues")
p("C120", "Every instruction is compared or matched",
  "If the code of two functions is found equal, every instruction of each of them is found equal to an instruction of the other, with the same operation and in the same order, or it is in code matched by a custom pattern.",
  "all pairs of functions and all custom patterns",
  "instructions are skipped when they were marked by any earlier match",
  "simpll/DifferentialFunctionComparator.cpp: cmpBasicBlocks, isPartOfPattern", "simpll/CustomPatternComparator.cpp: processPatternMatch")

p("C121", "Index and name of a structure member belong together",
  "In the layout that the debug information describes, the name found at the index of a member is the name of a member in the same storage unit.",
  "all structures with distinct member names, with bit fields and any alignments",
  "the index is computed from offsets, sizes and alignments of all members before",
  "simpll/DebugInfo.cpp: getTypeMemberIndex, getElementNameAtIndex, isSameElemIndex")
p("C122", "Collected names of members are true",
  "Every name that is recorded for an index of a structure type is the name of the member at this index in the debug information of the module the type comes from.",
  "all pairs of modules and all their address computations",
  "names are recorded from all address computations of the module and from those at the same position in the other module",
  "simpll/DebugInfo.cpp: calculateGEPIndexAlignments, extractNamesFromGEPs")
p("C123", "Equal accesses reach the same member",
  "Two address computations with constant indices that are found equal compute the same offset, or go to members with the same names.",
  "all pairs of structure types and all constant indices",
  "structures of both versions have any members, and the names depend on the whole module",
  "simpll/DifferentialFunctionComparator.cpp: cmpGEPs")
p("C124", "Equal sequences of field accesses do the same",
  "Two blocks that are found equal, with accesses split into steps in any way, execute the same other instructions with the same operands.",
  "all pairs of blocks, all arguments and all results of loads and calls",
  "numbers of values are given before accesses are compared and stay if they fail",
  "simpll/DifferentialFunctionComparator.cpp: cmpFieldAccess, cmpBasicBlocks, getReplacementValue", "simpll/FieldAccessUtils.cpp: isConstantMemoryAccessToPtr")
p("C125", "Accesses that are only split differently are found equal",
  "Two versions of a program that differ only in how the accesses to members are split into steps with the same sum are found equal.",
  "all programs and all ways to split their accesses",
  "depends on the numbers given to the pointers inside accesses, over the whole block",
  "simpll/DifferentialFunctionComparator.cpp: cmpFieldAccess, cmpBasicBlocks", "simpll/FieldAccessUtils.cpp: isConstantMemoryAccessToPtr")
p("C126", "Equality of types does not depend on the order of the versions",
  "If a type of the first version is found equal to one of the second version, it is so too when the versions are swapped.",
  "all types, all data layouts and all settings of the patterns",
  "types nest to any depth and the rule for unions depends on sizes",
  "simpll/DifferentialFunctionComparator.cpp: cmpTypes")
p("C127", "Equal types have the same layout",
  "Types that are found equal have the same size and alignment.",
  "all types, all data layouts and all settings of the patterns",
  "types nest to any depth",
  "simpll/DifferentialFunctionComparator.cpp: cmpTypes")
p("C128", "Equality of types carries over from version to version",
  "Every type is equal to itself, and if a type is equal over two steps of versions, it is equal over both together.",
  "all types of three versions and all settings of the patterns",
  "relates three comparisons of types of any depth",
  "simpll/DifferentialFunctionComparator.cpp: cmpTypes")
p("C129", "Integer constants of different types are compared by value",
  "When casts are ignored, two integer constants are found equal exactly if they stand for the same number.",
  "all widths and values",
  "all widths and values, also beyond 64 bits",
  "simpll/DifferentialFunctionComparator.cpp: cmpAPInts")

p("C130", "Snapshot of sysctl options is complete and exact",
  "If the generation of a snapshot from a list of sysctl options or patterns ends normally, then for every option of the kernel's tables that matches the list its group contains the handler, if there is source code for it, and all other functions using the data of the option; and the snapshot contains nothing else.",
  "all lists of patterns, all tables of options and all answers of the source tree",
  "tables nest to any depth and patterns may match any number of options",
  "diffkemp/diffkemp.py: generate_from_sysctl_list", "diffkemp/llvm_ir/kernel_source_tree.py: get_sysctl_module", "diffkemp/simpll/library/SysctlTable.cpp: SysctlTable")
p("C131", "One sysctl option that cannot be analysed does not prevent the snapshot of others",
  "The generation of a snapshot from a list of sysctl options ends normally also if some of the options do not exist or are not used.",
  "all lists of options, all tables and all answers of the source tree",
  "any option of the list may be missing, at any place of the hierarchy",
  "diffkemp/diffkemp.py: generate_from_sysctl_list", "diffkemp/llvm_ir/kernel_source_tree.py: get_sysctl_module")
p("C132", "Handler, data and child of a sysctl option are those of its table entry",
  "For every option found in a table, the reported handler is the function in its entry, and the reported data and child table are the variables whose addresses are in its entry, with the indices of the address.",
  "all tables, options and address expressions",
  "tables of any length and addresses of any shape",
  "diffkemp/simpll/library/SysctlTable.cpp: getSysctl, getProcFun, getGlobalVariableAtIndex")
p("C133", "The table of a sysctl option is found by the names of its parents",
  "The search for the table of an option ends with a table iff this table is reached from the root table by following the child tables of the entries named by the components of the option.",
  "all options and all hierarchies of tables",
  "hierarchies of any depth over any number of files",
  "diffkemp/llvm_ir/kernel_source_tree.py: get_sysctl_module")

p("C134", "LLVM files of kernel sources are those of the current sources",
  "Whenever the build of a source of the kernel returns, the LLVM file is what the current source and headers compile to, with the optimisations applied, after any history of changes and of builds that failed or were interrupted.",
  "all histories of edits, builds and failures",
  "depends on the whole history of the directory, including interrupted builds",
  "diffkemp/llvm_ir/kernel_llvm_source_builder.py: _build_source_to_llvm")
p("C135", "LLVM files of kernel modules are those of the current sources",
  "Whenever the build of a kernel module returns, its LLVM file is linked from what the current sources of the module compile to, after any history of changes and of builds that failed or were interrupted.",
  "all modules and all histories of edits, builds, failures and interruptions",
  "the crash may come between any two programs of any earlier build",
  "diffkemp/llvm_ir/kernel_llvm_source_builder.py: _build_kernel_mod_to_llvm")
p("C136", "Linking of LLVM files corresponds to linking of objects",
  "The llvm-link command made from a command of the linker links the LLVM files of the same objects in the same order into the LLVM file of the same output.",
  "all command lines of the linker",
  "command lines have any number of words in any order",
  "diffkemp/llvm_ir/kernel_llvm_source_builder.py: _ld_to_llvm")
p("C137", "Every source of a kernel module is compiled",
  "The commands by which a module is built into LLVM IR contain, in the order of Kbuild, one for each compilation that Kbuild runs, except for the source generated for the module.",
  "all names of modules and all outputs of make",
  "any output of make and any names of files",
  "diffkemp/llvm_ir/kernel_llvm_source_builder.py: _extract_gcc_or_ld_command_list, _kbuild_to_llvm_commands")

p("C138", "Every comparison receives the result of the engine",
  "In every sequence of comparisons, each comparison receives exactly what the engine says about the two functions, or is reported as an error if the engine fails on it; a failure affects no other comparison.",
  "all sequences of comparisons, all results of the engine including crashes and texts of any length, both interfaces",
  "ranges over everything the engine may output and over its crashes",
  "diffkemp/simpll/simpll.py: run_simpll", "diffkemp/simpll/library/FFI.cpp: runSimpLL, parseAndRunSimpLL")
p("C139", "Loading modules in advance changes no result",
  "The option that keeps often used modules in memory does not change the outcome of any comparison.",
  "all sequences of comparisons and all choices of modules",
  "depends on the history of comparisons that use the modules in memory",
  "diffkemp/simpll/simpll.py: run_simpll", "diffkemp/simpll/library.py: SimpLLModule.preprocess", "diffkemp/simpll/ModuleAnalysis.cpp: preprocessModule")
p("C140", "The modules loaded in advance are those used often",
  "The modules kept in memory are exactly those that are used at least as often as required by functions that are in both snapshots.",
  "all snapshots and all thresholds above zero",
  "snapshots have any number of functions",
  "diffkemp/diffkemp.py: _get_modules_to_cache")

p("C141", "Differences of structures are reported with their definitions",
  "If two field accesses go through structures of the same name that differ, the difference is reported under this name with the files and lines of the definitions in both versions, and nothing else is reported.",
  "all modules with debug information, all sequences of types of field accesses and all comparisons of types",
  "graphs of debug information have any size and any cycles",
  "diffkemp/simpll/passes/StructureDebugInfoAnalysis.cpp: run", "diffkemp/simpll/DifferentialFunctionComparator.cpp: findTypeDifferences, findTypeDifference")
p("C142", "All structures of a field access are examined",
  "When a difference is found at the end of a field access, the access is found from its end, and the types of all its steps are examined.",
  "all blocks and all field accesses in them",
  "blocks and accesses have any length, and pointers may be used several times",
  "diffkemp/simpll/FieldAccessUtils.cpp: getFieldAccessStart, getFieldAccessSourceTypes")
p("C143", "Simplification of kernel globals keeps code",
  "Removal of the kernel symbol table and merging of compile-time assertions change nothing in the code of functions, except for the numbers of declared assertions.",
  "all modules",
  "modules have any functions and variables with any names",
  "diffkemp/simpll/passes/SimplifyKernelGlobalsPass.cpp: run")
p("C144", "Anonymous structures have the same name in both versions",
  "Structures with names keep them, and anonymous structures that are declared in the same way get the same name in both versions.",
  "all pairs of modules, all hash functions and all orders of types",
  "declarations refer to each other in any way",
  "diffkemp/simpll/passes/StructHashGeneratorPass.cpp: run")

p("C145", "A snapshot contains the sources of its modules",
  "When a snapshot is created, the C sources and headers in the source directory that the debug information of a module describes are in the snapshot, at the same place and with their contents, and no file outside of the snapshot changes.",
  "all modules, all contents of the source directory and of the snapshot directory, all orders of copying",
  "any directory contents before the build and any paths in debug information",
  "diffkemp/llvm_ir/source_tree.py: copy_source_files", "diffkemp/llvm_ir/llvm_module.py: get_included_sources")
p("C146", "Moving a module changes its paths only",
  "In the copy of a module in a snapshot, paths in the source directory are replaced by paths in the snapshot, and nothing else is changed.",
  "all source directories, all snapshot directories and all lines of modules",
  "any name of a directory may occur in any text of a module",
  "diffkemp/llvm_ir/llvm_module.py: move_to_other_root_dir")
p("C147", "Definitions are recognised in the text of a module",
  "A module is said to contain the definition of a function or a global variable exactly if its text defines it.",
  "all names and all modules printed by LLVM",
  "names and modules are arbitrary",
  "diffkemp/llvm_ir/llvm_module.py: has_function, has_global")
p("C148", "The compiler wrapper works with the given settings",
  "In a build of a project, the wrapper uses the compiler, the linker, the appended and the dropped options given on the command line, and the build sees the other variables of the environment.",
  "all options and all environments",
  "options and environments are arbitrary texts",
  "diffkemp/diffkemp.py: build_c_project", "diffkemp/building/cc_wrapper.py: wrapper")
p("C149", "Cleaning keeps the log of configure",
  "Cleaning the project before a build changes neither config.log nor config.log.bak, and after an interruption at any point the next run puts the log back.",
  "all contents of the two files, all effects of make clean and all points of interruption",
  "the tool may be interrupted at any point",
  "diffkemp/diffkemp.py: build_c_project")
p("C150", "The project is configured again with its own command",
  "With a log of configure, the project is configured with the command in the log and the wrapper as compiler, unless the command has this setting.",
  "all logs, commands and paths of the wrapper",
  "commands are arbitrary texts",
  "diffkemp/diffkemp.py: build_c_project")
p("C151", "All listed symbols are read",
  "Reading the list of functions that was written for a project gives exactly the functions of the project.",
  "all lists of functions",
  "lists and names are arbitrary",
  "diffkemp/diffkemp.py: read_symbol_list", "diffkemp/llvm_ir/wrapper_build_finder.py: initialize")

p("C152", "Statistics count every differing object once",
  "The extended statistics print the number of different objects (functions, types, macros, pieces of assembly code) that differ, and each of them is counted in exactly one class.",
  "all results of comparisons",
  "the number of results, their names and kinds are unbounded",
  "diffkemp/semdiff/result.py: Result.report_object_stat")

p("C153", "The log shows the comparisons that failed",
  "The log printed in verbose mode shows, in order and indented by depth, exactly the comparisons in which a difference was found and that lie only in such comparisons; with more verbosity also the important ones without a difference.",
  "all sequences of nested comparisons with any results, both levels of verbosity",
  "nesting and results of comparisons are arbitrary",
  "diffkemp/simpll/Logger.cpp: Logger::log, Logger::dump", "diffkemp/simpll/Logger.h: PREP_LOG, RETURN_WITH_LOG",
  "diffkemp/simpll/DifferentialFunctionComparator.cpp: cmpGlobalValues")

p("C154", "Arguments of inline assembly are shown with their names",
  "For each argument of differing inline assembly a text is shown that contains the names of all variables and structure members that are accessed.",
  "all values, all types and names of members",
  "values are arbitrarily nested",
  "diffkemp/simpll/Utils.cpp: getIdentifierForValue", "diffkemp/simpll/DifferentialFunctionComparator.cpp: findAsmDifference")

p("C155", "Functions with phis that are found equal behave equally",
  "If two functions with merges of values (phis), loops included, are found equal without patterns, they return the same values with the same effects for all arguments and every memory.",
  "all pairs of functions with the same control flow and without casts, all machines, arguments and memories, runs of any length",
  "functions, paths through loops and values are unbounded",
  "diffkemp/simpll/DifferentialFunctionComparator.cpp: compare, cmpPHIs, cmpValues, cmpBasicBlocks")

p("C156", "The viewer shows the sources and the diffs of all compared definitions",
  "For every definition in the results of a comparison whose source files exist, the viewer shows the old source file of the definition and the differences of its two versions.",
  "all results, all source files and all locations of the snapshots",
  "names, contents and locations of files are unbounded",
  "diffkemp/diffkemp.py: view", "diffkemp/syndiff/function_syntax_diff.py: unified_syntax_diff", "view/src: fetching of files")

p("C157", "Viewing leaves no traces",
  "After the viewer ends, the file system is as before, except that the data directory of the viewer is empty.",
  "all results, all file systems",
  "which files are overwritten depends on paths in the results",
  "diffkemp/diffkemp.py: view")

p("C158", "Searching the sources of a kernel finds all occurrences of a symbol",
  "A search for a symbol in the sources of a kernel finds all occurrences in C sources outside of Documentation, scripts and tmp, with the current contents of the sources, and nothing else, no matter what was searched before.",
  "all trees of sources, all sequences of searches, all states left by previous runs",
  "directories, names of files and sequences of searches are unbounded",
  "diffkemp/llvm_ir/kernel_llvm_source_builder.py: _build_cscope_database, _cscope_run")

p("C159", "The commands that build a kernel module are found by the name of the module",
  "If there is a file of a module, whose name may have dashes in place of underscores, the commands that make would use to build it are found by the name of the module.",
  "all modules, all behaviours of make",
  "names and outputs of make are unbounded",
  "diffkemp/llvm_ir/kernel_llvm_source_builder.py: _kbuild_module_commands, _extract_gcc_or_ld_command_list")

p("C160", "The report lists the functions that it counts as unknown and as errors",
  "With --show-errors, the functions listed below each heading are exactly those counted in the statistics.",
  "all results of comparisons",
  "the number of functions and all combinations of results are unbounded",
  "diffkemp/semdiff/result.py: report_symbol_stat")

p("C161", "A snapshot that can be loaded is complete",
  "Whenever the creation of a snapshot stops, by an error or because it is interrupted, a directory that can be loaded is the whole old snapshot or the whole new one, with all files that its description lists.",
  "all runs, all points at which a run stops, all previous contents of the directory",
  "every point between two changes of files is a crash point",
  "diffkemp/snapshot.py: create_from_source, generate_snapshot_dir, load_from_dir", "diffkemp/diffkemp.py: build_kernel, build_c_project, build_c_file, llvm_to_snapshot")

p("C162", "A failed creation of a snapshot keeps the existing snapshot",
  "If a snapshot cannot be created, an existing snapshot in the output directory stays as it was; if it is created, it replaces everything that was in the directory.",
  "all lists of symbols, all contents of the directory, all results of the generation",
  "inputs that fail and contents of directories are unbounded",
  "diffkemp/diffkemp.py: build_kernel, llvm_to_snapshot, read_symbol_list", "diffkemp/snapshot.py: create_from_source")

p("C163", "Creating a snapshot of a kernel leaves its headers as they were",
  "Whenever the creation of a snapshot of a kernel stops, the headers of the kernel have their original contents.",
  "all headers, all sequences of commands that stop anywhere",
  "the headers depend on all previous commands and on the points at which they stopped",
  "diffkemp/diffkemp.py: build_kernel", "diffkemp/llvm_ir/kernel_llvm_source_builder.py: initialize, finalize, _disable_asm_features, _enable_asm_features", "diffkemp/snapshot.py: finalize")

p("C164", "If nothing is found different, the programs behave equally",
  "If a function is compared with its namesake in another program, no pair of functions is reported as different and no definition is reported as missing, then the function returns in the same cases in both programs, with the same values and effects, together with everything it calls, directly or recursively.",
  "all programs, all recursive calls, all arguments and memories, all depths of calls",
  "the verdict combines the comparisons of all called functions and must hold for all executions of both programs",
  "diffkemp/simpll/ModuleComparator.cpp: compareFunctions", "diffkemp/simpll/DifferentialFunctionComparator.cpp: cmpGlobalValues, compare", "diffkemp/simpll/ModuleAnalysis.cpp: simplifyModulesDiff")

p("C165", "Inlining during the comparison does not hide differences",
  "Code may be moved into a new function or out of one, and calls are inlined while two programs are compared. If no pair of functions is reported as different and no definition is missing, the compared function does the same in both original programs, provided that inlining and simplification keep what the changed function does.",
  "all programs, all inliners that keep what functions do, all sequences of inlined calls, all arguments and memories",
  "functions are changed while others rest on earlier results about them; this must be right for every order of comparisons, inlinings and recursive calls",
  "diffkemp/simpll/ModuleComparator.cpp: compareFunctions, tryToInline", "diffkemp/simpll/DifferentialFunctionComparator.cpp: compare")

p("C166", "Reordered operations are compared safely in functions without loops",
  "Two functions without loops and casts, with the same control flow, that are found equal with the pattern for reordered binary operations return the same, with the same effects, also when values are merged where control flow joins.",
  "all pairs of functions without loops, all arguments and memories",
  "the numbers that stand for values depend on all comparisons that were tried and undone before",
  "diffkemp/simpll/DifferentialFunctionComparator.cpp: cmpBasicBlocks, undoLastInstCompare, cmpValues, collectBinaryOperands")

p("C167", "More patterns never report more differences",
  "Two functions that are found equal are still found equal when more built-in patterns are switched on.",
  "all pairs of functions, all sets of patterns",
  "patterns interact through the common state of the comparison; every combination on every pair of functions counts",
  "diffkemp/simpll/DifferentialFunctionComparator.cpp: cmpBasicBlocks, cmpOperations, maySkipInstruction", "diffkemp/simpll/Config.h: BuiltinPatterns")

p("C168", "Direct calls instead of calls through casts do the same",
  "Before the comparison, calls of functions through casts are replaced by direct calls with casts of arguments and results. The changed function returns the same values with the same effects as the original one.",
  "all functions with branches, loops and phis, all types of called functions, all arguments and memories",
  "uses of replaced calls are everywhere in the function; every path through it counts",
  "diffkemp/simpll/passes/SeparateCallsToBitcastPass.cpp: run")

p("C169", "Direct calls instead of calls through casts are valid",
  "The code in which calls through casts were replaced by direct calls is valid: calls fit the type of the called function, values are cast only to types of the same size, every used value is defined once, with its type.",
  "all valid functions, all types of called functions",
  "every combination of types of arguments, parameters and results counts",
  "diffkemp/simpll/passes/SeparateCallsToBitcastPass.cpp: run")

p("C170", "The source text of a place contains its line",
  "The text that is taken from the source for a place in the program consists of consecutive lines of the file, among them the line of the place.",
  "all files and all lines that are not empty",
  "texts are extended over any number of lines, backwards and forwards",
  "diffkemp/simpll/SourceCodeUtils.cpp: extractLineFromLocation")
p("C171", "No source text is taken for missing lines",
  "For a place whose line is empty or missing in the file no text is taken from the source.",
  "all files and line numbers",
  "the search passes over the whole file and empty lines",
  "diffkemp/simpll/SourceCodeUtils.cpp: extractLineFromLocation")
p("C172", "Brackets opened in a source text are closed in it",
  "If a bracket is opened in the text that is taken for a place, it is closed in it, or the text reaches to the end of the file.",
  "all files and line numbers",
  "statements may span any number of lines",
  "diffkemp/simpll/SourceCodeUtils.cpp: extractLineFromLocation")
p("C173", "The search for source text stays in the file",
  "The search for the source text of a place does not read behind the end of the file.",
  "all files and line numbers",
  "statements may be unfinished anywhere in the file",
  "diffkemp/simpll/SourceCodeUtils.cpp: extractLineFromLocation")
p("C174", "Operands of inline assembly are taken from its own statement",
  "The source operands that are found for inline assembly are those of a statement with the same assembly.",
  "all lists of statements on a line or in its macros, with any operands",
  "any number of statements may be candidates",
  "diffkemp/simpll/SourceCodeUtils.cpp: findInlineAssemblySourceArguments, convertInlineAsmToLLVMFormat")
p("C175", "Operands of inline assembly are found in their order",
  "The source expression that is used for an operand of inline assembly is the one it is written as.",
  "all statements with inline assembly, with any outputs and inputs",
  "any number of operands with nested brackets",
  "diffkemp/simpll/SourceCodeUtils.cpp: findInlineAssemblySourceArguments", "diffkemp/simpll/DifferentialFunctionComparator.cpp: cmpCallArgumentUsingCSource")
p("C176", "The search for the statement of inline assembly stays in the strings",
  "The search for operands of inline assembly in the source does not read behind the end of strings.",
  "all source lines, macros and assembly",
  "candidates are compared character by character until one is left",
  "diffkemp/simpll/SourceCodeUtils.cpp: findInlineAssemblySourceArguments")
p("C177", "Operands in assembly templates are converted to LLVM's notation",
  "The template of inline assembly in the source is converted to what LLVM makes of it: operands printed as constants get LLVM's notation, other text is kept.",
  "all templates with text and operands",
  "replacements are done one after another on the whole text",
  "diffkemp/simpll/SourceCodeUtils.cpp: convertInlineAsmToLLVMFormat")
p("C178", "The called function of every compared call is known",
  "When functions are compared, every call in a function that may be called from them is a call of a function of the module; pointers and inline assembly have been replaced, so that looking up the called function cannot fail.",
  "all modules and all sets of functions that may be called",
  "any number of calls through pointers, inline assembly and direct calls",
  "diffkemp/simpll/passes/FunctionAbstractionsGenerator.cpp: run", "diffkemp/simpll/DifferentialFunctionComparator.cpp: findMacroFunctionDifference, processCallInstDifference")
p("C179", "A function that became a macro is reported, and nothing else is reported as such",
  "At a difference of calls, the report that a function of one program is a macro in the other one is given if and only if the line is the same in both programs, one program calls the function there and the line of the other program expands to a macro with its name, but not the own line.",
  "all pairs of places, macros and called functions, after any history of earlier queries",
  "macros are collected transitively and recorded over all earlier queries",
  "diffkemp/simpll/DifferentialFunctionComparator.cpp: findMacroFunctionDifference, findDifference", "diffkemp/simpll/MacroUtils.cpp: getAllMacroUsesAtLocation")

p("C180", "The text shown for a syntactic difference is its own",
  "In a comparison that does not fail, every entry shown for a macro or assembly difference has the name and the call stacks of one recorded difference, and its text consists of the two bodies recorded for this very difference, even if several differences have the same name.",
  "all result graphs, with any number of differences of the same name, with and without full diffs and a semantic tool",
  "texts and entries are stored in different tables under names; they must agree for every order of collisions",
  "diffkemp/semdiff/caching.py: ComparisonGraph.graph_to_fun_pair_list", "diffkemp/semdiff/function_diff.py: functions_diff", "diffkemp/semdiff/result.py: Result.add_inner")
p("C181", "Full diffs do not change whether a difference is reported",
  "If the same two functions are compared with and without full diffs and neither comparison fails, a difference is reported in both cases or in none.",
  "all result graphs and all answers of the engine",
  "the engine records differences before it knows whether the functions are equal; all such histories count",
  "diffkemp/semdiff/function_diff.py: functions_diff", "diffkemp/semdiff/caching.py: ComparisonGraph.graph_to_fun_pair_list", "diffkemp/simpll/DifferentialFunctionComparator.cpp: cmpBasicBlocks, findDifference", "diffkemp/simpll/Output.cpp: MappingTraits<Result>")
p("C182", "A semantic diff tool decides about functions found different",
  "If a semantic diff tool is configured, it is asked about the functions that the engine finds different: if it shows all of them equal, no difference is reported; and the use of the tool does not make a comparison fail that gives a verdict without it.",
  "all result graphs, all answers of the engine and of the tool",
  "depends on the kinds of all listed objects and on names of macros that may or may not be functions",
  "diffkemp/semdiff/function_diff.py: functions_diff, functions_semdiff", "diffkemp/llvm_ir/llvm_module.py: LlvmModule.get_functions_called_by", "diffkemp/simpll/simpll.py: run_simpll")
p("C183", "Every line of a displayed function can be seen",
  "In the viewer, whatever has been clicked before, every line of the displayed function is shown or is shown after a click on one of the buttons between the shown parts, and no click hides anything. From the beginning the first and the last line and all changes inside the function are shown; if a called function was selected, the call is shown with ten lines before and after, and functions of up to 25 lines are shown completely.",
  "all diffs, all functions of a file, all sequences of clicks, every implementation of the expansion of hunks that fulfils its documentation",
  "sequences of clicks and positions of changes relative to the function are unbounded",
  "view/src/components/DiffViewWrapper.jsx: DiffViewWrapper, expandHunks, renderHunks")
p("C184", "Differences of inline assembly are shown",
  "If differences of assembly are to be printed, then for each pair of calls of inline assembly found different because of the assembly text or its constraints, a difference is reported with both assembly texts, the names of all arguments and the places of both functions; the differences of a run have different names, and the search never ends the run.",
  "all sequences of pairs of calls in a run, all texts, constraints, arguments and debug information",
  "the names depend on the whole history of a run; arguments are arbitrary expressions",
  "diffkemp/simpll/DifferentialFunctionComparator.cpp: findAsmDifference, findDifference", "diffkemp/simpll/Utils.cpp: getIdentifierForValue")
p("C185", "The viewer shows the files of the selected function",
  "Whatever the user clicks and in whatever order the requested files arrive or fail to arrive: code that is displayed is described by the definition of the function that is selected, and its text and its diff are the files of this function. When the files requested last have arrived, in any order and mixed with answers to older requests, the code is displayed.",
  "all results, all sequences of clicks, all orders and interleavings of answers and failures",
  "the interleaving of clicks and answers is a race that tests do not control",
  "view/src/components/Code.jsx: Code", "view/src/components/Difference.jsx: Difference", "view/src/components/ResultViewer.jsx: ResultViewer")
p("C186", "Opening a difference selects the differing function",
  "When another difference is opened in the viewer, the last function of its call stack is selected; and the selected function always belongs to the call stack of the displayed difference.",
  "all results, all sequences of clicks and answers",
  "depends on the names of all compared and differing functions and on the history of clicks",
  "view/src/components/ResultViewer.jsx: ResultViewer", "view/src/components/Difference.jsx: Difference")
p("C187", "Comparisons of integers that are found equal have the same outcome",
  "If two comparisons of integers are found equal, they have the same outcome for the same numbers. If they are found to be inverse conditions, they have opposite outcomes.",
  "all predicates, widths, numbers and choices of the patterns for type casts and inverse conditions",
  "numbers of all widths and signs, and combinations of patterns",
  "simpll/DifferentialFunctionComparator.cpp: cmpOperations, cmpTypes")
p("C188", "Expressions in sizeof get the type of the variable that is visible",
  "If the type of an expression that consists of a variable and the operators * and & is looked up to compare arguments sizeof(..) of calls, the type that is found is the type of the expression in C at the place of the call.",
  "all sets of functions in any order, all nested blocks with variables and global variables, all expressions and types",
  "combinations of variables of the same name, of nested types and of orders of functions",
  "simpll/DebugInfo.cpp: collectLocalVariables", "simpll/Utils.cpp: getCSourceIdentifierType", "simpll/DifferentialFunctionComparator.cpp: cmpCallArgumentUsingCSource")
p("C189", "The engine as a program does the same as the library",
  "Run as a program, the engine works with the same files, functions, variable, cache directory, patterns and settings as when it is called as a library with the same request, and the modules are written to the files that are read afterwards.",
  "all requests: names of files, functions and variables, suffixes, directories and settings",
  "combinations of optional arguments and of names with dots, slashes and commas",
  "simpll/simpll.py: run_simpll, add_suffix", "simpll/SimpLL.cpp: main, addSuffix, parseFunOption", "simpll/library/FFI.cpp: runSimpLL")
p("C190", "The optimiser runs the requested passes in order for all versions of LLVM",
  "Whatever the version of LLVM, the command for the optimiser makes it read the file, run exactly the requested passes in the requested order, and replace the file exactly if this is asked for. The optimised module is the same for all versions.",
  "all versions, lists of passes, file names and modules",
  "only one version of LLVM is installed where tests run",
  "diffkemp/utils.py: get_opt_command", "diffkemp/llvm_ir/kernel_llvm_source_builder.py: _opt_llvm")
p("C191", "Constants found equal by the sizes of structures are sizes of one structure",
  "If two constant arguments written with sizeof are found equal because of the sizes of structures, they are the sizes of one structure, in the first and in the second module. Sizes that are written for different structures are not found equal.",
  "all modules with any structures and sizes, all constants",
  "combinations of structures of the same size, and constants of all widths",
  "simpll/passes/StructureSizeAnalysis.cpp: run", "simpll/DifferentialFunctionComparator.cpp: cmpCallArgumentUsingCSource")
p("C192", "Calls and functions that lose their result keep the attributes of their arguments",
  "If a call or function is replaced by a variant without result before the comparison, the attributes of all its arguments stay, and no attributes stay at the result that do not fit to a missing result.",
  "all calls and functions with any attributes of the result, the function and any number of arguments",
  "combinations of attributes and arguments",
  "simpll/Utils.cpp: copyCallInstProperties, copyFunctionProperties, cleanAttributeList")
p("C193", "Constants that are found equal have the same value",
  "If two constants, also computed ones such as addresses of elements, are found equal, they have the same value, wherever global values are placed.",
  "all constants with nested casts and operations, with and without the pattern for type casts, all addresses",
  "constants of any nesting, and addresses are not known",
  "simpll/DifferentialFunctionComparator.cpp: cmpConstants, cmpAPInts, cmpTypes", "simpll/llvm-lib/16/FunctionComparator.cpp: cmpConstants")

p("C194","The functions of a compiled C file are listed",
  "When a snapshot is made of a single C file, the listed functions are exactly those functions that are defined in the file and whose names are names in C, each once and in the order of the file; names that are only declared, called or made by the compiler are not listed.",
  "all files with any number of definitions and any other lines",
  "files of any size, with any texts in attributes and sections",
  "diffkemp/utils.py: get_functions_from_llvm, LLVM_FUNCTION_REGEX", "diffkemp/llvm_ir/single_c_builder.py: get_function_list")

p("C195","The lines of a call are marked in the viewer",
  "When the viewer shows a call of another function, exactly the line of the call in the old version and the line of the call in the new version are marked among the shown lines; without a call nothing is marked.",
  "all diffs with unchanged, added and removed lines, all pairs of lines",
  "diffs of any length, calls on any lines",
  "view/src/components/DiffViewWrapper.jsx: getLinesToHighlight, DiffViewWrapper")

p("C196","The library uses and frees memory correctly",
  "In whatever order modules are loaded, functions and sysctl tables are taken from them, used and given up, the library never uses memory that was freed and frees none twice: a module stays as long as one of its functions or tables is referred to. Memory that can no longer be reached is freed.",
  "all sequences of uses of the objects of the library, with any number of modules, functions and tables",
  "histories of any length, and objects are given up in any order",
  "diffkemp/simpll/library.py: SimpLLModule, SimpLLFunction, SimpLLSysctlTable", "diffkemp/simpll/library/FFI.cpp: loadModule, freeModule, freePointerArray, getChild, getData")

p("C197","The command that builds an object file of the kernel is found",
  "For a source file of the kernel, the command that is taken from the output of make is the last command that starts with gcc; an error is raised only if there is none.",
  "all outputs of make, with any number of lines and of commands in a line",
  "outputs of any length",
  "diffkemp/llvm_ir/kernel_llvm_source_builder.py: _kbuild_object_command, _extract_gcc_command")

p("C198","Slicing keeps the blocks that depend on the variable",
  "When a function is reduced to what depends on a variable, every block with instructions that depend on the variable and that was reached before is still reached, and no other block becomes reached. A branch stays conditional exactly if each way leads to a needed block that the other way does not lead to.",
  "all functions with any graph of blocks, all sets of dependent instructions",
  "graphs with any loops and any number of branches that are replaced one after another",
  "diffkemp/simpll/passes/VarDependencySlicer.cpp: run, includedSuccessors, reachableBlocksThroughSucc")

p("C199","Slicing removes no operand of what it keeps",
  "When a function is reduced to what depends on a variable, no instruction that stays uses an instruction that is removed; stores to local variables that it uses are kept with it. Nothing is kept that is not needed by an instruction that depends on the variable or by a branch that stays. The search ends.",
  "all functions with any instructions and operands, all sets of dependent instructions",
  "chains of operands of any length, with cycles through phis",
  "diffkemp/simpll/passes/VarDependencySlicer.cpp: run, addAllOpsToIncluded, addStoresToIncluded, addToIncluded")

p("C200","After slicing no block is left that is not reached",
  "When a function was reduced to what depends on a variable, the function that is found under its name has exactly the blocks that are reached from its first block. Its return type changes only if its return does not depend on the variable and the function is not called.",
  "all functions with any graph of blocks",
  "graphs of any size with any loops",
  "diffkemp/simpll/passes/VarDependencySlicer.cpp: run, changeToVoid, deleteUnreachableBlocks, calculateReachableBlocksRecursive")

p("C201","Slicing keeps the stores that a use of a local variable may see",
  "When a function is reduced to what depends on a variable and a kept instruction uses a local variable, every store to this local variable, directly or through a pointer into it, is kept that may be executed after its allocation and before the use. The search for stores ends.",
  "all functions with any flow of control, all local variables and uses",
  "flows of any length with loops, chains of derived pointers of any length",
  "diffkemp/simpll/passes/VarDependencySlicer.cpp: addStoresToIncluded")

p("C202","Slicing removes the entry of a function only if nothing is lost",
  "When a function is reduced to what depends on a variable and its first block is removed, all blocks with instructions that are needed are still reached from the new first block.",
  "all functions with any graph of blocks, all sets of needed blocks",
  "graphs of any size and any order of blocks",
  "diffkemp/simpll/passes/VarDependencySlicer.cpp: run, canRemoveFirstBlock")

p("C203","Slicing removes a block only if phis stay valid",
  "When a function is reduced to what depends on a variable, a block without needed instructions is removed only if it has one successor and every phi of the successor has afterwards one value for each incoming block; it is kept only if this is not so.",
  "all blocks with any predecessors, all phis of their successor",
  "any number of predecessors, phis and incoming values",
  "diffkemp/simpll/passes/VarDependencySlicer.cpp: canRemoveBlock")

p("C204","Slicing looks at every instruction at most once for each use of a local variable",
  "When a function is reduced to what depends on a variable, the search for the stores to a local variable before a use looks at no more instructions than the function has, so that the time of the reduction stays in proportion to the size of the function.",
  "all functions with any flow of control, all local variables and uses",
  "functions with any number of branches; the time of the worst case is seen for large functions only",
  "diffkemp/simpll/passes/VarDependencySlicer.cpp: addStoresToIncluded")

if __name__ == "__main__":
    out = os.path.join(os.path.dirname(os.path.abspath(__file__)), "..", "properties.jsonl")
    ids = [x["id"] for x in P]
    assert len(ids) == len(set(ids))
    with open(out, "w") as f:
        for x in P:
            f.write(json.dumps(x) + "\n")
    print(len(P))
