# Formal model of DiffKemp in Lean 4: design

DiffKemp compares two versions of a C project. A Python front end builds snapshots, drives the comparison
and reports results; a C++ engine (SimpLL) compares two LLVM functions; a JavaScript viewer displays results.
This directory contains a Lean 4 model of the parts of that code that carry its semantics, and proofs of the
properties listed in `properties.jsonl`.

## Layout

* `lean/Verif/Model/*.lean` – the model: one definition per function of the code, with file and lines cited.
* `lean/Verif/Spec/*.lean` – specifications, written without using the model's helpers (paths, orders, counts...).
* `lean/Verif/Lemmas/*.lean` – helper lemmas.
* `lean/Verif/Props/*.lean` – the property theorems, each with an example showing the hypotheses are met.
* `MANIFEST.json` – property → theorems. `seeded/LOG.jsonl` – mutation experiments.

## Modelling conventions

* Python strings are `List Char` (`Str`) where their characters matter.
* Python dicts are insertion-ordered association lists (`Dict`); `d[k] = v` keeps the position of an existing key.
* Python objects with identity (vertices) are natural number ids into a heap, so aliasing is modelled.
* Exceptions are values: functions that may raise return `Except`.
* Loops that terminate for a non-obvious reason are written by well-founded recursion; the termination proof is
  part of the result. Loops whose termination is a claim are otherwise small-step relations.
* External tools (clang, SimpLL binary, file system, diff) are parameters: theorems hold for all their behaviours.

## Trusted base

* The kernel of Lean 4.33.0.
* Axioms: at most `propext`, `Classical.choice` and `Quot.sound`. No others are added, and there is no `sorry`,
  `admit`, `native_decide` or `bv_decide`. `AXIOMS.md` lists the axioms of every theorem of the manifest; it is
  generated from Lean's own output by `tools/axioms.py`. Concrete witnesses are checked by the kernel
  (`decide +kernel`, `rfl`, `simp`).
* That the specifications in `lean/Verif/Spec` say what the English statements say.
* That the model reflects the code. Each definition cites the lines that it models and says what is simplified.
  Nothing was run: the correspondence was checked by reading only.

### What is modelled

| Code in /repo | Model | Parts that are parameters or left out |
|---|---|---|
| diffkemp/semdiff/result.py | Result, YamlOut, Compare, ObjectStat, ErrorList | percentages and times |
| diffkemp/semdiff/caching.py | Graph, GraphOps, Search, FunPairs, Cache | none of `ComparisonGraph`; pickling is left out |
| diffkemp/semdiff/function_diff.py | FunctionsDiff, SemTool | SimpLL, LLVM linker, syntax diff are arbitrary functions |
| diffkemp/diffkemp.py: build, compare, generate, output | Compare, Snapshot, CProject, SnapBuild, ViewPrep | module lookups, the clock, the web server of `view` |
| diffkemp/snapshot.py | Snapshot | YAML text (values are modelled) |
| diffkemp/output.py, utils.py | YamlOut, Compare | YAML text |
| diffkemp/config.py, cli.py, custom_pattern_config.py | Config | argparse |
| diffkemp/syndiff/function_syntax_diff.py | SyntaxDiff | the program `diff` is arbitrary |
| diffkemp/building/cc_wrapper.py | Building | clang, gcc and the file system are arbitrary |
| diffkemp/llvm_ir/*.py | Building, KernelBuild, KernelSearch, Text, FunctionsDiff, ModuleFiles | cscope, make, clang, `opt`; the parser of LLVM modules |
| diffkemp/simpll/simpll.py, library.py | Config, GraphOps, EngineOut, ModuleCache, LibMemory | CFFI; reference cycles, strings in arrays and addresses that are used again |
| simpll/Output.cpp, Result.h, ResultsCache.cpp | EngineOut, Cache | YAML text |
| simpll/ModuleComparator.cpp | ModCmp, Program, ProgInline | in ModCmp, function comparison, inlining, simplification are arbitrary; in Program and ProgInline, functions are compared by DiffCmp, inlining is arbitrary |
| simpll/llvm-lib/16/FunctionComparator.cpp | IR, FunCmp | types of globals, operand bundles, metadata |
| simpll/DifferentialFunctionComparator.cpp | DiffCmp, Loads, Globals, Macros, MacroFun, AsmDiff, Calls, CustomPatterns, NamedTypes, Fields, FieldAccess, StructInfo | allocas |
| simpll/CustomPatternSet.cpp, CustomPatternComparator.cpp, InstPatternComparator.cpp, ValuePatternComparator.cpp | CustomPatterns | reading of configuration and files, inline assembly, names of structure types, debug information |
| simpll/DebugInfo.cpp | Macros, Fields | removal of debug calls |
| simpll/FieldAccessUtils.cpp | FieldAccess, StructInfo | none |
| simpll/Utils.cpp | Text, Passes, Loads, IR, Identifier | type printing, file access |
| simpll/Logger.cpp | Logger | printing of LLVM values |
| simpll/library/SysctlTable.cpp, llvm_ir/kernel_source_tree.py | Sysctl, Text | cscope; names of options as in LLVM 15 and later |
| simpll/SourceCodeUtils.cpp | Text, Calls, MacroUse, SourceLines | differences of functions and types |
| simpll/passes/*.cpp | Passes, VarSlicer, SliceKeep, SliceEnd, SliceStores, Transforms, StructInfo, KernelGlobals, SeparateCalls | attributes, alignments, invokes; passes that only call LLVM transformations |
| simpll/library/*.cpp | VarSlicer, Text, Config | reading of modules |
| view/src | Viewer, ViewPrep, DiffView, Highlight, ViewSession | rendering; react-diff-view (its expansion of hunks is assumed as documented, `ExpandContract`) |

Not modelled at all: LLVM itself (parsing, optimisation, linking), clang, cscope, the
docker and CMake files, and the tests of the project.

### How a property that the code violates is treated

The full statement is kept as `def Cxx_statement : Prop`. A theorem `Cxx_fails : ¬ Cxx_statement` proves that the
code violates it, with a concrete input. A theorem with the suffix `_partial` proves the statement for the inputs
for which it holds, and its hypotheses say which ones these are. The manifest marks such a claim as partial.

## Plan per property

All properties listed so far can be expressed in a model; none is marked as not applicable.


| Id | Modelled | How proved |
|----|----------|------------|
| C01 | `Result.add_inner` as fold | induction on the list; permutation invariance |
| C02 | counts of `report_symbol_stat` | counting lemma; negation witness for none/assumed-equal kinds, partial otherwise |
| C03 | loop of `compare` over groups with dict `inner` | induction; negation for equal names in two groups |
| C04–C07 | BFS of `reachable_from` on an object heap, well-founded recursion | invariant over the loop vs. inductive path relation; negation of completeness with weak edges; ladder family for the blow-up |
| C08 | `graph_to_fun_pair_list` | membership characterisation |
| C09, C10 | `absorb_graph`, `__setitem__` | induction over the absorbed dict; negations by witness |
| C11, C12 | `normalize` with edge and vertex caches | invariant over cache lists; negation witness of failure |
| C13 | `populate_predecessor_lists`, `mark_uncachable_from_assumed_equal` | reverse search = inductive chain relation |
| C14–C16 | cache writer and C++ reader over a file map | round trip on lines; file name mismatch theorem for all absolute paths |
| C17–C20 | `functions_diff` with an arbitrary engine and lookup | measure = unlinked modules; case analysis of verdict |
| C21–C24 | `compare`, `default_output_dir` | induction over lists; pigeonhole for freshness |
| C25–C27 | snapshot map and YAML values | refinement to functions; round trip |
| C28, C29 | option processing | set algebra over arbitrary lists |
| C30, C31 | hunk header rewriting, text extraction | string/number round trip; minimality by induction |
| C32, C33 | wrapper as a function of its environment | decision logic; induction over invocations |
| C34–C37 | kernel builder, source tree | list lemmas; state invariants |
| C38, C60, C50, C51 | string functions of SimpLL | induction on strings |
| C39, C40 | `compareFunctions` decision logic and inlining loop | case analysis; invariant of loop |
| C41, C42 | operand collection over `BitVec n`; for C42 also runs of functions with phis | permutation of operand lists ⇒ equal value; lock-step simulation in which opposite comparisons have opposite values |
| C43, C44 | comparator on a small SSA IR with memory, branches, phi-free blocks and external calls | lock-step simulation |
| C45–C49, C59 | engine analyses on small IRs | closure and reachability inductions, negations by witness |
| C52 | index filter | negation by witness and characterisation of what is computed |
| C53, C54 | viewer indices | list lemmas |
| C55–C58 | output and input conversion | membership characterisations |
| C61 | `mark_uncachable...`, reset in `absorb_graph` | negation by witness; exact condition of a reset |
| C62–C68 | `functions_diff` and the import of results | induction over lists of results; negations by witness |
| C69, C70 | `generate` and the snapshot directory | path lemmas; induction over symbols |
| C71–C74 | printing of differences, semantic tool, reuse of graphs | case analysis over kinds; negations by witness |
| C75–C77 | definitions and end lines in the YAML output | membership characterisation |
| C78, C79 | two routes of patterns to the engine, context diffs | equality of sets; induction over lines |
| C80, C81 | composite macro names; caller and finders | non-termination by invariant; characterisation of results |
| C82, C83 | `compareFunctions` with nested comparisons and inlining | invariants over big-step runs; divergence by invariant |
| C84–C86 | variable slicer | reachability = inductive paths; negations by witness |
| C87–C89 | differential comparator | simulation on runs; invariants over the whole comparison |
| C90 | skipped loads | induction over runs in SSA form; the search covers all paths |
| C91–C94 | viewer: sessions, call stacks, listings, highlighted lines | invariant over click sequences; list lemmas |
| C95–C99 | transformations of modules before the comparison, with a semantics of modules on arbitrary machines | simulations between executions by induction on their length |
| C100, C101 | comparison of global values that mention each other in cycles | equality of infinite contents by induction on the depth; bounded number of assumed pairs |
| C102, C103 | macros and enumerators in debug information, map from constants to new values | characterisation of the maps by induction |
| C104, C105, C106 | operands of calls, text of the source line, sizes of structures | case analysis and induction over the arguments, for all values of variables |
| C107, C108, C110 | definitions of macros, scanner, search with a stack, cache of the lines | invariant of the search (origin of each use, closure), bounded number of unused macros, invariant of the cache over all queries |
| C109 | tree of macro definitions, search with a stack of files | invariant over the stack; names defined once |
| C111, C112 | functions as blocks of instructions, custom patterns, comparison of two blocks with numbers of values | counterexamples run in the model; invariant of the loop (a match marks the instructions it started from) |
| C113, C114, C119 | matching on one side with numbers, inputs and marks | invariants of the state of the matching that failed attempts keep; injective renaming of values for code that occurs |
| C115 | loading of a module of patterns | induction over the functions |
| C116, C117, C118 | comparison of values, value patterns, numbers | case analysis; numbers as positions in one list of pairs without repetition |
| C120 | comparison of two blocks with marks of matched instructions | invariant of the loop: everything before the current places has a partner or is marked, and marks come from matches |
| C121, C122, C123 | members in debug information, address computations, map of member names | induction over the members (offsets grow); invariant of the map; induction over the indices |
| C124, C125 | blocks of address computations and other instructions, numbers of values, replaced instructions, loop of the comparison | simulation of two runs for all worlds; invariant: values with the same number that are used on both sides are equal; induction over the items of a program |
| C130, C131, C132, C133 | constants of modules, tables of sysctl options and the hierarchy of tables; the source tree is arbitrary | induction over tables, over names of options and over the list of options; adding functions as a relation between snapshots |
| C134, C135, C136, C137 | files with times, histories of edits and builds that may fail or be interrupted; commands as lists of words | invariant of histories; induction over commands and words |
| C138, C139, C140 | runs of an arbitrary engine that may crash, by the library, a new process or the program, with modules kept in memory | induction over sessions, invariant of the modules in memory; induction over functions |
| C141 | the search through debug information as a graph with numbered nodes, and the report | invariants of the depth-first search (all entries are found nodes; processed nodes are closed under mentions up to the stack); witnesses where it fails |
| C142 | instructions of a block as a list with operands | induction over the block |
| C143 | a module as names, references and initializers | composition of the replacements, induction over functions |
| C144 | names of types after each step of the pass, arbitrary hash and renaming of taken names | induction over types |
| C145 | the files by path; lines of the module; any order of the set of files | invariant: new files are copies |
| C146, C147 | lines of the module as texts; Python's `replace` and the patterns as functions | induction over the text |
| C148 | environment as a dictionary, read by the wrapper of C32 | lookups; splitting undoes joining |
| C149 | the two files after each step | case analysis over the points of interruption |
| C150, C151 | lines of the files as texts | induction over lines |
| C152 | results of inner results, the set of unique ones | induction over the loop of `add` |
| C153 | buffer of messages, runs as trees of comparisons | induction over the tree, description of the buffer it leaves |
| C154 | values as terms, texts | induction over the value |
| C155 | DiffCmp with phis, runs of functions | lock-step simulation; corresponding phis are in corresponding blocks because both dominate a common use and have the same predecessors |
| C156 | ViewPrep: copying of sources, diffs, results for the viewer, addresses of files | loop invariant over the definitions: what was written stays and is found by its address |
| C157 | ViewPrep | invariant: only files in the data directory change; they are removed |
| C158 | KernelSearch: list of files, database, cache | components of paths for the skipped directories; invariant of the cache over sequences of searches |
| C159 | KernelSearch: `make` is an arbitrary function | case analysis of its answers |
| C160 | ErrorList: lists printed with `--show-errors` | sorting is a permutation; lengths of filters |
| C161, C162 | SnapBuild: a run as the list of states of the output directory, with every beginning of every written file | case analysis of the phases; the description is written last |
| C163 | SnapBuild: steps that change headers, stopped anywhere, runs one after another | invariant over runs: the header is the original one with features disabled some number of times |
| C164 | Program: the module comparator with the comparator of functions inside, for programs of functions that call each other; Spec/Program: machines for each depth of calls | invariant of the comparator (every equal verdict is from a run on the original bodies that met all calls; one-sided declarations are missing definitions), then induction on the depth of calls |
| C165 | ProgInline: the same with inlining, for arbitrary inliners; Spec/ProgInline: changes of a function that keep what it does within the program | a change that keeps what a function does within the program keeps what all functions do (runs use finitely many calls, depth is monotone); invariant of the comparator: equal verdicts are about the present bodies, except for the function being changed |
| C166 | DiffCmp; Spec/Patterns: functions without loops | witness: two sums in another order after a phi; without phis by C41 |
| C167 | DiffCmp; Spec/Patterns: configurations with more patterns | induction over the comparison: patterns that are added act only where the comparison has already failed; witness with a cast |
| C168 | SeparateCalls: the pass with casts of arguments and results; Spec/SeparateCalls: runs of functions with blocks and phis | simulation: values of the original function are those of the replacements; new names are in disjoint ranges |
| C169 | SeparateCalls; Spec/SeparateCalls: valid code | witnesses for void results, superfluous arguments and other sizes; otherwise every new instruction is classified, names are a permutation of old names and a range |
| C170 | SourceLines: the loops of `extractLineFromLocation` over lines that are not empty; Spec/SourceLines: consecutive lines | invariant: the text is a suffix of the lines read so far; witness: the first line |
| C171 | SourceLines | the search reaches the end with an empty text |
| C172 | SourceLines | the loops end with closed brackets or at the end; witness: return with a statement expression |
| C173 | SourceLines with undefined results | the end is reached only with all lines from the place on; witness: file that ends inside a return |
| C174 | SourceLines: conversion and choice of statements; Spec/SourceLines: statements with inline assembly | statements are parsed exactly, the statement with the assembly survives all positions; witness: a single other statement |
| C175 | SourceLines, Calls | induction over operands; witnesses: a statement with an output, also through the comparison of calls |
| C176 | SourceLines with undefined results | candidates agree up to the position; witness: the same assembly twice |
| C177 | SourceLines: conversion of templates | after pass i exactly operands up to i are converted; witness: operand 10 |
| C178 | Transforms: `generateAbstractions` | induction over instructions, blocks and functions with the table of generated functions |
| C179 | MacroFun on MacroUse, with any history of queries | the recorded uses are those of the line and the line before (invariant of C108); witness: a macro on the line before |
| C180 | FunPairs, FunctionsDiff | the entries and the bodies are both those of the last difference with a name (induction over the list of objects) |
| C181 | FunctionsDiff, two runs with the same engine | the reported functions are characterised for both values of the option; witness: an equal function with a recorded macro difference |
| C182 | SemTool on FunctionsDiff: the tool as any function, and `functions_semdiff` with modules that may be missing | listed objects are characterised by their kinds (C08); witness: one different function |
| C183 | DiffView: hunks as ranges of old lines, the package react-diff-view by its documented contract | induction over hunks in order and over clicks |
| C184 | AsmDiff on Identifier and Globals: any sequence of searches with the counter | induction over the sequence with the invariant that later numbers are greater; witnesses: constraints only, no debug information |
| C185, C186 | ViewSession on Viewer: transitions for clicks, answers and failures; components with keys and state; requests with the number of their effect | invariant over reachable sessions; witness for C186: names `a`+`bc` and `ab`+`c` |
| C187 | comparison of two comparison instructions with the patterns for casts and inverse conditions | numbers of any width are compared through their signed value; witness with a negative number |
| C188 | SrcTypes on Calls: the map of local variables and the lookup of names | induction over expressions and blocks; witnesses with hidden variables and a named pointer type |
| C189 | EngineCall: the arguments of the program, their recognition, and the call of the library | recognition of the arguments one after the other, lookup in lists of optional entries; witnesses with file names |
| C190 | OptCommand: the command for the optimiser, how it reads the arguments and runs the passes in old and new versions | reading of the printed passes gives them back, induction over the passes with the waiting ones generalised |
| C191 | StructSizes: the map from sizes to names of structures and the comparison of constants with it | induction over the structures: the set of a size has exactly the names with this size; witnesses with a large constant and with two structures |
| C192 | CallAttrs: attributes of copied calls and functions | induction over the removed kinds; witnesses with two arguments and with a marked result |
| C193 | ConstVal: comparison of constants and constant expressions, with the pattern for casts | inversion of the comparison, induction over the sum of both sizes; witnesses with elements, operations and a cast |
| C194 | FunListing: functions that are listed for a single C file | the last mention in a line, induction over the lines; witness with a section name |
| C195 | Highlight: rows of a diff and the marked ones, the package react-diff-view as documented | rows are determined by their keys; witnesses with two unchanged rows and with a missing line |
| C196 | LibMemory: objects of the library for Python, references to them and allocated memory | invariant over all uses; witness with the data of a sysctl |
| C197 | KernelSearch: choice of the command in the output of make | search from the end, splitting of lines; witness with two commands on a line |
| C198 | SliceKeep: the loop over branches in the second phase of slicing, `includedSuccessors` | invariant of the loop: needed blocks stay reached; last visit of the branch on a path; rank of blocks for the return; witness with a loop before the return |
| C199 | SliceKeep: recursion over operands, stores and phis | closure of the included instructions; the number of instructions that are not included decreases; witness with a switch |
| C200 | SliceEnd: change of the return type, removal of blocks that are not reached | the search visits exactly the reached blocks and ends; witness in which the clone keeps a block |
| C201 | SliceStores: search for stores with a worklist, recursion for derived pointers | the worklist looks exactly at the reached instructions; it ends by a lexicographic measure; witnesses with a loop and a switch |
| C202 | SliceEnd: removal of the entry | paths from the entry; witness with nested switches |
| C203 | SliceEnd: test for the removal of other blocks | equivalence with the validity of the phis after the removal |
| C204 | SliceStores: the worklist of the search for stores | induction over the levels of a function with `k` branches; invariant of the worklist |
| C126, C127, C128, C129 | named types of any depth, data layouts, constants as pairs of width and value | mutual induction over types and lists of types |

## Findings

Violations of the listed properties that the proofs uncovered, with the theorem that proves each.

### Front end

* Verdict `none` with full diff is counted in no class (`C02_fails`, `C20_fails`).
* The extended statistics count a function and a type with the same name once (`C152_fails`).
* Two functions with the same name in different groups overwrite each other (`C03_fails`).
* A function first met through a weak call is not reported through a later strong one (`C05_fails`, `C67_fails`).
* The list of reported functions may have exponentially many duplicates (`C07_exponential_blowup`, `C66_fails`).
* Merging replaces definite verdicts (`C09_verdicts_fails`) and leaves stale names of equal functions (`C10_fails`).
* Normalisation raises KeyError for a called variant without a result (`C11_fails`).
* Resolving one assumed-equal function makes everything that it blocked cachable (`C61_fails`).
* Differences and results with the same key overwrite each other (`C62_fails`, `C63_fails`).
* The cache never has an effect for absolute paths (`C15_absolute_paths_never_cached`); all pairs of a file with
  itself share one cache file (`C16_fails`).
* After a failure of the engine modules stay linked (`C18_fails`) and the known graph is lost (`C65_fails`).
* A path that contains `-linked` is overwritten (`C64_fails`).
* A path that only begins with the text of the source directory is written outside the snapshot (`C69_fails`).
* A sysctl snapshot without groups cannot be loaded (`C26_ungrouped_sysctl_not_loadable`).
* A regex filter turns errors into equal (`C22_fails`) and aborts on unknown results (`C72_fails`).
* The graph is lost after a trailing unknown function (`C23_fails`).
* Timeouts are never printed (`C71_fails`).
* The semantic tool is only asked about differences that are not functions (`C73_fails`).
* Types after macros are paired wrongly (`C56_fails`); functions in new call stacks only have no definition
  (`C75_fails`); all occurrences of the directory are removed from paths (`C76_fails`).
* Start lines outside the file raise IndexError or use the last line (`C77_fails`, `C77_fails_zero`, `C31_fails`).
* The pattern option for unused returns has no effect (`C28_fails`); with the policy WARN rejected patterns are kept
  (`C29_fails`).
* Source lines that consist of numbers are changed in context diffs (`C79_fails`).
* The output directory of a new snapshot is deleted before the list of symbols is read: with an empty list the old snapshot
  is lost, and the headers of a kernel stay changed; while it is deleted, it can be loaded although files are missing
  (`C161_fails`, `C162_fails`, `C163_fails`).
* The result of functions that were inlined on both sides is erased although other equal functions call them: two programs
  that do different things can be without reported differences (`C82_fails`, `C165_fails`).
* A failed comparison of reordered operations leaves the number of a phi that it met, and the next pair gets
  the same number: the result of a call and a phi are taken as equal (`C166_fails`).
* An added cast makes functions different only if reordered operations are allowed (`C167_fails`).
* Direct calls instead of calls through casts: the result of a call whose result is ignored is cast to void, superfluous
  arguments are passed, values of another size are bitcast (`C169_fails`, `C169_fails_arguments`, `C169_fails_size`).
* Source text: none for the first line of a file, unfinished return statements, reads behind the end of the file
  (`C170_fails`, `C172_fails`, `C173_fails`).
* Operands of inline assembly in the source: outputs are counted as operands, so that assembly with different operands
  is found equal; the only statement is taken whatever it is; the same assembly twice leads to undefined behaviour;
  operand 10 is taken for operand 1 (`C174_fails`, `C175_fails_equal`, `C176_fails`, `C177_fails`).
- The viewer keeps the selected function of another difference if the names of compared and differing function give the
  same text when written one after the other (`C186_fails`).
- With the pattern for type casts, a signed comparison is found equal to an unsigned one, also where they differ
  (`C187_fails`).
- C188: types for `sizeof(..)` are looked up by name. The last variable of this name in the function counts, global
  variables come before local ones, and a type name for a pointer is taken for the pointer (`C188_fails`,
  `C188_fails_named`, `C188_fails_global`).
- C189: for modules in files without extension, the program writes the modules to other files than those that are read,
  or crashes (`C189_fails`, `C189_fails_crash`).
- C191: a constant is cut to 32 bits before it is searched among the sizes of structures (`C191_fails`); sizes of different
  structures are found equal if both have the same size and change it in the same way (`C191_fails_written`).
- C192: a call that loses its result loses the attributes of all arguments but the first one (`C192_fails`), and keeps
  attributes such as `noundef` at the missing result (`C192_fails_result`). For functions the type of the pointer is tested
  instead of the type of the result, so nothing is removed there (`C192_fails_function`).
- C193: constant expressions are compared by their operands only, so addresses of elements of different sizes, and sum and
  difference, are found equal (`C193_fails`, `C193_fails_operation`); with the pattern for casts, an address and its last
  8 bits are found equal (`C193_fails_cast`).
- C194: the last text such as `@g(` in a line that begins a definition counts, so a function whose section has such a name is
  not listed (`C194_fails`).
- C195: for calls on unchanged lines that do not correspond, both lines are marked in both versions (`C195_fails`); if one
  line is not shown, the other one is not marked (`C195_fails_missing`).
- C196: `get_data` and `get_child` never free the array of indices that the library allocates for them (`C196_fails`).
- C197: of two gcc commands on one line of the output of make, the first one is taken (`C197_fails`).
- C198: after a loop that does not depend on the variable, the branch out of the loop is replaced by one into the loop, and the return, even of the variable, is removed as not reached (`C198_fails`). In functions with 32 blocks or more, needed blocks of one way of a branch are lost, because LLVM assumes after 32 blocks that every block is reached (`C198_fails_long`).
- C199: a switch that does not depend on the variable stays, but its value is removed and becomes undefined (`C199_fails`).
- C200: the clone that returns void is made before blocks are removed, so that the function that is compared keeps blocks that are not reached (`C200_fails`).
- C201: a store that the use sees in the next round of a loop (`C201_fails`) and stores behind a switch (`C201_fails_switch`) are removed.
- C202: an entry that ends with a switch is removed although needed blocks are reached through several of its successors (`C202_fails`).
- C204: an instruction is put into the worklist of the search for stores once for every way that leads to it, since it counts as visited only when it is taken out: `k` branches one after another whose ways have the same length cost `2 ^ k` steps (`C204_exponential`).
- Inline assembly that differs in its constraints only is found different but never shown; the process ends if the function
  has no debug information; names of assembly differences repeat in each run (`C184_fails`, `C184_fails_noinfo`,
  `C184_names_repeat`).
- A function is reported to be a macro in the other program although only the line before uses this macro
  (`C179_fails`).
- C181: the engine looks for the source of a difference (macros, types, assembly) before it tries custom patterns and
  relocations. If these show the functions equal, the objects found stay in the result; the comment in the code says that
  they "will be just ignored". They are written to the output (Output.cpp 118) and read back whatever the verdict is. With
  full diffs they are listed with verdict not-equal, so that equal functions are reported as different (`C181_fails`).
- C182: function_diff.py 272 asks the semantic diff tool about objects that are *not* functions. Functions found different
  are never passed to it, and for a macro or a type `get_functions_called_by` gives `None`, over which the caller iterates
  (`TypeError`); without `--output-llvm-ir` the files do not exist (`C182_fails`, `C182_exception_partial`).
* Functions whose comparison has run out of time are counted as errors but not listed as such (`C160_fails`).

### Building

* The wrapper replaces exit codes by 1, its script always exits with 0, and a joined `-oX` is overwritten
  (`C32_fails`, `C32_fails_script`, `C32_fails_output`).
* Default outputs are not recorded, paths with colons are not read back (`C33_fails`, `C33_fails_colon`).
* Quoted arguments with spaces are split (`C35_fails`); headers that contain generated texts are changed
  (`C36_fails`); the finder of a single file does not check definitions (`C37_fails`); two finders return a text over
  which the caller iterates (`C81_fails`).
* A kernel source is not built again when a header changes, when `opt` failed before, or when it changes within one tick
  of the clock (`C134_fails`, `C134_fails_opt`, `C134_fails_tick`). A module is not linked again after an interruption
  between compiling and linking (`C135_fails`), and `opt` is run again on its own output at each build.
* If the linker does not write an object, `llvm-link` overwrites its first input (`C136_fails`). The sources of a module
  `amd` do not include `amd.model.c` (`C137_fails`).

* Files of an older version stay in the snapshot directory, a described file that does not exist ends the build, and
  files beside the source directory are copied to a place beside the snapshot (`C145_fails`, `C145_fails_missing`,
  `C145_fails_outside`, `C145_fails_spelling`). If the source directory is `/src`, every text `src` in the code of a
  module is replaced (`C146_fails`); paths in lines with the word `constant` stay (`C146_fails_constant`).
* A dot in the name of a function stands for any character, and a declaration of a variable counts as its definition
  (`C147_fails`, `C147_fails_external`).
* Appended options with commas are split, an empty argument is passed to clang if there are none, and variables of the
  environment have precedence over the command line (`C148_fails`, `C148_fails_none`, `C148_fails_environment`).
* A `config.log.bak` of the user is lost or takes the place of `config.log` (`C149_fails`, `C149_fails_renamed`).
* Functions such as `.omp_outlined.` are written into the list of functions but not read back (`C151_fails`).
* A kernel below /tmp, or below any directory whose name begins with `tmp`, has no symbols at all, the same holds of
  such directories in the kernel; the database of a previous state of the sources is used forever (`C158_fails`,
  `C158_fails_tmpfs`, `C158_fails_stale`).
* Modules whose file name has both dashes and underscores are not found (`C159_fails`).

### Sysctl options

* An option whose parent does not exist, whose data is used nowhere, or with too few components (`net`) ends the
  generation of the whole snapshot with an exception (`C131_fails`, `C131_fails_unused`).
* Data given by the address of a member that is cast to another type, as with typed pointers, is not found
  (`C132_fails`; for the snapshot `C130_fails`).
* A child table that is an element of an array of tables is replaced by the whole array (`C133_fails`). A child table
  whose variable has a dot in its name is taken for an element of another variable.

### Engine

* A crash of the engine ends the whole tool when the library is used, which is the default; a result of one million
  characters or more is written behind the end of a buffer (`C138_fails`, `C138_fails_long`). With the option for the
  cache of modules, the tool ends with a `TypeError` as soon as a module is loaded in advance, because the python object
  with the settings is passed instead of the structure (`C138_fails_cached`, `C139_fails`).
* Operators of constant expressions are not compared (`C43_fails`).
* Results of inlined pairs are erased although others rely on them (`C82_fails`); recursion with inlining aborts or
  does not end (`C83_fails_abort`, `C83_fails_diverge`).
* Side effects of atomic read-modify-write instructions and invokes are overlooked (`C49_fails`, `C46_fails_atomic`).
* A cast after an allocation is kept without its operands (`C47_fails`).
* The block of a branch itself does not count as affected, and large functions exceed the limit of LLVM's
  reachability test (`C59_fails`, `C59_fails_limit`). Values carried by loops are not found by the slicer
  (`C85_fails`).
* The bound of indices is tested the wrong way round (`C52_fails`).
* `f()` has one empty argument (`C50_fails`); composite macro names may loop forever (`C80_fails`).
* Reordered operations: loops with different steps are equal (`C41_fails`). Inverse conditions: negation of a
  negation (`C42_fails`), successors stay swapped (`C89_fails`). Blocks that do not correspond are accepted
  (`C87_fails`). Sign and zero extension are equal (`C88_fails`). Calls in the opposite order are equal, a store is
  overlooked (`C45_fails`, `C45_fails_store`).
* Nested address computations are said not to alias (`C46_fails`); a load in a loop is replaced although a later
  store of its block changes the memory (`C90_fails`).
* The result of `__memcpy` is replaced by the source (`C95_fails`). Static functions with the same name are merged
  although their bodies differ, and a declaration may replace a definition (`C96_fails`, `C96_definition_lost`).
  Indirect calls with a variable number of arguments get a function with a fixed number of parameters, and different
  types may share a function (`C98_fails`, `C98_collision`). The arguments of `sprintf` are hidden although it writes
  to memory (`C99_fails`). A call that passes the called function to itself is erased twice (`C97_fails`).
* Global values whose names differ in a number at the end, all functions that print, and a constant and a variable of
  the same name are found equal (`C100_fails`, `C100_fails_print`, `C100_fails_const`).
* The literal 5 may become 7 anywhere if some macro changed from 5 to 7, and it may become any constant that is no
  number if a macro with the value 5 became empty (`C102_fails`, `C102_fails_empty`). Macros that are defined in files,
  which are all macros except those of the command line, are not seen; of two macros with the same value only one may
  change; negative enumerators are not recognised (`C103_fails`, `C103_fails_two`, `C103_fails_negative`).
* Once an argument of a call is accepted because of the source (`__LINE__`, `sizeof`), the callee and the other arguments
  are not compared (`C104_fails`, `C104_fails_callee`); sizes of types without a name are found equal
  (`C104_fails_array`).
* Flags of allocations are not compared (`C105_fails`).
* If the second call has an additional argument, values of the second function are looked up as values of the first one,
  and values that are not known on either side are found equal (`C106_fails`).
* A macro whose name is one letter is overlooked at the end of a line or body, and letters after a number are taken as a
  macro (`C107_fails`, `C107_fails_number`, `C108_fails`).
* `#undef` is recorded as a definition with an empty body, the first definition of a macro is used instead of the last
  one, and macros of the command line are not known (`C109_fails`, `C109_fails_first`, `C109_fails_command_line`).
* Macros of the line before stay recorded for a line, so that later queries for the line may report more
  (`C110_fails`).
* Custom patterns: outputs of a matched pattern get no numbers, since the mapping is stored with the values of the
  second program as keys and read with the opposite meaning; swapped outputs are overlooked (`C111_fails`). A match need
  not contain the instruction it started from, and is then found again and again (`C112_fails`). A failed comparison
  leaves numbers behind, so that occurrences are missed (`C114_fails`), or so that another value is taken for the
  result of a matched instruction (`C113_fails`). An argument of a pattern that gets its values only while the users of
  other arguments are compared may stand for different values in the two programs (`C119_fails`). Arguments of patterns never stand for constants
  or globals, and two arguments never for the same value.
* A new side that is only declared, and a pair of functions that only return, crash the loading (`C115_fails`). A
  function whose first block is a single jump is taken for a value pattern. Unknown metadata discards the known metadata
  of the instruction.
* Value patterns: loads of variables of two different patterns are found equal (`C116_fails`); two globals that differ
  crash the comparison, because the comparator has no table of global numbers (`C117_fails`).
* After a failed comparison with a match, only the number of the result is taken back. The number of an operand is given
  to another value, and different values are found equal (`C118_fails`).
* The index of a member counts the padding of explicit alignments, the name at an index does not (`C121_fails`). Names
  of members are recorded for whatever structure the instruction at the same position accesses (`C122_fails`), and names
  of members of members are looked up with the wrong type (`C122_inner_names_missed`).
* Different members at the same index are found equal although their names are known, and the number of an array element
  is taken for a member (`C123_fails`, `C123_fails_element`).
* Sequences of field accesses: the first pointers of both sequences keep the same number although they differ
  (`C124_fails`); offsets are truncated to 32 bits (`C124_fails_wide`); an access in one step on one side and two on the
  other shifts all later numbers, so that equal code is found different (`C125_fails`, `C125_fails_prefix`), and after
  another shift in the other direction different values are found equal (`C124_fails_shifted`).
* A union equals any smaller type, in one order of the versions only (`C126_fails`, `C127_fails`, `C128_fails_union`).
  When casts are ignored, arrays of different lengths are equal, integers are equal to pointers over two steps only,
  and constants are compared without their sign (`C127_fails_arrays`, `C128_fails`, `C129_fails`, `C129_fails_wide`).
* A difference of structures is not reported if the structure is used only in functions or if its type has a suffix in the
  old version, and a forward declaration may be reported as the definition (`C141_fails`, `C141_fails_suffix`,
  `C141_fails_declaration`). Only the first use of a pointer is followed to find the types of an access (`C142_fails`,
  `C142_fails_number`).
* Variables whose names begin with `__ksym` are replaced by null in code, functions with code whose names contain
  `__compiletime_assert` are taken for one, and a declared kernel symbol ends the tool (`C143_fails`, `C143_fails_merged`,
  `C143_fails_declared`).
* Structures whose names begin with `anon`, as `anon_vma` of the kernel, are renamed as anonymous ones, and the name of an
  anonymous structure depends on the numbers of the anonymous structures in it (`C144_fails`, `C144_fails_nested`).
* A global variable whose initializer refers to the variable stops the log of comparisons for the rest of the run
  (`C153_fails`, `C153_fails_forever`).
* Showing an argument of inline assembly crashes for `p + 1` with a short name and for an element of an array of
  structures; names of arrays are lost, and members of inner structures get names of the outer one (`C154_fails`,
  `C154_fails_element`, `C154_fails_name`, `C154_fails_member`, `C154_fails_deref`).
* Phis that are used only by phis are found while the list of phis to compare is traversed, and are never compared
  (`C155_fails`). In the code this also changes a vector while it is traversed.

### Viewer

* Calls at the end of a longer new call stack are not displayed, a shorter one crashes (`C92_fails`,
  `C92_fails_crash`).
* Sources outside of the snapshot are not shown and may be written over other files, which are lost; sources with `#` in
  their names are not shown (`C156_fails`, `C156_fails_hash`, `C157_fails`).
* For a function of one call stack only, the line of another function is highlighted (`C94_fails`).

### Seen while reading, not stated as theorems

* The option for the build file is passed to `make` as `-c`, which `make` does not know.
* `clean_module` called twice raises AttributeError; `get_functions_from_llvm` uses `os.stderr`.
* A cached module is preprocessed with a Python object instead of a pointer; the FFI buffer has a fixed size of
  1,000,000 bytes.
* `get_sysctl_module` raises IndexError for "net"; `relpath("")` raises.
* Source types of address computations in constant expressions, `inbounds` and `cleanup` are not compared.
* `RemoveUnusedReturnValuesPass` erases calls that LLVM's simplification may have removed already.
* `SimplifyKernelFunctionCallsPass` replaces two arguments of inline assembly with `__bug_table` without checking
  their number, and fails for `printk` with a first argument that is no pointer.

## Seeded bugs

`seeded/mutate.py` applies one edit to the model in a scratch copy and rebuilds; `seeded/LOG.jsonl` records each edit,
the claim that it breaks and the theorems that failed. The batches are in `seeded/batch*.py`.
