import Verif.Model.Compare
import Verif.Model.SyntaxDiff
import Verif.Model.Snapshot
import Verif.Model.Text

/-! Model of the building of LLVM files: the compiler wrapper (building/cc_wrapper.py), the reading of its database
(wrapper_build_finder.py), the kernel builder (kernel_llvm_source_builder.py) and the lookup of modules (source_tree.py). -/

set_option autoImplicit false

namespace DK

/-! ### The compiler wrapper -/

/-- Contents of the existing files (absolute paths), represented by numbers. -/
abbrev Files := Str → Option Nat

/-- Programs: the name, the arguments and the working directory determine, from the files, those existing
afterwards and the exit status. -/
abbrev Programs := Str → List Str → Str → Files → Files × Nat

/-- Variables of the environment, cc_wrapper.py 93-98. -/
structure WrapperEnv where
  db : Option Str
  clang : Option Str
  append : Option Str
  drop : Option Str
  llvmLink : Option Str

/-- Effects of a run of the wrapper: programs that were run with their exit statuses,
files, lines added to the database, and the return value of `wrapper`. -/
structure WrapperRun where
  calls : List (Str × List Str × Nat)
  files : Files
  added : List Str
  code : Except PyErr Nat

/-- `arg.rsplit(".", 1)[0]` -/
def rsplitDot (s : Str) : Str :=
  match splitLastDot s with
  | none => s
  | some (pre, _) => pre

/-- `is_object_file`, cc_wrapper.py 125-126. -/
def isObject (s : Str) : Bool := endsWith s (str! ".o") || endsWith s (str! ".lo") || endsWith s (str! ".ko")

/-- State of phase 1: `clang_argv`, `output_file`, `clang` and `linking_with_sources`. -/
structure Phase1 where
  argv : List Str
  out : Option Str
  clang : Str
  sources : Bool

/-- One argument in phase 1, cc_wrapper.py 123-143. `prev` is the previous argument if the index is at least 2. -/
def phase1Step (drop : List Str) (link : Str) (linking : Bool) (st : Phase1) (prev : Option Str) (arg : Str) : Phase1 :=
  if arg ∈ drop then st
  else if prev = some (str! "-o") then
    let a := if isObject arg = true ∧ linking = false then rsplitDot arg ++ str! ".ll" else arg
    let a := if isObject arg = false ∧ linking = true then a ++ str! ".llw" else a
    { st with argv := st.argv ++ [a], out := some a }
  else if isObject arg = true ∧ linking = true then
    { st with argv := st.argv ++ [rsplitDot arg ++ str! ".ll"], clang := link }
  else if endsWith arg (str! ".c") = true ∧ linking = true then
    { st with argv := st.argv ++ [arg], sources := true }
  else { st with argv := st.argv ++ [arg] }

/-- The loop over the arguments, each with the previous one. -/
def phase1Loop (drop : List Str) (link : Str) (linking : Bool) : Phase1 → Option Str → List Str → Phase1
  | st, _, [] => st
  | st, prev, a :: as => phase1Loop drop link linking (phase1Step drop link linking st prev a) (some a) as

/-- Phase 1, cc_wrapper.py 117-149: arguments 0 and 1 have no previous one, object files are dropped in the hybrid mode. -/
def phase1 (drop : List Str) (clang link : Str) (argv : List Str) : Phase1 :=
  let linking := decide ((str! "-c") ∉ argv)
  let st : Phase1 := ⟨[], none, clang, false⟩
  let st :=
    match argv with
    | [] => st
    | g :: args => phase1Loop drop link linking (phase1Step drop link linking st none g) none args
  if st.sources = true ∧ st.clang = link then
    { st with clang := clang, argv := st.argv.filter (fun a => !endsWith a (str! ".ll")) }
  else st

/-- Entries for the database, cc_wrapper.py 161-169. -/
def dbEntries (st : Phase1) (link : Str) (linking : Bool) (cwd : Str) : List Str :=
  match st.out with
  | some o => [(if st.clang ≠ link then str! "o:" else str! "f:") ++ pathJoin cwd o]
  | none =>
    if linking then []
    else (st.argv.filter (fun a => !endsWith a (str! ".c"))).map
      (fun a => (str! "o:") ++ pathJoin cwd (rsplitDot a ++ str! ".ll"))

/-- Removal of files that do not exist, cc_wrapper.py 184-193. -/
def keepExisting (files : Files) (cwd : Str) : Bool → List Str → List Str
  | _, [] => []
  | flag, a :: as =>
    let rest := keepExisting files cwd (decide (a = str! "-o")) as
    if flag = true ∨ (files (pathJoin cwd a)).isSome = true ∨ a = str! "-o" then a :: rest else rest

/-- Phase 2, cc_wrapper.py 171-193; `none`: the list of arguments is empty (`IndexError`). -/
def phase2 (st : Phase1) (link : Str) (append : List Str) (files : Files) (cwd : Str) : Option (List Str) :=
  match st.argv with
  | [] => none
  | _ :: args =>
    if st.clang ≠ link then some (st.clang :: args ++ append ++ [str! "-S", str! "-emit-llvm", str! "-g"])
    else
      let kept := args.filter (fun a => decide (a = st.clang) || endsWith a (str! ".ll") || endsWith a (str! ".llw") ||
        decide (a = str! "-o"))
      some (st.clang :: (str! "-S") :: keepExisting files cwd false kept)

/-- The output is neither of a compilation nor of linking, or is a test of `configure`, cc_wrapper.py 151-159. -/
def wrapperSkips (st : Phase1) (argv : List Str) : Bool :=
  (match st.out with
    | some o => (!endsWith o (str! ".ll") && !endsWith o (str! ".llw")) ||
        decide (o ∈ [str! "conftest.ll", str! "conftest.llw"])
    | none => false) || decide ((str! "conftest.c") ∈ argv)

/-- `wrapper`, cc_wrapper.py 91-214. `args` are the arguments after the name of the program. -/
def wrapper (env : WrapperEnv) (run : Programs) (cwd : Str) (args : List Str) (files : Files) : WrapperRun :=
  match env.db, env.clang, env.append, env.drop, env.llvmLink with
  | some _, some clang, some append, some drop, some link =>
    let argv := (str! "gcc") :: args
    let r := run (str! "gcc") argv cwd files
    let calls := [(str! "gcc", argv, r.2)]
    if r.2 ≠ 0 then ⟨calls, r.1, [], .ok 1⟩
    else
      let st := phase1 (splitChar ',' drop) clang link argv
      if wrapperSkips st argv then ⟨calls, r.1, [], .ok 0⟩
      else
        match phase2 st link (splitChar ',' append) r.1 cwd with
        | none => ⟨calls, r.1, [], .error .indexError⟩
        | some cargv =>
          let r' := run st.clang cargv cwd r.1
          let calls := calls ++ [(st.clang, cargv, r'.2)]
          if r'.2 ≠ 0 then ⟨calls, r'.1, [], .ok 0⟩
          else
            ⟨calls, r'.1,
              (dbEntries st link (decide ((str! "-c") ∉ argv)) cwd).filter
                (fun e => (r'.1 (pathJoin cwd (((splitChar ':' e)[1]?).getD []))).isSome), .ok 0⟩
  | _, _, _, _, _ => ⟨[], files, [], .ok 1⟩

/-- The exit status of the wrapper run as a Python script, cc_wrapper.py 221-223: the return value is not used. -/
def scriptStatus (r : WrapperRun) : Nat :=
  match r.code with
  | .ok _ => 0
  | .error _ => 1

/-- A build: the wrapper is run in the given directories. The lines of the database are those added by the runs. -/
def buildRuns (env : WrapperEnv) (run : Programs) : List (Str × List Str) → Files → List (Str × List Str × WrapperRun)
  | [], _ => []
  | (cwd, args) :: cs, files =>
    let r := wrapper env run cwd args files
    (cwd, args, r) :: buildRuns env run cs r.files

/-- The LLVM files read from the lines of the database, wrapper_build_finder.py 33-36; the end of the line is removed by
`rstrip`. Entries with line ends in them are not modelled. -/
def readDb (lines : List Str) : List Str :=
  (lines.filter (fun l => startsWith l (str! "o:"))).map (fun l => rstrip (((splitChar ':' l)[1]?).getD []))

/-! ### Candidate sources -/

/-- `s.split()` -/
def pySplit : Str → List Str
  | [] => []
  | c :: cs =>
    if pySpace c then pySplit cs
    else
      match cs with
      | [] => [[c]]
      | d :: _ =>
        if pySpace d then [c] :: pySplit cs
        else
          match pySplit cs with
          | [] => [[c]]
          | w :: ws => (c :: w) :: ws

/-- `prio_key`, kernel_llvm_source_builder.py 298-307. -/
def prioKey (item : Str) : Str :=
  if startsWith item (str! "drivers/") then (str! "}") ++ item
  else if startsWith item (str! "arch/x86") then (str! "}}") ++ item
  else if startsWith item (str! "arch/") then (str! "}}}") ++ item
  else item

/-- `[f for f in l if not (f in seen or seen.add(f))]`: new files and the updated set. -/
def dedup : List Str → List Str → List Str × List Str
  | seen, [] => ([], seen)
  | seen, f :: fs =>
    if f ∈ seen then dedup seen fs
    else
      let r := dedup (f :: seen) fs
      (f :: r.1, r.2)

/-- `sorted(l, key=prio_key)` -/
def sortPrio (l : List Str) : List Str := l.insertionSort (fun x y => strLe (prioKey x) (prioKey y) = true)

/-- The list of files, kernel_llvm_source_builder.py 296-323, for the names of files in definitions and the names and scopes
in uses. -/
def candidates (defs : List Str) (uses : List (Str × Str)) : List Str :=
  let a := dedup [] defs
  let b := dedup a.2 ((uses.filter (fun u => decide (u.2 = str! "<global>"))).map Prod.fst)
  let c := dedup b.2 ((uses.filter (fun u => decide (u.2 ≠ str! "<global>"))).map Prod.fst)
  sortPrio a.1 ++ sortPrio b.1 ++ sortPrio c.1

/-- The name of the file of a line of `cscope`: `line.split()[0]`. -/
def lineFile (l : Str) : Except PyErr Str :=
  match pySplit l with
  | [] => .error .indexError
  | f :: _ => .ok f

/-- The name of the file and the scope: `(line.split()[0], line.split()[1])`. -/
def lineUse (l : Str) : Except PyErr (Str × Str) :=
  match pySplit l with
  | f :: s :: _ => .ok (f, s)
  | _ => .error .indexError

/-- Files used for symbols that are created by the preprocessor, kernel_llvm_source_builder.py 260-274. `tracepoints` are
the lines with uses of `EXPORT_TRACEPOINT_SYMBOL` (231-240). -/
def specialDefs (symbol : Str) (tracepoints : List Str) : List Str :=
  if [str! "param_get_", str! "param_set_", str! "param_ops_"].any (fun s => startsWith symbol s) then [str! "kernel/params.c"]
  else if startsWith symbol (str! "__tracepoint_") then
    tracepoints.filter (fun c => endsWith c ((str! "(") ++ symbol.drop (str! "__tracepoint_").length ++ str! ");"))
  else if symbol = str! "rcu_barrier" then [str! "kernel/rcutree.c"]
  else []

/-- `_find_srcs_with_symbol_def`, kernel_llvm_source_builder.py 242-323, for the lines found by `cscope`. The error `simpll`
stands for `SourceNotFoundException`. -/
def findSrcs (symbol : Str) (defs uses tracepoints : List Str) : Except PyErr (List Str) :=
  let defs' := specialDefs symbol tracepoints ++ defs
  let go (ds us : List Str) : Except PyErr (List Str) :=
    match mapExcept lineFile ds with
    | .error e => .error e
    | .ok fs =>
      match mapExcept lineUse us with
      | .error e => .error e
      | .ok ps => .ok (candidates fs ps)
  if defs' = [] ∧ uses = [] then
    if symbol = str! "vfree" then go [str! "mm/vmalloc.c"] [] else .error .simpll
  else go defs' uses

/-- The result of building one source: `none` is a `BuildException`. -/
structure BuiltSource where
  llvm : Str
  isFile : Bool
  defines : Bool

/-- The loop of `find_llvm_with_symbol_def`, kernel_llvm_source_builder.py 66-80, for the results of building the candidates. -/
def firstDefining : List (Option BuiltSource) → Option Str
  | [] => none
  | none :: rs => firstDefining rs
  | some b :: rs => if b.isFile = true ∧ b.defines = true then some b.llvm else firstDefining rs

/-! ### Translation of compiler commands -/

/-- `_strip_bash_quotes`, kernel_llvm_source_builder.py 328-336. -/
def stripQuotes (s : Str) : Str := if '\'' ∈ s then s.filter (· ≠ '\'') else s.filter (· ≠ '"')

/-- The parameter is skipped, kernel_llvm_source_builder.py 351-360. -/
def gccSkips (p : Str) : Bool :=
  decide (p = str! "gcc") || (startsWith p (str! "-W") && !hasText (str! "-MD") p) || startsWith p (str! "-f") ||
    startsWith p (str! "-m") || startsWith p (str! "-O") || decide (p = str! "-DCC_HAVE_ASM_GOTO") || decide (p = str! "-g") ||
    decide (p = str! "-o") || endsWith p (str! ".o")

/-- Replacement of debug hashes, kernel_llvm_source_builder.py 365-368. -/
def debugHash (p : Str) : Str :=
  let p := if startsWith p (str! "-D\"DEBUG_HASH=") then str! "-D\"DEBUG_HASH=1\"" else p
  if startsWith p (str! "-D\"DEBUG_HASH2=") then str! "-D\"DEBUG_HASH2=1\"" else p

/-- The initial command, kernel_llvm_source_builder.py 347-349. -/
def clangCommand : List Str :=
  [str! "clang", str! "-S", str! "-emit-llvm", str! "-O1", str! "-Xclang", str! "-disable-llvm-passes", str! "-g",
    str! "-fdebug-macro", str! "-Wno-format-security"]

/-- The loop over parameters: command and output file. -/
def gccLoop : List Str → List Str × Option Str → List Str × Option Str
  | [], st => st
  | p :: ps, (command, out) =>
    if gccSkips p then gccLoop ps (command, out)
    else
      let p := debugHash p
      let out := if endsWith p (str! ".c") then some (p.take (p.length - 2) ++ str! ".ll") else out
      gccLoop ps (command ++ [stripQuotes p], out)

/-- `_gcc_to_llvm`, kernel_llvm_source_builder.py 338-379; the error stands for `BuildException`. -/
def gccToLlvm (cmd : Str) : Except PyErr (List Str) :=
  match gccLoop (pySplit cmd) (clangCommand, none) with
  | (_, none) => .error .simpll
  | (command, some out) => .ok (command ++ [str! "-o", out])

/-! ### Lookup of modules -/

/-- What a source finder returns for uses: the callers iterate over it (source_tree.py 92). -/
inductive FoundUses where
  | none
  | text (s : Str)
  | files (l : List Str)

/-- The finders. `single` always gives its file (single_llvm_finder.py 31-35), `built` looks into the table of functions
(wrapper_build_finder.py 49-53), `kernel` gives the results of building the candidates for the symbol. -/
inductive Finder where
  | single (dir file : Str)
  | built (functions : Dict Str Str)
  | kernel (build : Str → List (Option BuiltSource)) (uses : Str → List Str)

/-- `find_llvm_with_symbol_def` -/
def Finder.def : Finder → Str → Option Str
  | .single dir file, _ => some (pathJoin dir file)
  | .built fs, s => fs.get? s
  | .kernel b _, s => firstDefining (b s)

/-- `find_llvm_with_symbol_use` -/
def Finder.use : Finder → Str → FoundUses
  | .single dir file, _ => .text (pathJoin dir file)
  | .built fs, s => match fs.get? s with
    | none => .none
    | some p => .text p
  | .kernel _ u, s => .files (u s)

/-- Modification times; `none`: the path is not a file. -/
abbrev Times := Str → Option Nat

/-- A source tree: absolute directory, known modules (by path) as numbers of objects, and the number of objects created. The
finder is a parameter of the lookups, because what it finds depends on the state of the files. -/
structure Tree where
  dir : Str
  modules : Dict Str Nat
  next : Nat

/-- `_make_abs_path`, source_tree.py 36-39. -/
def makeAbs (dir file : Str) : Str := if startsWith file (str! "/") then file else pathJoin dir file

/-- `_get_module_from_source`, source_tree.py 41-51. -/
def Tree.module (t : Tree) (source : Str) : Nat × Tree :=
  match t.modules.get? source with
  | some m => (m, t)
  | none => (t.next, { t with modules := t.modules.set source t.next, next := t.next + 1 })

/-- The file was modified after the given time, source_tree.py 72-75. -/
def tooNew (before : Option Nat) (time : Nat) : Bool :=
  match before with
  | none => false
  | some b => decide (b ≠ 0) && decide (b < time)

/-- `get_module_for_symbol`, source_tree.py 53-79: the module and its file. `times` are the files
when the lookup is made. The error `simpll` stands for `SourceNotFoundException`. An empty name is not made absolute. -/
def Tree.forSymbol (t : Tree) (finder : Option Finder) (times : Times) (symbol : Str) (before : Option Nat) : Except PyErr (Nat × Str) × Tree :=
  match finder with
  | none => (.error .simpll, t)
  | some f =>
    match f.def symbol with
    | none => (.error .simpll, t)
    | some s =>
      let source := if s = [] then s else makeAbs t.dir s
      match times source with
      | none => (.error .simpll, t)
      | some time =>
        if tooNew before time then (.error .simpll, t)
        else
          let r := t.module source
          (.ok (r.1, source), r.2)

/-- The loop of `get_modules_using_symbol`, source_tree.py 91-96. -/
def Tree.usingLoop (times : Times) : Tree → List Str → List (Nat × Str) × Tree
  | t, [] => ([], t)
  | t, s :: ss =>
    let src := makeAbs t.dir s
    if (times src).isSome then
      let r := t.module src
      let r' := usingLoop times r.2 ss
      ((r.1, src) :: r'.1, r'.2)
    else usingLoop times t ss

/-- `get_modules_using_symbol`, source_tree.py 81-96. Iterating over a text gives its characters, iterating over `None`
raises. -/
def Tree.usingSymbol (t : Tree) (finder : Option Finder) (times : Times) (symbol : Str) : Except PyErr (List (Nat × Str)) × Tree :=
  match finder with
  | none => (.error .simpll, t)
  | some f =>
    match f.use symbol with
    | .none => (.error .typeError, t)
    | .text s => let r := Tree.usingLoop times t (s.map (fun c => [c])); (.ok r.1, r.2)
    | .files l => let r := Tree.usingLoop times t l; (.ok r.1, r.2)

/-- `get_functions_from_llvm`, utils.py 79-98, for the names defined in existing files; a file that does not exist raises
(`os.stderr`). -/
def functionsFrom (defs : Str → Option (List Str)) : List Str → Dict Str Str → Except PyErr (Dict Str Str)
  | [], d => .ok d
  | f :: fs, d =>
    match defs f with
    | none => .error .attributeError
    | some ns => functionsFrom defs fs (ns.foldl (fun d n => d.set n f) d)

/-! ### The solver -/

/-- Verdicts of the semantic comparison. -/
inductive SolverKind where
  | equal | notEqual | unknown | timeout | error
  deriving DecidableEq, Repr

/-- `_run_llreve_z3`, function_diff.py 94-116, for the lines printed by the solver, its exit status and whether the timer is
still running at the end. -/
def solverKind (lines : List Str) (status : Nat) (timerAlive : Bool) : SolverKind :=
  let k := lines.foldl (fun k l =>
    if strip l = str! "sat" then .notEqual
    else if strip l = str! "unsat" then .equal
    else if strip l = str! "unknown" then .unknown
    else k) SolverKind.error
  let k := if status ≠ 0 then .error else k
  if timerAlive = false then .timeout else k

end DK
