import Verif.Model.Building
import Verif.Model.ModuleFiles

/-! Model of the building of make-based projects and of the reading of lists of symbols (diffkemp.py 44-125, 212-223). -/

set_option autoImplicit false

namespace DK

/-! ### Settings for the compiler wrapper -/

/-- Arguments of `diffkemp build` that the wrapper gets, cli.py 30-45. Options that may be repeated are `None` if they are
not given. -/
structure BuildArgs where
  clang : Str
  clangAppend : Option (List Str)
  clangDrop : Option (List Str)
  llvmLink : Str
  deriving DecidableEq, Repr

/-- `",".join(l) if l is not None else ""`, diffkemp.py 54-59. -/
def joinOptions (l : Option (List Str)) : Str :=
  match l with
  | some os => joinChar ',' os
  | none => []

/-- Names of the variables, cc_wrapper.py 17-25. -/
def envDb : Str := str! "DIFFKEMP_WRAPPER_DB_FILENAME"
/-- cc_wrapper.py 19 -/
def envClang : Str := str! "DIFFKEMP_WRAPPER_CLANG"
/-- cc_wrapper.py 20 -/
def envAppend : Str := str! "DIFFKEMP_WRAPPER_CLANG_APPEND"
/-- cc_wrapper.py 21 -/
def envDrop : Str := str! "DIFFKEMP_WRAPPER_CLANG_DROP"
/-- cc_wrapper.py 23 -/
def envLink : Str := str! "DIFFKEMP_WRAPPER_LLVM_LINK"

/-- The environment of `make`, diffkemp.py 51-62. `osEnv` is the environment of the tool, `db` the name of the database. -/
def buildEnvironment (a : BuildArgs) (db : Str) (osEnv : Dict Str Str) : Dict Str Str :=
  dictUpdate [(envDb, db), (envClang, a.clang), (envAppend, joinOptions a.clangAppend), (envDrop, joinOptions a.clangDrop),
    (envLink, a.llvmLink)] osEnv

/-- The variables that the wrapper reads, cc_wrapper.py 93-98. -/
def wrapperEnvOf (e : Dict Str Str) : WrapperEnv :=
  ⟨e.get? envDb, e.get? envClang, e.get? envAppend, e.get? envDrop, e.get? envLink⟩

/-- The lists that the wrapper uses, cc_wrapper.py 104-105: options to append and options to drop. -/
def wrapperLists (w : WrapperEnv) : Option (List Str × List Str) :=
  match w.append, w.drop with
  | some a, some d => some (splitChar ',' a, splitChar ',' d)
  | _, _ => none

/-! ### The log of `configure` -/

/-- The contents of `config.log` and of `config.log.bak`. -/
structure ConfigLog where
  log : Option Str
  bak : Option Str
  deriving DecidableEq, Repr

/-- Backup before cleaning, diffkemp.py 73-76: `os.rename` replaces an existing file. -/
def ConfigLog.backup (s : ConfigLog) : ConfigLog :=
  match s.log with
  | some c => ⟨none, some c⟩
  | none => s

/-- Restoring after cleaning, diffkemp.py 81-83. -/
def ConfigLog.restore (s : ConfigLog) : ConfigLog :=
  match s.bak with
  | some c => ⟨some c, none⟩
  | none => s

/-- The states of the files during the cleaning of the project, diffkemp.py 71-83; `clean` is the effect of `make clean` on
`config.log`. A run that is interrupted stops in one of these states. -/
def cleanStates (clean : Option Str → Option Str) (s : ConfigLog) : List ConfigLog :=
  [s, s.backup, { s.backup with log := clean s.backup.log }, ({ s.backup with log := clean s.backup.log }).restore]

/-- The state after the cleaning. -/
def cleanProject (clean : Option Str → Option Str) (s : ConfigLog) : ConfigLog :=
  ({ s.backup with log := clean s.backup.log }).restore

/-- The text after the first `"$ "`; `s.split("$ ", 1)[1]` raises `IndexError` without it. -/
def afterPrompt : Str → Except PyErr Str
  | '$' :: ' ' :: r => .ok r
  | _ :: r => afterPrompt r
  | [] => .error .indexError

/-- The command for the line with the invocation, diffkemp.py 95-103. -/
def commandOfLine (setting line : Str) : Except PyErr (Option Str) :=
  if strip line = [] ∨ occursIn setting (strip line) = true then .ok none
  else (afterPrompt (strip line)).map (fun c => some (c ++ ' ' :: setting))

/-- The command that configures the project again, diffkemp.py 87-103, from the lines of the log: `none` if it is not
run. -/
def configureCommand (setting : Str) (lines : List Str) : Except PyErr (Option Str) :=
  match lines.find? (fun l => decide ('$' ∈ l)) with
  | none => .ok none
  | some line => commandOfLine setting line

/-! ### Lists of symbols -/

/-- A line of the list, diffkemp.py 221-223. Letters of other scripts, which Python accepts, are not modelled. -/
def symbolOfLine (line : Str) : Option Str :=
  match strip line with
  | [] => none
  | c :: cs => if c.isAlpha || decide (c = '_') then some (c :: cs) else none

/-- `read_symbol_list`, diffkemp.py 213-223. -/
def readSymbols (lines : List Str) : List Str := lines.filterMap symbolOfLine

/-- The list of functions written for a project, wrapper_build_finder.py 41-44. -/
def functionListLines (names : List Str) : List Str := names.map (fun n => n ++ ['\n'])

end DK
