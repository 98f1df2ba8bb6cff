import Verif.Model.ModuleFiles
import Verif.Model.KernelBuild

/-!
Model of the search for symbols in kernel sources with cscope (kernel_llvm_source_builder.py 168-229) and of the search for the
commands that build a kernel module or an object (489-558). The programs cscope and make are parameters.
-/

set_option autoImplicit false

namespace DK

/-- A kernel: components of the (absolute) source directory, the directories below it (their components relative to the source
directory; `os.walk`) with the names of their files, links marked, and the contents of files by their relative components. -/
structure KTree where
  src : List Str
  dirs : List (List Str × List (Str × Bool))
  text : List Str → Str

/-- The value `root` of `os.walk` for a directory of the kernel. -/
def rootOf (k : KTree) (d : List Str) : Str := '/' :: joinChar '/' (k.src ++ d)

/-- The test of lines 185-187. -/
def skippedRoot (root : Str) : Bool :=
  occursIn (str! "/Documentation/") root || occursIn (str! "/scripts/") root || occursIn (str! "/tmp") root

/-- The test of line 193. -/
def scannedName (f : Str) : Bool :=
  endsWith f (str! ".c") || endsWith f (str! ".h") || endsWith f (str! ".x") || endsWith f (str! ".s") || endsWith f (str! ".S")

/-- The files of a directory that are written into cscope.files, lines 184-196, with their contents. `os.path.relpath` of a
visited file consists of the components of its directory and its name. -/
def scannedFiles (k : KTree) (d : List Str × List (Str × Bool)) : List (Str × Str) :=
  if skippedRoot (rootOf k d.1) then []
  else (d.2.filter fun f => !f.2 && scannedName f.1).map fun f =>
    (joinChar '/' (d.1 ++ [f.1]), k.text (d.1 ++ [f.1]))

/-- The database of cscope that is built for a kernel, lines 182-200. -/
def scanKernel (k : KTree) : List (Str × Str) := k.dirs.flatMap (scannedFiles k)

/-- The database on the disk (the file cscope.files exists) and the cache of answers. -/
structure CscopeState where
  db : Option (List (Str × Str))
  cache : Dict (Str × Bool) (List Str)

/-- `_build_cscope_database`, lines 171-203; `ok`: whether cscope ends without error. `none` is a `BuildException`. -/
def buildDatabase (k : KTree) (ok : Bool) (st : CscopeState) : Option (List (Str × Str)) :=
  match st.db with
  | some db => some db
  | none => if ok then some (scanKernel k) else none

/-- `line.split()[0]`; lines of cscope are not empty. -/
def firstWord (line : Str) : Str := (line.dropWhile pySpace).takeWhile fun c => !pySpace c

/-- The output of cscope: lines that begin with the file. `hits` are the rests of the lines for the contents of a file. -/
def cscopeLines (hits : Str → Str × Bool → List Str) (db : List (Str × Str)) (q : Str × Bool) : List Str :=
  db.flatMap fun f => (hits f.2 q).map fun h => f.1 ++ ' ' :: h

/-- Lines 224-225. -/
def sourceLines (ls : List Str) : List Str := ls.filter fun l => endsWith (firstWord l) (str! "c")

/-- `_cscope_run`, lines 205-229. `ok`, `found`: whether cscope builds the database and searches without error. `none` is a
`BuildException`. -/
def cscopeRun (k : KTree) (hits : Str → Str × Bool → List Str) (ok found : Bool) (q : Str × Bool) (st : CscopeState) :
    Option (List Str) × CscopeState :=
  match st.cache.get? q with
  | some r => (some r, st)
  | none =>
    match buildDatabase k ok st with
    | none => (none, st)
    | some db =>
      if found then
        let r := sourceLines (cscopeLines hits db q)
        (some r, ⟨some db, st.cache.set q r⟩)
      else (some [], ⟨some db, st.cache⟩)

/-- A session: searches of a kernel that follow each other, all without errors. -/
def cscopeSession (k : KTree) (hits : Str → Str × Bool → List Str) : List (Str × Bool) → CscopeState → List (Option (List Str))
  | [], _ => []
  | q :: qs, st => (cscopeRun k hits true true q st).1 :: cscopeSession k hits qs (cscopeRun k hits true true q st).2

/-! ### Commands for modules -/

/-- The arguments of make in lines 534-535. -/
def makeModule (dir name : Str) : List Str :=
  [str! "make", str! "--just-print", str! "V=1", str! "M=" ++ dir, name ++ str! ".ko"]

/-- `_kbuild_module_commands`, lines 519-558. `make` answers with the lines of its output or with the code of an error. The
result is the name of the file and the commands; `none` is a `BuildException`. -/
def kbuildModule (make : List Str → Except Nat (List Str)) (dir name : Str) : Option (Str × List Str) :=
  match make (makeModule dir name) with
  | .ok out => some (name, extractCommands out)
  | .error e =>
    if e = 2 then
      match make (makeModule dir (replaceChar '_' '-' name)) with
      | .ok out => some (replaceChar '_' '-' name, extractCommands out)
      | .error _ => none
    else none

/-- `_kbuild_object_command`, lines 489-517, for the output of make. `none` is a `BuildException`. -/
def kbuildObject (out : List Str) : Option Str := out.reverse.findSome? (extractCommand [str! "gcc"])

end DK
