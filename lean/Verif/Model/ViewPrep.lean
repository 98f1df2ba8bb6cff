import Verif.Model.SyntaxDiff
import Verif.Model.ModuleFiles

/-!
Model of the preparation of files for the viewer (`view`, diffkemp.py 602-736) and of how the viewer reads them
(App.jsx 28-31, Difference.jsx 74-100, Code.jsx 44-77). Directories are lists of components. Not modelled: finding the
directory of the viewer, creation of directories, links, what happens while the viewer runs.
-/

set_option autoImplicit false

namespace DK

/-- The directory that the viewer can access (`public_directory`), the directories of the snapshots (compare writes
absolute paths), the decoded lines of a file (`none`: `UnicodeDecodeError`), the program `diff -U 1`, and the text of the
YAML file with the added items `diff`. -/
structure ViewEnv where
  pub : List Str
  oldDir : List Str
  newDir : List Str
  text : Str → Option (List Str)
  tool : List Str → List Str → Str
  dump : List (Str × Bool) → Str

/-- `data_directory`, diffkemp.py 649. -/
def ViewEnv.data (env : ViewEnv) : List Str := env.pub ++ [str! "data"]

/-- `source_directory`, diffkemp.py 654. -/
def ViewEnv.src (env : ViewEnv) : List Str := env.data ++ [str! "src"]

/-- `diff_directory`, diffkemp.py 658. -/
def ViewEnv.diffs (env : ViewEnv) : List Str := env.data ++ [str! "diffs"]

/-- The saved YAML file, diffkemp.py 715. -/
def ViewEnv.yaml (env : ViewEnv) : List Str := env.data ++ [str! "diffkemp-out.yaml"]

/-- Files, `processed_files`, and the items `diff` set so far. -/
structure ViewState where
  fs : FileTree
  done : List Str
  flags : List (Str × Bool)

/-- Copying of the old source file, diffkemp.py 684-693. `none` is an exception: the file does not exist, or it is the
destination itself (`SameFileError`). -/
def viewCopy (env : ViewEnv) (file : Str) (st : ViewState) : Option ViewState :=
  if file ∈ st.done then some st
  else if absComps env.oldDir file = absComps env.src file then none
  else (st.fs.copy (absComps env.oldDir file) (absComps env.src file)).map fun fs => { st with fs := fs, done := file :: st.done }

/-- Lines of a file. -/
def viewLines (env : ViewEnv) (fs : FileTree) (p : List Str) : Option (List Str) := (fs p).bind env.text

/-- The call of `unified_syntax_diff`, diffkemp.py 697-703. -/
def viewDiffText (env : ViewEnv) (fs : FileTree) (d : Defn) (end1 end2 : Nat) : Option Str :=
  match viewLines env fs (absComps env.oldDir d.old.file), viewLines env fs (absComps env.newDir d.new.file),
      d.old.line, d.new.line with
  | some l1, some l2, some n1, some n2 => some (unifiedSyntaxDiff env.tool l1 l2 n1 n2 end1 end2)
  | _, _, _, _ => none

/-- The path of the diff of a definition, diffkemp.py 708. -/
def viewDiffPath (env : ViewEnv) (name : Str) : List Str := absComps env.diffs (name ++ str! ".diff")

/-- Writing of the diff, diffkemp.py 704-710. -/
def viewStore (env : ViewEnv) (name diff : Str) (st : ViewState) : ViewState :=
  if isSpace diff = true ∨ diff = [] then { st with flags := st.flags ++ [(name, false)] }
  else { st with fs := st.fs.write (viewDiffPath env name) diff, flags := st.flags ++ [(name, true)] }

/-- Making the diff, diffkemp.py 695-712. -/
def viewDiff (env : ViewEnv) (name : Str) (d : Defn) (st : ViewState) : Option ViewState :=
  match d.old.endLine, d.new.endLine with
  | some e1, some e2 => (viewDiffText env st.fs d e1 e2).map fun t => viewStore env name t st
  | _, _ => some { st with flags := st.flags ++ [(name, false)] }

/-- The loop over definitions, diffkemp.py 675-712. -/
def viewLoop (env : ViewEnv) : List (Str × Defn) → ViewState → Option ViewState
  | [], st => some st
  | (name, d) :: ds, st => ((viewCopy env d.old.file st).bind (viewDiff env name d)).bind (viewLoop env ds)

/-- The files while the viewer runs and the items `diff`, diffkemp.py 675-716. -/
def viewPrepare (env : ViewEnv) (defs : List (Str × Defn)) (fs : FileTree) : Option (FileTree × List (Str × Bool)) :=
  (viewLoop env defs ⟨fs, [], []⟩).map fun st => (st.fs.write env.yaml (env.dump st.flags), st.flags)

/-- Cleaning, diffkemp.py 733-736. -/
def viewClean (env : ViewEnv) (fs : FileTree) : FileTree := fun p =>
  if env.src <+: p ∨ env.diffs <+: p ∨ p = env.yaml then none else fs p

/-- The value of a hexadecimal digit. -/
def hexVal (c : Char) : Option Nat :=
  if c.isDigit then some (c.toNat - 48)
  else if 'a' ≤ c ∧ c ≤ 'f' then some (c.toNat - 87)
  else if 'A' ≤ c ∧ c ≤ 'F' then some (c.toNat - 55)
  else none

/-- `urllib.parse.unquote` for characters of one byte, used by the server of Python; `skip` digits were decoded. -/
def unquoteFrom : Nat → Str → Str
  | _, [] => []
  | k + 1, _ :: cs => unquoteFrom k cs
  | 0, c :: cs =>
    match c, cs with
    | '%', a :: b :: _ =>
      match hexVal a, hexVal b with
      | some x, some y => Char.ofNat (16 * x + y) :: unquoteFrom 2 cs
      | _, _ => c :: unquoteFrom 0 cs
    | _, _ => c :: unquoteFrom 0 cs

/-- The path in an address: what follows a question mark or a hash is not part of it. -/
def urlPath (s : Str) : Str := s.takeWhile fun c => decide (c ≠ '?') && decide (c ≠ '#')

/-- `fetch(path.join('data', file))`, App.jsx 28-31, answered by `SimpleHTTPRequestHandler` for the public directory.
Dots at the root of the address have no effect. `none`: the answer is a page with an error. The conversion of backslashes
by browsers is not modelled. -/
def viewFetch (env : ViewEnv) (fs : FileTree) (file : Str) : Option Str :=
  fs (env.pub ++ absComps [] (unquoteFrom 0 (urlPath (str! "data/" ++ file))))

/-- The code and the diff from which the viewer displays a definition, Difference.jsx 74-100 and Code.jsx 50-73; the outer
`none`: a message says that information is missing. -/
def viewShown (env : ViewEnv) (fs : FileTree) (name : Str) (d : Defn) (flag : Bool) : Option (Option Str × Option Str) :=
  match d.old.endLine, d.new.endLine with
  | some _, some _ =>
    some (viewFetch env fs (str! "src/" ++ d.old.file),
      if flag then viewFetch env fs (str! "diffs/" ++ name ++ str! ".diff") else some [])
  | _, _ => none

end DK
