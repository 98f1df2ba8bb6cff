import Verif.Model.CProject
import Verif.Model.Text

/-! Model of the order in which the commands that create snapshots change files (diffkemp.py 112-210, snapshot.py 75-80 and
115-131). A run is the list of the states of the files; it may be interrupted in each of them. -/

set_option autoImplicit false

namespace DK

/-- The files of the output directory by their relative paths, `none` if it does not exist. -/
abbrev OutDir := Option (Dict Str Str)

/-- The name of the description, snapshot.py 84 and 130. -/
def snapYamlName : Str := str! "snapshot.yaml"

/-- What a run finds and computes. -/
structure SnapRun where
  /-- The order in which `shutil.rmtree` removes the files. -/
  removal : List Str
  /-- The lines of the list of symbols; `none` if it cannot be read (an exception). -/
  lines : Option (List Str)
  /-- An empty list ends the command, diffkemp.py 178-182 and 203-206; it does not in diffkemp.py 124-131. -/
  needsSymbols : Bool
  /-- For the symbols: the files that are copied into the snapshot and the text of its description; `none` is an exception. -/
  content : List Str → Option (List (Str × Str) × Str)

/-- The states during `shutil.rmtree`, snapshot.py 77-78. -/
def removeStates : List Str → Dict Str Str → List (Dict Str Str)
  | [], d => [d]
  | f :: fs, d => d :: removeStates fs (d.filter fun p => decide (p.1 ≠ f))

/-- The states while a file is written: any beginning of the text may be there. -/
def fileStates (name text : Str) (d : Dict Str Str) : List (Dict Str Str) :=
  (List.range (text.length + 1)).map fun n => d.set name (text.take n)

/-- The states while files are copied, snapshot.py 124-125. -/
def copyStates : List (Str × Str) → Dict Str Str → List (Dict Str Str)
  | [], d => [d]
  | f :: fs, d => d :: fileStates f.1 f.2 d ++ copyStates fs (d.set f.1 f.2)

/-- The directory with all files. -/
def copied (files : List (Str × Str)) (d : Dict Str Str) : Dict Str Str := files.foldl (fun d f => d.set f.1 f.2) d

/-- Writing of the snapshot, snapshot.py 121-131: files of modules, then the description. -/
def writeStates (files : List (Str × Str)) (yaml : Str) : List OutDir :=
  (copyStates files [] ++ fileStates snapYamlName yaml (copied files [])).map some

/-- What follows when the symbols are known. -/
def symbolStates (b : SnapRun) (syms : List Str) : List OutDir :=
  if b.needsSymbols = true ∧ syms = [] then []
  else match b.content syms with
    | none => []
    | some (files, yaml) => writeStates files yaml

/-- What follows when the output directory is prepared: reading of the list, generation, writing. -/
def listStates (b : SnapRun) : List OutDir :=
  match b.lines with
  | none => []
  | some ls => symbolStates b (readSymbols ls)

/-- Preparation of the output directory, snapshot.py 75-79. -/
def prepareStates (b : SnapRun) (old : OutDir) : List OutDir :=
  match old with
  | none => [none, some []]
  | some d => (removeStates b.removal d).map some ++ [none, some []]

/-- The states of the output directory in a run, diffkemp.py 112-132, 148-156, 170-190 and 200-209. -/
def snapStates (b : SnapRun) (old : OutDir) : List OutDir := prepareStates b old ++ listStates b

/-- `load_from_dir`, snapshot.py 84-99, for the LLVM files that are listed in the description; `parse` reads the description. -/
def loadOut (parse : Str → Option (List Str)) (d : OutDir) : Option (List Str) :=
  (d.bind fun d => d.get? snapYamlName).bind parse

/-! ### Headers of the kernel -/

/-- The lines of a compiler header in the sources of the kernel and in the snapshot. -/
structure Headers where
  source : List Str
  snap : Option (List Str)
  deriving DecidableEq, Repr

/-- Steps of `build_kernel` that change headers, diffkemp.py 166-191: the sources are prepared
(kernel_llvm_source_builder.py 33), the output directory is made again, the header is copied, both trees are finalised
(snapshot.py 115-120). -/
def headerSteps : List (Headers → Headers) :=
  [fun h => { h with source := disableAsm h.source }, fun h => { h with snap := none },
   fun h => { h with snap := some h.source }, fun h => { h with source := enableAsm h.source },
   fun h => { h with snap := h.snap.map enableAsm }]

/-- A run that stops after `n` steps: by an exception, because the list is empty, or because it is interrupted. -/
def headerRun (n : Nat) (h : Headers) : Headers := (headerSteps.take n).foldl (fun h f => f h) h

/-- Runs one after another. -/
def headerRuns (stops : List Nat) (h : Headers) : Headers := stops.foldl (fun h n => headerRun n h) h

end DK
