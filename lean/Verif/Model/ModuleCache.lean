import Verif.Model.Py

/-!
Model of how the engine is run (diffkemp/simpll/simpll.py 24-179, diffkemp/simpll/library.py 36-42 and 87-88,
diffkemp/simpll/library/FFI.cpp 64-80 and 229-321, diffkemp/simpll/ModuleAnalysis.cpp 50-119 and 246-256) and of the choice of
modules that are loaded in advance (diffkemp/diffkemp.py 325-352). What the engine computes is arbitrary.
-/

set_option autoImplicit false

namespace DK

/-- The engine: slicing of a function with respect to a variable, the other passes with the settings of patterns, and the
comparison of two modules, which gives a text or ends the process (`none`). -/
structure EngineRun (M : Type) where
  slice : Str → Str → M → M
  passes : Dict Str Bool → M → M
  analyse : Str → Str → M → M → Option Str

/-- A module in memory; the mark is the named metadata `preprocessed`. -/
structure LoadedMod (M : Type) where
  content : M
  preprocessed : Bool

variable {M : Type}

/-- `preprocessModule`, ModuleAnalysis.cpp 59-119. -/
def preprocessModule (E : EngineRun M) (pats : Dict Str Bool) (f : Str) (var : Option Str) (m : LoadedMod M) : LoadedMod M :=
  let m' : LoadedMod M := match var with
    | some v => { m with content := E.slice f v m.content }
    | none => m
  if m'.preprocessed then m' else ⟨E.passes pats m'.content, true⟩

/-- `processAndCompare`, ModuleAnalysis.cpp 246-256. -/
def processAndCompare (E : EngineRun M) (pats : Dict Str Bool) (var : Option Str) (f g : Str) (l r : LoadedMod M) : Option Str :=
  E.analyse f g (preprocessModule E pats f var l).content (preprocessModule E pats g var r).content

/-- How a run of the engine ends: with a text, with a python exception, or with the end of the whole tool. -/
inductive RunOut where
  | text (t : Str)
  | exception (e : PyErr)
  | dead
  deriving DecidableEq

/-- The size of the buffer for the text, simpll.py 54. -/
def bufferSize : Nat := 1000000

/-- The call of `parseAndRunSimpLL`, simpll.py 108-115 and FFI.cpp 293-313: a crash of the engine ends the tool. `strcpy` does
not check the size of the buffer (FFI.cpp 264-265); writing behind it is modelled as a crash. -/
def runDirect (E : EngineRun M) (pats : Dict Str Bool) (var : Option Str) (f g : Str) (l r : M) : RunOut :=
  match processAndCompare E pats var f g ⟨l, false⟩ ⟨r, false⟩ with
  | none => .dead
  | some t => if t.length < bufferSize then .text t else .dead

/-- The call of `runSimpLL` in a new process, simpll.py 86-107: the modules of this process are not changed, a crash is an
exception. -/
def runForked (E : EngineRun M) (pats : Dict Str Bool) (var : Option Str) (f g : Str) (l r : LoadedMod M) : RunOut :=
  match processAndCompare E pats var f g l r with
  | none => .exception .simpll
  | some t => if t.length < bufferSize then .text t else .exception .simpll

/-- The call of the program `diffkemp-simpll`, simpll.py 118-170. -/
def runBinary (E : EngineRun M) (pats : Dict Str Bool) (var : Option Str) (f g : Str) (l r : M) : RunOut :=
  match processAndCompare E pats var f g ⟨l, false⟩ ⟨r, false⟩ with
  | none => .exception .simpll
  | some t => .text t

/-- simpll.py 46-49 for one module: loading in advance. `conv` is what cffi makes of the python object with the settings that is
passed to `preprocess` (library.py 87-88); `none`: it raises `TypeError`, as it does for objects that are not structures of C. -/
def preload (E : EngineRun M) (conv : Option (Dict Str Bool)) (toCache : List Str) (disk : Str → M) (path : Str)
    (cache : Dict Str (LoadedMod M)) : Dict Str (LoadedMod M) × Option PyErr :=
  if !cache.contains path && toCache.contains path then
    match conv with
    | none => (cache.set path ⟨disk path, false⟩, some .typeError)
    | some pats => (cache.set path (preprocessModule E pats [] none ⟨disk path, false⟩), none)
  else (cache, none)

/-- The files, functions and variable of one comparison. -/
structure EngineCall where
  first : Str
  second : Str
  funFirst : Str
  funSecond : Str
  var : Option Str

/-- `run_simpll`, simpll.py 24-179, until the text is received. `ffi`: the setting `use_ffi`. Simplified: all files exist and
contain modules, paths are ASCII texts. -/
def runSimpll (E : EngineRun M) (ffi : Bool) (conv : Option (Dict Str Bool)) (pats : Dict Str Bool) (toCache : List Str) (disk : Str → M)
    (c : EngineCall) (cache : Dict Str (LoadedMod M)) : RunOut × Dict Str (LoadedMod M) :=
  if ffi then
    match preload E conv toCache disk c.first cache with
    | (cache1, some e) => (.exception e, cache1)
    | (cache1, none) =>
      match preload E conv toCache disk c.second cache1 with
      | (cache2, some e) => (.exception e, cache2)
      | (cache2, none) =>
        match cache2.get? c.first, cache2.get? c.second with
        | some l, some r => (runForked E pats c.var c.funFirst c.funSecond l r, cache2)
        | _, _ => (runDirect E pats c.var c.funFirst c.funSecond (disk c.first) (disk c.second), cache2)
  else (runBinary E pats c.var c.funFirst c.funSecond (disk c.first) (disk c.second), cache)

/-- Whether the tool ends: only `ValueError` and `SimpLLException` are caught (function_diff.py 309-315). -/
def RunOut.fatal : RunOut → Bool
  | .text _ => false
  | .exception .valueError => false
  | .exception .simpll => false
  | .exception _ => true
  | .dead => true

/-- The comparisons of one group (diffkemp.py 386-423): the outcomes until the end. -/
def engineSession (E : EngineRun M) (ffi : Bool) (conv : Option (Dict Str Bool)) (pats : Dict Str Bool) (toCache : List Str)
    (disk : Str → M) : List EngineCall → Dict Str (LoadedMod M) → List RunOut
  | [], _ => []
  | c :: cs, cache =>
    let r := runSimpll E ffi conv pats toCache disk c cache
    r.1 :: (if r.1.fatal then [] else engineSession E ffi conv pats toCache disk cs r.2)

/-! ### The choice of modules -/

/-- The inner loop of `_get_modules_to_cache`, diffkemp.py 345-350: one more use of a module. -/
def countModule (m : Option Str) (d : Dict Str Nat) : Dict Str Nat :=
  match m with
  | none => d
  | some p =>
    let d' := if d.contains p then d else d.set p 0
    d'.set p ((d'.get? p).getD 0 + 1)

/-- The loop of `_get_modules_to_cache`, diffkemp.py 339-350. Functions are given with the file of their module; `other` is
the result of `get_by_name` in the other snapshot. -/
def countModules (other : Str → Option (Option Str)) : List (Str × Option Str) → Dict Str Nat → Dict Str Nat
  | [], d => d
  | (f, old) :: fs, d =>
    match other f with
    | none => countModules other fs d
    | some new => countModules other fs (countModule new (countModule old d))

/-- `_get_modules_to_cache`, diffkemp.py 325-352. -/
def modulesToCache (other : Str → Option (Option Str)) (functions : List (Str × Option Str)) (minFrequency : Nat) : List Str :=
  ((countModules other functions []).filter (fun p => decide (minFrequency ≤ p.2))).map Prod.fst

end DK
