import Verif.Model.Graph
import Verif.Model.Paths

/-! Model of the cache of compared functions: the writer `SimpLLCache` (caching.py 573-629) and the reader in the engine
(ResultsCache.cpp). -/

set_option autoImplicit false

namespace DK

/-- `files` of a vertex as a Python tuple. -/
abbrev FilesKey := Option Str × Option Str

/-- The state of a `SimpLLCache` object and of the files in its directory (`fs` maps the name of a cache file to its
contents). `cwd` are the components of the working directory. -/
structure Cache where
  directory : Str
  cwd : List Str
  cacheMap : Dict FilesKey Str := []
  fs : Dict Str Str := []

/-- `CacheFile.__init__`, caching.py 581-588; `None` instead of a path raises `TypeError` in `commonprefix`. -/
def cacheFileName (directory : Str) (cwd : List Str) (files : FilesKey) : Except PyErr Str :=
  match files with
  | (some l, some r) =>
    let pre := commonPrefix l r
    match relpath cwd l pre with
    | .error x => .error x
    | .ok a =>
      match relpath cwd r pre with
      | .error x => .error x
      | .ok b => .ok (directory ++ '/' :: (replaceChar '/' '$' a ++ ':' :: replaceChar '/' '$' b))
  | _ => .error .typeError

/-- One line of a cache file, caching.py 593. -/
def cacheLine (p : Str × Str) : Str := p.1 ++ ':' :: (p.2 ++ ['\n'])

/-- `CacheFile.add_function_pairs`, caching.py 590-594. Failures of `open` are not modelled. -/
def addFunctionPairs (fs : Dict Str Str) (filename : Str) (pairs : List (Str × Str)) : Dict Str Str :=
  fs.set filename (((fs.get? filename).getD []) ++ pairs.flatMap cacheLine)

/-- Lines 608-616: the cachable vertices sorted by source file pair. -/
def groupByFiles (h : Heap) : List Vid → Dict FilesKey (List Vid) → Dict FilesKey (List Vid)
  | [], m => m
  | v :: vs, m =>
    if (h v).cachable then
      let k : FilesKey := ((h v).files .left, (h v).files .right)
      groupByFiles h vs (m.set k (((m.get? k).getD []) ++ [v]))
    else groupByFiles h vs m

/-- `v.names` as a pair. -/
def Vertex.namePair (v : Vertex) : Str × Str := (v.names .left, v.names .right)

/-- The loop in lines 619-625. The cache keeps what has been done before an exception. -/
def updateFiles (h : Heap) : Cache → Dict FilesKey (List Vid) → Cache × Except PyErr Unit
  | c, [] => (c, .ok ())
  | c, (k, vs) :: rest =>
    match c.cacheMap.get? k with
    | some f => updateFiles h { c with fs := addFunctionPairs c.fs f (vs.map (fun v => (h v).namePair)) } rest
    | none =>
      match cacheFileName c.directory c.cwd k with
      | .error x => (c, .error x)
      | .ok f =>
        updateFiles h
          { c with cacheMap := c.cacheMap.set k f
                   fs := addFunctionPairs c.fs f (vs.map (fun v => (h v).namePair)) } rest

/-- `SimpLLCache.update`, caching.py 604-625. -/
def Cache.update (h : Heap) (c : Cache) (vs : List Vid) : Cache × Except PyErr Unit :=
  updateFiles h c (groupByFiles h vs [])

/-- `SimpLLCache.__init__`, caching.py 599-603: the directory has just been created by `mkdtemp`. -/
def Cache.new (directory : Str) (cwd : List Str) : Cache := { directory := directory, cwd := cwd }

/-! ### The reader, ResultsCache.cpp -/

/-- `line.split(':')` of a `StringRef`, used in ResultsCache.cpp 34: the parts before and after the first colon. -/
def splitFirst (c : Char) : Str → Str × Str
  | [] => ([], [])
  | x :: xs => if x = c then ([], xs) else ((x :: (splitFirst c xs).1), (splitFirst c xs).2)

/-- `importFileToCacheMap`, ResultsCache.cpp 24-39: the pairs read from a file. -/
def readPairs (text : Str) : List (Str × Str) := (splitChar '\n' text).map (splitFirst ':')

/-- The name under which the engine looks up a pair of source files, ResultsCache.cpp 51-61. The file of a function is
the same string as in the result the engine emits for it (`joinPath` of directory and file name of the subprogram). -/
def readerFileName (directory : Str) (l r : Str) : Str :=
  directory ++ '/' :: (replaceChar '/' '$' l ++ ':' :: replaceChar '/' '$' r)

/-- `isFunctionPairCached`, ResultsCache.cpp 43-73, for functions with debug info in a process that has not read the file
yet (the engine's own map only avoids reading a file twice). -/
def isCached (directory : Str) (fs : Dict Str Str) (l r : Str) (p : Str × Str) : Bool :=
  match fs.get? (readerFileName directory l r) with
  | none => false
  | some text => decide (p ∈ readPairs text)

end DK
