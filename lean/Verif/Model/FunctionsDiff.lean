import Verif.Model.Result
import Verif.Model.GraphOps
import Verif.Model.Cache

/-! Model of `functions_diff` (function_diff.py 160-318) with the linking of missing definitions (function_diff.py 17-47,
llvm_module.py 69-98 and 141-147). The engine, the lookups of symbols, the linker and the text diffs are arbitrary. -/

set_option autoImplicit false

namespace DK

/-- Identity of a module object (`LlvmModule` defines no `__eq__`). -/
abbrev ModId := Nat

/-- The attributes of `LlvmModule` that linking uses, llvm_module.py 49-54 (`linked` is a set). -/
structure LMod where
  llvm : Str
  unlinked : Option Str := none
  linked : List ModId := []
  deriving DecidableEq, Repr

/-- `"-linked" in s` -/
def containsLinked (s : Str) : Bool := decide ((str! "-linked") <:+: s)

/-- The file the linker writes, llvm_module.py 76-79. -/
def LMod.linkTarget (m : LMod) : Str :=
  if containsLinked m.llvm then m.llvm else m.llvm.take (m.llvm.length - 3) ++ str! "-linked.ll"

/-- `link_modules([new])`, llvm_module.py 69-98. `ok` tells whether both commands succeed. The result is the module, the
returned value and the files that may have been written. An exception of `parse_module` is dropped by the `return` in
the `finally` clause. -/
def LMod.link (m : LMod) (new : ModId) (ok : Bool) : LMod × Bool × List Str :=
  if new ∈ m.linked then (m, false, [])
  else if ok then
    ({ llvm := m.linkTarget, unlinked := some (m.unlinked.getD m.llvm), linked := new :: m.linked }, true, [m.linkTarget])
  else (m, false, [m.linkTarget])

/-- `restore_unlinked_llvm`, llvm_module.py 141-147. -/
def LMod.restore (m : LMod) : LMod :=
  match m.unlinked with
  | some u => { llvm := u, unlinked := none, linked := [] }
  | none => m

/-- Pairs of missing definitions reported by the engine; a missing key is `none`. -/
abbrev MissingDefs := List (Option Str × Option Str)

/-- Everything `functions_diff` asks others for. Calls of the engine, lookups and links get the number of such operations
done before (`Nat`), so that they may answer differently each time. -/
structure FDEnv where
  /-- `run_simpll`: import, normalisation and marking may create and change objects. -/
  engine : Nat → LMod → LMod → Heap → Except PyErr (Heap × Graph × MissingDefs)
  /-- `snapshot_tree.get_module_for_symbol`; `none` is `SourceNotFoundException`. -/
  snapLookup : Side → Nat → Str → Option ModId
  /-- `source_tree.get_module_for_symbol`, if there is a source tree. -/
  srcLookup : Side → Option (Nat → Str → Option ModId)
  linkOk : Nat → Bool
  /-- `functions_semdiff` if a tool is configured. -/
  semdiff : Option (Obj → Except PyErr Kind)
  /-- `syntax_diff` -/
  syntaxDiff : Obj → Except PyErr Str
  /-- enumeration order of sets -/
  enum : List Vid → List Vid
  /-- `config.full_diff` -/
  full : Bool

/-- State during a comparison. `curr` is `curr_result_graph`; `written` are the files written by the linker. -/
structure FDState where
  heap : Heap
  mods : Side → LMod
  clock : Nat := 0
  engineRuns : Nat := 0
  written : List Str := []
  curr : Option Graph := none
  cache : Option Cache := none

/-- `_link_symbol_def`, function_diff.py 17-47. -/
def linkSymbolDef (env : FDEnv) (s : Side) (sym : Str) (st : FDState) : FDState × Bool :=
  let found : Option ModId :=
    match env.snapLookup s st.clock sym with
    | some m => some m
    | none =>
      match env.srcLookup s with
      | none => none
      | some look => look st.clock sym
  match found with
  | none => ({ st with clock := st.clock + 1 }, false)
  | some new =>
    let r := (st.mods s).link new (env.linkOk st.clock)
    ({ st with
        clock := st.clock + 1
        mods := fun t => if t = s then r.1 else st.mods t
        written := st.written ++ r.2.2 }, r.2.1)

/-- One side of one missing definition, function_diff.py 228-238. -/
def linkOpt (env : FDEnv) (s : Side) (sym : Option Str) (st : FDState × Bool) : FDState × Bool :=
  match sym with
  | none => st
  | some n =>
    let r := linkSymbolDef env s n st.1
    (r.1, st.2 || r.2)

/-- The loop over the missing definitions, function_diff.py 227-238; the second component is `simplify`. -/
def linkMissing (env : FDEnv) (st : FDState) (ms : MissingDefs) : FDState × Bool :=
  ms.foldl (fun st m => linkOpt env .right m.2 (linkOpt env .left m.1 st)) (st, false)

/-- The condition in lines 203-207 (known result, the engine is not run). -/
def shortcut (h : Heap) (prev : Option Graph) (f1 : Str) : Option Graph :=
  match prev with
  | none => none
  | some p =>
    match p.vertices.get? f1 with
    | none => none
    | some v => if (h v).result ≠ .assumedEqual ∧ (h v).sameFile = true then some p else none

/-- The vertices given to the cache, lines 252-254. -/
def definiteVertices (h : Heap) (g : Graph) : List Vid :=
  g.vertices.values.filter (fun v => decide ((h v).result ≠ .unknown ∧ (h v).result ≠ .assumedEqual))

/-- Lines 239-254, executed when no module has been linked. -/
def mergeResults (st : FDState) (prev : Option Graph) (g : Graph) : FDState × Except PyErr Graph :=
  match prev with
  | none => (st, .ok g)
  | some p =>
    let hg := absorbGraph st.heap p g
    let st1 := { st with heap := hg.1, curr := some hg.2 }
    match st1.cache with
    | none => (st1, .ok hg.2)
    | some c =>
      let r := c.update st1.heap (definiteVertices st1.heap hg.2)
      ({ st1 with cache := some r.1 }, r.2.map (fun _ => hg.2))

/-- The loop in lines 201-254, at most `fuel` iterations; C17 proves that it ends. -/
def engineLoop (env : FDEnv) (f1 : Str) (prev : Option Graph) : Nat → FDState → Option (FDState × Except PyErr Graph)
  | 0, _ => none
  | n + 1, st =>
    match shortcut st.heap prev f1 with
    | some p => some ({ st with curr := some p }, .ok p)
    | none =>
      match env.engine st.engineRuns (st.mods .left) (st.mods .right) st.heap with
      | .error x => some ({ st with engineRuns := st.engineRuns + 1 }, .error x)
      | .ok (h, g, missing) =>
        let r := linkMissing env { st with heap := h, curr := some g, engineRuns := st.engineRuns + 1 } missing
        if r.2 then engineLoop env f1 prev n r.1
        else some (mergeResults r.1 prev g)

/-- The text of a syntactic difference, lines 296-298. -/
def bodiesText (l r : Str) : Str := str! "  " ++ l ++ str! "\n\n  " ++ r ++ str! "\n"

/-- The diff of one object, lines 282-303. -/
def objDiff (env : FDEnv) (acc : PairAcc) (k : Kind) (o : Obj) : Except PyErr (Option Str) :=
  if k = .notEqual ∨ env.full = true then
    match o.first.kind with
    | .syntactic =>
      match acc.bodiesL.get? o.first.name with
      | none => .error .keyError
      | some l =>
        match acc.bodiesR.get? o.second.name with
        | none => .error .keyError
        | some r => .ok (some (bodiesText l r))
    | _ => (env.syntaxDiff o).map some
  else .ok none

/-- The verdict of one object, lines 270-279 (the semantic tool is used for objects that are not functions). -/
def objKind (env : FDEnv) (o : Obj) : Except PyErr Kind :=
  match env.semdiff with
  | some tool => if o.first.kind ≠ .function then tool o else .ok o.kind
  | none => .ok o.kind

/-- The loop in lines 269-309. The result reached before an exception is kept. -/
def compareObjs (env : FDEnv) (acc : PairAcc) : Res → List Obj → Res × Except PyErr Unit
  | r, [] => (r, .ok ())
  | r, o :: os =>
    match objKind env o with
    | .error x => (r, .error x)
    | .ok k =>
      match objDiff env acc k o with
      | .error x => (r, .error x)
      | .ok d =>
        if k ≠ .notEqual ∧ d = some [] then compareObjs env acc r os
        else compareObjs env acc (r.addInner (.mk k o.first o.second d none [])) os

/-- Lines 256-309 after the loop. -/
def finishDiff (env : FDEnv) (f1 f2 : Str) (st : FDState) (g : Graph) : FDState × Res × Except PyErr Unit :=
  let res := Res.new .none f1 f2
  match funPairList env.enum st.heap g f1 f2 env.full with
  | .error x => (st, res, .error x)
  | .ok acc =>
    let st1 := { st with mods := fun s => (st.mods s).restore }
    match acc.objs with
    | [] => (st1, res.setKind .equal, .ok ())
    | o :: os =>
      let r := compareObjs env acc res (o :: os)
      (st1, r.1, r.2)

/-- Lines 310-318: `ValueError` and `SimpLLException` become the verdict error, other exceptions leave the function. -/
def wrapUp (st : FDState) (prev : Option Graph) (res : Res) (e : Except PyErr Unit) : Except PyErr Res :=
  let graph := match st.curr with | some g => some g | none => prev
  match e with
  | .ok () => .ok (res.setGraph graph)
  | .error .valueError => .ok ((res.setKind .error).setGraph graph)
  | .error .simpll => .ok ((res.setKind .error).setGraph graph)
  | .error x => .error x

/-- `functions_diff`, function_diff.py 160-318. -/
def functionsDiff (env : FDEnv) (f1 f2 : Str) (prev : Option Graph) (fuel : Nat) (st : FDState) :
    Option (FDState × Except PyErr Res) :=
  match engineLoop env f1 prev fuel { st with curr := none, engineRuns := 0 } with
  | none => none
  | some (st1, .error x) => some (st1, wrapUp st1 prev (Res.new .none f1 f2) (.error x))
  | some (st1, .ok g) =>
    let r := finishDiff env f1 f2 st1 g
    some (r.1, wrapUp r.1 prev r.2.1 r.2.2)

end DK
