import Verif.Model.Result

/-! Model of the extended statistics, `report_object_stat`, result.py 214-289. Percentages, times and the number of
lines are left out. -/

set_option autoImplicit false

namespace DK

/-- `inner_res.diff == "" and inner_res.first.covered`, result.py 237-239. -/
def skippedDiff (y : Res) : Bool := decide (y.diff = some []) && y.first.covered

/-- All results of differing objects in the order of the loops, lines 235-240. -/
def differingObjects (r : Res) : List Res :=
  (r.inner.values.flatMap (fun x => x.inner.values)).filter (fun y => !skippedDiff y)

/-- `unique_diffs.add`, lines 223-231 and 240: a result with a name that is in the set is not added. -/
def addUnique (u : List Res) (y : Res) : List Res :=
  if u.any (fun z => decide (z.first.name = y.first.name)) then u else u ++ [y]

/-- The set of results, lines 234-240. -/
def uniqueDiffs (r : Res) : List Res := (differingObjects r).foldl addUnique []

/-- `name.startswith("assembly code")`, lines 261 and 264. -/
def isAsmDiff (y : Res) : Bool := (str! "assembly code").isPrefixOf y.first.name

/-- The printed numbers of differences, lines 274-288. -/
structure ObjectStat where
  total : Nat
  functions : Nat
  types : Nat
  macros : Nat
  asm : Nat
  empty : Nat
  compared : Nat
  instructions : Nat
  equalInst : Nat
  deriving DecidableEq, Repr

/-- `report_object_stat`, lines 233-266: `AttributeError` if there is no graph. -/
def objectStat (h : Heap) (r : Res) : Except PyErr ObjectStat :=
  match r.graph with
  | none => .error .attributeError
  | some g =>
    let u := uniqueDiffs r
    .ok {
      total := u.length
      functions := (u.filter (fun y => decide (y.first.kind = .function))).length
      types := (u.filter (fun y => decide (y.first.kind = .type))).length
      macros := (u.filter (fun y => decide (y.first.kind = .syntactic) && !isAsmDiff y)).length
      asm := (u.filter (fun y => decide (y.first.kind = .syntactic) && isAsmDiff y)).length
      empty := (u.filter (fun y => decide (y.diff = some []))).length
      compared := g.vertices.length
      instructions := (g.vertices.values.map (fun v => ((h v).stats .left).instCnt + ((h v).stats .right).instCnt)).sum
      equalInst := (g.vertices.values.map (fun v => ((h v).stats .left).instEqualCnt + ((h v).stats .right).instEqualCnt)).sum }

end DK
