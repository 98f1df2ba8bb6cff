import Verif.Model.Search

/-! Model of `graph_to_fun_pair_list` (caching.py 462-560). -/

set_option autoImplicit false

namespace DK

/-- `Entity.diff_kind`, result.py 133-134. -/
inductive DiffKind where
  | function | syntactic | type
  deriving DecidableEq, Repr

/-- `Result.Entity`, result.py 127-140; `callstack` is the list of calls of the `Callstack` object, `None` if there is no
object. -/
structure Entity where
  name : Str
  filename : Option Str := none
  line : Option Nat := none
  callstack : Option (List Call) := none
  kind : DiffKind := .function
  covered : Bool := false
  deriving DecidableEq, Repr

/-- `Callstack.from_edge_objects`, result.py 53-59. -/
def callsOfEdges (p : List (Vid × Edge)) : List Call := p.map (fun x => ⟨x.2.target, x.2.file, x.2.line⟩)

/-- An element of `objects_to_compare`: two entities and a verdict. -/
structure Obj where
  first : Entity
  second : Entity
  kind : Kind
  deriving DecidableEq, Repr

/-- `_get_callstack(backtracking_map, self[fun], vertex)` with the lookup of the start function. -/
def callstackFrom (g : Graph) (bt : Dict Vid (Vid × Edge)) (start : Str) (v : Vid) : Except PyErr (List Call) :=
  match g.vertices.get? start with
  | none => .error .keyError
  | some s =>
    match getCallstack bt s v with
    | .error x => .error x
    | .ok p => .ok (callsOfEdges p)

/-- The loop body for one side of a function, caching.py 486-509. -/
def funEntity (h : Heap) (g : Graph) (bt : Dict Vid (Vid × Edge)) (start : Str) (side : Side) (v : Vid) :
    Except PyErr Entity :=
  let mk (calls : Option (List Call)) : Entity :=
    { name := (h v).names side, filename := (h v).files side, line := (h v).lines side, callstack := calls
      kind := .function, covered := decide ((h v).nonfunDiffs.length ≠ 0) }
  if start = (h v).names side then .ok (mk none)
  else
    match callstackFrom g bt start v with
    | .error x => .error x
    | .ok cs => .ok (mk (some cs))

/-- The loop body for one side of a non-function difference, caching.py 516-556. -/
def nonfunEntity (g : Graph) (bt : Dict Vid (Vid × Edge)) (start : Str) (side : Side) (v : Vid) (d : NonFunDiff) :
    Except PyErr Entity :=
  let mk (calls : List Call) : Entity :=
    match d with
    | .syntax n _ _ _ => { name := n, callstack := some calls, kind := .syntactic }
    | .type n _ _ f l => { name := n, filename := some (f side), line := some (l side), callstack := some calls, kind := .type }
  if d.parentFun ≠ start then
    match callstackFrom g bt start v with
    | .error x => .error x
    | .ok cs => .ok (mk (cs ++ d.callstack side))
  else .ok (mk (d.callstack side))

/-- `syndiff_bodies[nonfun_diff.name] = nonfun_diff.body[side]`, lines 546-547. -/
def addBody (side : Side) (b : Dict Str Str) : NonFunDiff → Dict Str Str
  | .syntax n _ _ body => b.set n (body side)
  | .type _ _ _ _ _ => b

/-- Accumulators of the loop. -/
structure PairAcc where
  objs : List Obj := []
  bodiesL : Dict Str Str := []
  bodiesR : Dict Str Str := []

/-- Lines 514-559: the non-function differences of one function. -/
def addNonfuns (g : Graph) (btL btR : Dict Vid (Vid × Edge)) (f1 f2 : Str) (v : Vid) :
    PairAcc → List NonFunDiff → Except PyErr PairAcc
  | acc, [] => .ok acc
  | acc, d :: ds =>
    match nonfunEntity g btL f1 .left v d with
    | .error x => .error x
    | .ok a =>
      match nonfunEntity g btR f2 .right v d with
      | .error x => .error x
      | .ok b => addNonfuns g btL btR f1 f2 v
          { objs := acc.objs ++ [⟨a, b, .notEqual⟩]
            bodiesL := addBody .left acc.bodiesL d
            bodiesR := addBody .right acc.bodiesR d } ds

/-- The loop in lines 479-559. -/
def pairLoop (h : Heap) (g : Graph) (btL btR : Dict Vid (Vid × Edge)) (f1 f2 : Str) (full : Bool) :
    PairAcc → List Vid → Except PyErr PairAcc
  | acc, [] => .ok acc
  | acc, v :: vs =>
    if ((h v).result = .equal ∧ ¬ full = true) ∨ (h v).result = .assumedEqual then
      pairLoop h g btL btR f1 f2 full acc vs
    else
      match funEntity h g btL f1 .left v with
      | .error x => .error x
      | .ok a =>
        match funEntity h g btR f2 .right v with
        | .error x => .error x
        | .ok b =>
          match addNonfuns g btL btR f1 f2 v { acc with objs := acc.objs ++ [⟨a, b, (h v).result⟩] } (h v).nonfunDiffs with
          | .error x => .error x
          | .ok acc' => pairLoop h g btL btR f1 f2 full acc' vs

/-- `graph_to_fun_pair_list`, caching.py 462-560. The iteration order of a Python set is not specified: `enum` turns the
elements of `set(left) ∩ set(right)` into a list. -/
def funPairList (enum : List Vid → List Vid) (h : Heap) (g : Graph) (f1 f2 : Str) (full : Bool) :
    Except PyErr PairAcc :=
  match reachableFrom h g .left f1 with
  | .error x => .error x
  | .ok (rl, btL) =>
    match reachableFrom h g .right f2 with
    | .error x => .error x
    | .ok (rr, btR) =>
      pairLoop h g btL btR f1 f2 full {} (enum (rl.dedup.filter (fun v => decide (v ∈ rr))))

end DK
