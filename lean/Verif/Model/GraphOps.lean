import Verif.Model.Search

/-! Model of the mutating operations of `ComparisonGraph` (caching.py 344-460) and of the import of the engine's
output (caching.py 101-140, simpll.py 181-211). -/

set_option autoImplicit false

namespace DK

/-! ### absorb_graph, caching.py 344-363 -/

/-- The loop in lines 360-361. -/
def resetCachable (h : Heap) : List Vid → Heap
  | [] => h
  | v :: vs => resetCachable (h.upd v { h v with cachable := true }) vs

/-- One iteration of the loop in lines 352-363. -/
def absorbOne (st : Heap × Graph) (nv : Str × Vid) : Heap × Graph :=
  let (h, g) := st
  let (name, v) := nv
  match g.vertices.get? name with
  | none => (h, g.setItem h name v)
  | some old =>
    if (h old).comparePriority (h v) then
      if (h old).result = .assumedEqual ∧ (h v).result ≠ .assumedEqual then
        let h' := resetCachable h (h old).prevents
        (h', g.setItem h' name v)
      else (h, g.setItem h name v)
    else (h, g)

/-- `absorb_graph`, caching.py 344-363. -/
def absorbGraph (h : Heap) (self other : Graph) : Heap × Graph :=
  other.vertices.foldl absorbOne (h, self)

/-! ### normalize, caching.py 365-413 -/

/-- `name[:-len(".void")]` -/
def stripVoid (n : Str) : Str := n.take (n.length - 5)

/-- Mutation of one edge object. -/
def Heap.updEdge (h : Heap) (r : EdgeRef) (f : Edge → Edge) : Heap :=
  h.upd r.parent { h r.parent with
    succs := fun t => if t = r.side then ((h r.parent).succs t).modify r.idx f else (h r.parent).succs t }

/-- Lines 388-392: the edges of the parent (both sides) whose target is `n` become weak. -/
def Heap.weakenTo (h : Heap) (p : Vid) (n : Str) : Heap :=
  h.upd p { h p with succs := fun t => ((h p).succs t).map (fun e => if e.target = n then { e with weak := true } else e) }

/-- One iteration of the loop in lines 377-395. -/
def normalizeEdge (g : Graph) (h : Heap) (r : EdgeRef) : Except PyErr Heap :=
  match ((h r.parent).succs r.side)[r.idx]? with
  | none => .error .indexError
  | some e =>
    match g.vertices.get? e.target with
    | none => .error .keyError
    | some v =>
      let n := stripVoid e.target
      let h1 := if (h v).result = .equal
        then (h.updEdge r (fun e => { e with weak := true })).weakenTo r.parent n else h
      .ok (h1.updEdge r (fun e => { e with target := n }))

/-- The loop in lines 377-395. -/
def normalizeEdges (g : Graph) (h : Heap) : List EdgeRef → Except PyErr Heap
  | [] => .ok h
  | r :: rs =>
    match normalizeEdge g h r with
    | .error x => .error x
    | .ok h' => normalizeEdges g h' rs

/-- Lines 399-402. -/
def pointedName (v : Vertex) : Str :=
  if endsWith (v.names .left) dotVoid then v.names .left else v.names .right

/-- Lines 408-412: strengthening of a weak vertex. -/
def strengthen (v : Vertex) : Vertex :=
  { v with
    names := fun _ => stripVoid (pointedName v)
    result := if v.result = .equal then .assumedEqual else v.result }

/-- One iteration of the loop in lines 398-413; `self[non_pointed_name] = weak_vertex` may append the vertex to the list
that is being iterated over, which is reported by the last component. -/
def normalizeVertex (h : Heap) (g : Graph) (w : Vid) : Except PyErr (Heap × Graph × List Vid) :=
  let p := pointedName (h w)
  let n := stripVoid p
  match g.vertices.get? p with
  | none => .error .keyError
  | some _ =>
    let g1 := { g with vertices := g.vertices.erase p }
    match g1.vertices.get? n with
    | some _ => .ok (h, g1, [])
    | none =>
      let h1 := h.upd w (strengthen (h w))
      let g2 := g1.setItem h1 n w
      .ok (h1, g2, if endsWith n dotVoid then [w] else [])

/-- The loop in lines 398-413 over a list that can grow while it is iterated over. `fuel` bounds the number of
iterations; `none` means that it did not suffice. -/
def normalizeVertices : Nat → Heap → Graph → List Vid → Option (Except PyErr (Heap × Graph))
  | _, h, g, [] => some (.ok (h, g))
  | 0, _, _, _ :: _ => none
  | n + 1, h, g, w :: ws =>
    match normalizeVertex h g w with
    | .error x => some (.error x)
    | .ok (h', g', more) => normalizeVertices n h' g' (ws ++ more)

/-- Enough iterations: every iteration removes a list entry or shortens the name of the vertex (proved in
`normalizeVertices_fuel`). -/
def normalizeFuel (h : Heap) (ws : List Vid) : Nat :=
  (ws.map (fun w => (pointedName (h w)).length + 1)).sum

/-- `normalize`, caching.py 365-413. -/
def normalize (h : Heap) (g : Graph) : Except PyErr (Heap × Graph) :=
  match normalizeEdges g h g.edgeCache with
  | .error x => .error x
  | .ok h1 =>
    match normalizeVertices (normalizeFuel h1 g.weakCache) h1 g g.weakCache with
    | some r => r
    | none => .error .valueError

/-! ### populate_predecessor_lists and mark_uncachable_from_assumed_equal, caching.py 415-460 -/

/-- Lines 419-424 for one edge. -/
def addPred (g : Graph) (side : Side) (v : Vid) (h : Heap) (e : Edge) : Heap :=
  match g.vertices.get? e.target with
  | none => h
  | some t => h.upd t { h t with preds := fun s => if s = side then (h t).preds s ++ [v] else (h t).preds s }

/-- The loops over sides and edges for one vertex, lines 418-424. -/
def addPreds (g : Graph) (h : Heap) (v : Vid) : Heap :=
  let h1 := ((h v).succs .left).foldl (addPred g .left v) h
  ((h1 v).succs .right).foldl (addPred g .right v) h1

/-- `populate_predecessor_lists`, caching.py 415-424. -/
def populatePreds (h : Heap) (g : Graph) : Heap :=
  g.vertices.values.foldl (addPreds g) h

/-- `files[side].endswith(".h")`, raising `AttributeError` without file information. -/
def inHeader (h : Heap) (side : Side) (v : Vid) : Except PyErr Bool :=
  match (h v).files side with
  | none => .error .attributeError
  | some f => .ok (endsWith f (str! ".h"))

/-- State of the reversed search of lines 446-460. -/
structure Mark where
  heap : Heap
  visited : List Vid
  queue : List Vid

/-- Lines 459-460: `p` becomes uncachable because of `v`. -/
def Heap.markOne (h : Heap) (v p : Vid) : Heap :=
  let h1 := h.upd p { h p with cachable := false }
  h1.upd v { h1 v with prevents := (h1 v).prevents ++ [p] }

/-- The inner loop, lines 452-460; `v` is the assumed-equal vertex the search was started in. -/
def markPreds (v : Vid) : List Vid → Mark → Except PyErr Mark
  | [], st => .ok st
  | p :: ps, st =>
    if p ∈ st.visited then markPreds v ps st
    else
      match inHeader st.heap .left p with
      | .error x => .error x
      | .ok false => markPreds v ps st
      | .ok true => markPreds v ps { st with queue := st.queue ++ [p], heap := st.heap.markOne v p }

/-- One iteration of the loop in lines 449-460. -/
def markStep (v : Vid) (st : Mark) : Except PyErr (Option Mark) :=
  match st.queue with
  | [] => .ok none
  | current :: q =>
    match markPreds v ((st.heap current).preds .left) { st with queue := q, visited := current :: st.visited } with
    | .error x => .error x
    | .ok st' => .ok (some st')

/-- The loop in lines 449-460, at most `fuel` iterations (`none`: still running; C13 proves that it ends). -/
def markLoop (v : Vid) : Nat → Mark → Option (Except PyErr Mark)
  | 0, _ => none
  | n + 1, st =>
    match markStep v st with
    | .error x => some (.error x)
    | .ok none => some (.ok st)
    | .ok (some st') => markLoop v n st'

/-- The loop body of lines 440-460. -/
def markFrom (fuel : Nat) (h : Heap) (v : Vid) : Option (Except PyErr Heap) :=
  if (h v).result ≠ .assumedEqual then some (.ok h)
  else
    match inHeader h .left v with
    | .error x => some (.error x)
    | .ok true => some (.ok h)
    | .ok false =>
      match markLoop v fuel { heap := h, visited := [], queue := [v] } with
      | none => none
      | some (.error x) => some (.error x)
      | some (.ok st) => some (.ok st.heap)

/-- `mark_uncachable_from_assumed_equal`, caching.py 426-460, over the list of vertices. -/
def markAll (fuel : Nat) (h : Heap) : List Vid → Option (Except PyErr Heap)
  | [] => some (.ok h)
  | v :: vs =>
    match markFrom fuel h v with
    | none => none
    | some (.error x) => some (.error x)
    | some (.ok h') => markAll fuel h' vs

/-! ### Import of the engine's output -/

/-- `FunctionInfo` in the YAML output, Output.cpp 55-66: an empty list of calls is omitted. -/
structure FunInfo where
  function : Str
  file : Option Str
  line : Option Nat := none
  stats : Stats := ⟨0, 0, 0⟩
  calls : Option (List Edge)

/-- `Result` in the YAML output, Output.cpp 113-120. The differing objects are given as they are imported: an object has
a body (syntax difference) or a file (type difference), see Output.cpp 80-88; `Result.Kind.from_string` has been
applied to the result. -/
structure FunResult where
  result : Kind
  first : FunInfo
  second : FunInfo
  diffs : List NonFunDiff := []

/-- `Vertex.from_yaml` without the calls, caching.py 107-116 and 128-139. -/
def FunResult.vertex (r : FunResult) : Vertex :=
  { names := fun s => match s with | .left => r.first.function | .right => r.second.function
    result := r.result
    files := fun s => match s with | .left => r.first.file | .right => r.second.file
    lines := fun s => match s with | .left => r.first.line | .right => r.second.line
    stats := fun s => match s with | .left => r.first.stats | .right => r.second.stats
    nonfunDiffs := r.diffs }

/-- Adding a list of calls, caching.py 122-127 (with a parent graph). -/
def addCalls (v : Vid) (s : Side) (st : Heap × Graph) (es : List Edge) : Heap × Graph :=
  es.foldl (fun st e => st.2.addEdge st.1 v s e) st

/-- `Vertex.from_yaml` with `parent_graph`, caching.py 101-140; the new object gets the id `v`. The test for calls looks at
the left function only and then both are read. -/
def vertexFromYaml (v : Vid) (st : Heap × Graph) (r : FunResult) : Except PyErr (Heap × Graph) :=
  let h := st.1.upd v r.vertex
  match r.first.calls with
  | none => .ok (h, st.2)
  | some cl =>
    match r.second.calls with
    | none => .error .keyError
    | some cr => .ok (addCalls v .right (addCalls v .left (h, st.2) cl) cr)

/-- The key under which a result is stored, simpll.py 197-202. -/
def FunResult.key (r : FunResult) : Str :=
  if '.' ∈ r.first.function then r.first.function else r.second.function

/-- No object has been created yet. -/
def emptyHeap : Heap := fun _ => { names := fun _ => [], result := .none, files := fun _ => none }

/-- The loop in simpll.py 187-202; new objects get the ids `base`, `base + 1`, … -/
def importResults : Vid → Heap × Graph → List FunResult → Except PyErr (Heap × Graph)
  | _, st, [] => .ok st
  | v, st, r :: rs =>
    match vertexFromYaml v st r with
    | .error x => .error x
    | .ok (h, g) => importResults (v + 1) (h, g.setItem h r.key v) rs

end DK
