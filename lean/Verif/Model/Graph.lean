import Verif.Model.Py

/-!
Model of `diffkemp/semdiff/caching.py`, class `ComparisonGraph`.

Vertices are Python objects with identity (they define no `__eq__`/`__hash__`), so a vertex is an id `Vid`
and its contents live in a heap `Vid → Vertex`. Graphs map names to ids.
-/

namespace DK

/-- `Result.Kind`, result.py 12-23. -/
inductive Kind where
  | none | equal | assumedEqual | notEqual | unknown | timeout | error
  deriving DecidableEq, Repr

/-- The integer value of the `IntEnum` members, result.py 17-23. -/
def Kind.toNat : Kind → Nat
  | .none => 0 | .equal => 1 | .assumedEqual => 2 | .notEqual => 3
  | .unknown => 4 | .timeout => 5 | .error => 6

/-- `ComparisonGraph.Side`, caching.py 21-24. -/
inductive Side where
  | left | right
  deriving DecidableEq, Repr

/-- Identity of a vertex object. -/
abbrev Vid := Nat

/-- `ComparisonGraph.Edge`, caching.py 172-189. The attribute `parent_vertex` is not stored: an edge is
always an element of the successor list of its parent (`add_successor`, 142-145, is the only code that stores
an edge and sets the parent), so the parent is known wherever an edge is reached.
`weak` is `kind == DependencyKind.WEAK`. -/
structure Edge where
  target : Str
  file : Str
  line : Nat
  weak : Bool
  deriving DecidableEq, Repr

/-- A call stack entry given by the engine for a non-function difference, `stack-first`/`stack-second`. -/
structure Call where
  name : Str
  file : Str
  line : Nat
  deriving DecidableEq, Repr

/-- `SyntaxDiff` and `TypeDiff`, caching.py 198-253. Pairs are functions of the side. -/
inductive NonFunDiff where
  | syntax (name parentFun : Str) (callstack : Side → List Call) (body : Side → Str)
  | type (name parentFun : Str) (callstack : Side → List Call) (file : Side → Str) (line : Side → Nat)

def NonFunDiff.name : NonFunDiff → Str
  | .syntax n _ _ _ => n
  | .type n _ _ _ _ => n
def NonFunDiff.parentFun : NonFunDiff → Str
  | .syntax _ p _ _ => p
  | .type _ p _ _ _ => p
def NonFunDiff.callstack : NonFunDiff → Side → List Call
  | .syntax _ _ c _ => c
  | .type _ _ c _ _ => c

/-- `FunctionStats`, caching.py 47-54: the three counters of one side. -/
structure Stats where
  instCnt : Nat
  instEqualCnt : Nat
  linesCnt : Nat
  deriving DecidableEq, Repr

/-- `ComparisonGraph.Vertex`, caching.py 65-93. Tuples over both modules are functions of `Side`;
`files` and `lines` may be missing (`None`). -/
structure Vertex where
  names : Side → Str
  result : Kind
  nonfunDiffs : List NonFunDiff := []
  succs : Side → List Edge := fun _ => []
  files : Side → Option Str
  lines : Side → Option Nat := fun _ => none
  stats : Side → Stats := fun _ => ⟨0, 0, 0⟩
  cachable : Bool := true
  prevents : List Vid := []
  preds : Side → List Vid := fun _ => []

/-- Contents of all vertex objects. -/
abbrev Heap := Vid → Vertex

/-- Mutation of one object. -/
def Heap.upd (h : Heap) (i : Vid) (v : Vertex) : Heap := fun j => if j = i then v else h j

/-- A reference to an edge object: parent vertex, side and position in the parent's list (lists only grow
at the end, caching.py 144, so positions are stable). -/
structure EdgeRef where
  parent : Vid
  side : Side
  idx : Nat
  deriving DecidableEq, Repr

/-- `ComparisonGraph` attributes, caching.py 255-266. `equalFuns` is a set of names. -/
structure Graph where
  vertices : Dict Str Vid := []
  equalFuns : List Str := []
  edgeCache : List EdgeRef := []
  weakCache : List Vid := []

/-- The suffix `".void"`. -/
def dotVoid : Str := str! ".void"

/-- `Vertex.same_file`, caching.py 151-152. -/
def Vertex.sameFile (v : Vertex) : Bool := v.files .left == v.files .right

/-- `Vertex.compare_vertex_priority`, caching.py 154-170 (`true` = the other vertex replaces this one). -/
def Vertex.comparePriority (self other : Vertex) : Bool :=
  if self.result = .assumedEqual ∨ self.result = .unknown then true
  else if !self.sameFile ∧ self.result = .notEqual ∧ other.result = .equal then true
  else if (other.succs .left).length > (self.succs .left).length then true
  else if (other.succs .right).length > (self.succs .right).length then true
  else false

/-- `__setitem__`, caching.py 271-276. -/
def Graph.setItem (h : Heap) (g : Graph) (name : Str) (v : Vid) : Graph :=
  { g with
    vertices := g.vertices.set name v
    equalFuns := if (h v).result = .equal then (h v).names .left :: g.equalFuns else g.equalFuns
    weakCache := if endsWith name dotVoid then g.weakCache ++ [v] else g.weakCache }

/-- `Vertex.add_successor`, caching.py 142-145. -/
def Vertex.addSucc (v : Vertex) (s : Side) (e : Edge) : Vertex :=
  { v with succs := fun t => if t = s then v.succs t ++ [e] else v.succs t }

/-- `add_edge`, caching.py 283-296. -/
def Graph.addEdge (h : Heap) (g : Graph) (v : Vid) (s : Side) (e : Edge) : Heap × Graph :=
  (h.upd v ((h v).addSucc s e),
   if endsWith e.target dotVoid then
     { g with edgeCache := g.edgeCache ++ [⟨v, s, ((h v).succs s).length⟩] }
   else g)

/-! ### Search, caching.py 298-342 -/

/-- Local variables of the search loop. `queue` is the deque: `appendleft` adds at the end of our list, `pop`
takes its head. `bt` is the backtracking map; it stores the edge together with its parent. -/
structure Search where
  visited : List Vid
  queue : List Vid
  result : List Vid
  bt : Dict Vid (Vid × Edge)

/-- The test in lines 327-328; `target.files[side]` is `None` for a function without file information and then
`.endswith` raises `AttributeError`. -/
def crossesBoundary (h : Heap) (side : Side) (orig : Option Str) (t : Vid) : Except PyErr Bool :=
  match (h t).files side with
  | none => .error .attributeError
  | some f => .ok (endsWith f (str! ".c") && orig != some f)

/-- The inner loop over the edges of `current`, lines 320-341. -/
def searchEdges (h : Heap) (g : Graph) (side : Side) (orig : Option Str) (current : Vid) :
    List Edge → Search → Except PyErr Search
  | [], st => .ok st
  | e :: es, st =>
    match g.vertices.get? e.target with
    | none => searchEdges h g side orig current es st
    | some t =>
      if t ∈ st.visited then searchEdges h g side orig current es st
      else
        match crossesBoundary h side orig t with
        | .error x => .error x
        | .ok true => searchEdges h g side orig current es st
        | .ok false =>
          searchEdges h g side orig current es
            { st with
              queue := st.queue ++ [t]
              bt := if st.bt.contains t then st.bt else st.bt.set t (current, e)
              result := if e.weak then st.result else st.result ++ [t] }

/-- One iteration of the outer loop, lines 317-341: `none` when the queue is empty. -/
def searchStep (h : Heap) (g : Graph) (side : Side) (orig : Option Str) (st : Search) :
    Except PyErr (Option Search) :=
  match st.queue with
  | [] => .ok none
  | current :: q =>
    match searchEdges h g side orig current ((h current).succs side)
        { st with queue := q, visited := current :: st.visited } with
    | .error x => .error x
    | .ok st' => .ok (some st')

end DK
