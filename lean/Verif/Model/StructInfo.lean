import Verif.Model.Text
import Verif.Model.Py

/-!
Model of the search for debug information of structures (diffkemp/simpll/passes/StructureDebugInfoAnalysis.cpp), of the types
on the way of a field access (diffkemp/simpll/FieldAccessUtils.cpp 18-109) and of the report of differences between structures
(diffkemp/simpll/DifferentialFunctionComparator.cpp 1352-1429).
-/

set_option autoImplicit false

namespace DK

/-- A node of debug information that describes a type: a derived type with its base, a composite type with its tag, name,
elements that are types, file and line, or another type. `decl` marks a forward declaration (the analysis does not look
at it). -/
inductive DieNode where
  | derived (base : Option Nat)
  | composite (isStruct decl : Bool) (name : Str) (elems : List Nat) (file : Str) (line : Nat)
  | other
deriving DecidableEq

/-- What is pushed on the stack for a node, in order (StructureDebugInfoAnalysis.cpp 50-65). -/
def DieNode.next : DieNode → List Nat
  | .derived none => []
  | .derived (some b) => [b]
  | .composite _ _ _ es _ _ => es
  | .other => []

/-- The entry that a node makes (StructureDebugInfoAnalysis.cpp 54-58). -/
def DieNode.enter (k : DieNode) (n : Nat) (res : Dict Str Nat) : Dict Str Nat :=
  match k with
  | .composite true _ name _ _ _ => if name = [] then res else Dict.set res name n
  | _ => res

/-- The number of nodes that were not processed yet. -/
def dieUnvisited (g : List DieNode) (done : List Nat) : Nat :=
  ((List.range g.length).filter (fun n => !done.contains n)).length

theorem dieUnvisited_le (g : List DieNode) (done : List Nat) (n : Nat) : dieUnvisited g (n :: done) ≤ dieUnvisited g done := by
  unfold dieUnvisited
  apply List.Sublist.length_le
  apply List.monotone_filter_right
  intro a h
  simp only [List.contains_cons, Bool.not_or, Bool.and_eq_true, Bool.not_eq_true'] at h ⊢
  exact h.2

theorem dieUnvisited_lt (g : List DieNode) (done : List Nat) (n : Nat) (hn : n < g.length) (hd : done.contains n = false) :
    dieUnvisited g (n :: done) < dieUnvisited g done := by
  unfold dieUnvisited
  have h1 : (List.range g.length).filter (fun m => !(n :: done).contains m)
      = ((List.range g.length).filter (fun m => !done.contains m)).filter (fun m => decide (m ≠ n)) := by
    rw [List.filter_filter]
    apply List.filter_congr
    intro m _
    simp only [List.contains_cons, Bool.not_or, ne_eq, decide_not]
    congr 1
  rw [h1]
  apply List.length_filter_lt_length_iff_exists.mpr
  refine ⟨n, ?_, by simp⟩
  rw [List.mem_filter]
  exact ⟨List.mem_range.mpr hn, by rw [hd]; rfl⟩

/-- The search in one compile unit (StructureDebugInfoAnalysis.cpp 42-67). The first element is the top of the stack.
A number that is not in the graph stands for a type without further types. -/
def dieSearch (g : List DieNode) : List Nat → List Nat → Dict Str Nat → Dict Str Nat
  | [], _, res => res
  | n :: st, done, res =>
    if hd : done.contains n = true then dieSearch g st done res
    else if hn : n < g.length then
      dieSearch g ((g[n]).next.reverse ++ st) (n :: done) ((g[n]).enter n res)
    else dieSearch g st (n :: done) res
termination_by st done _ => (dieUnvisited g done, st.length)
decreasing_by
  · exact Prod.Lex.right _ (by simp)
  · exact Prod.Lex.left _ _ (dieUnvisited_lt g done n hn (by simpa using hd))
  · rcases Nat.lt_or_eq_of_le (dieUnvisited_le g done n) with h | h
    · exact Prod.Lex.left _ _ h
    · rw [h]; exact Prod.Lex.right _ (by simp)

/-- Debug information of a module: the nodes and, for each compile unit, its retained types and the types of its global
variables. -/
structure DieMod where
  nodes : List DieNode
  units : List (List Nat × List Nat)

/-- `StructureDebugInfoAnalysis::run`, StructureDebugInfoAnalysis.cpp 20-70. -/
def structInfo (d : DieMod) : Dict Str Nat :=
  d.units.foldl (fun res u => dieSearch d.nodes (u.1 ++ u.2).reverse [] res) []

/-- A recorded difference of structures (Result.h 132-143). -/
structure TypeDiff where
  name : Str
  fileL : Str
  fileR : Str
  lineL : Int
  lineR : Int
deriving DecidableEq

/-- The file and the recorded line of a node (DifferentialFunctionComparator.cpp 1410-1416); the directory is left out. -/
def diePos (d : DieMod) (n : Nat) : Str × Int :=
  match d.nodes[n]? with
  | some (.composite _ _ _ _ f l) => (f, (l : Int) - 1)
  | _ => ([], 0)

/-- The name of the structure in the report (DifferentialFunctionComparator.cpp 1391-1393). -/
def structKey (name : Str) : Str :=
  if (str! "struct.").isPrefixOf name then name.drop 7 else name

/-- `findTypeDifference`, DifferentialFunctionComparator.cpp 1384-1429. `differ` is the result of the comparison of the
types; the call stacks and the name of the function are left out. -/
def findTypeDifference (dl dr : DieMod) (differ : Str → Str → Bool) (l r : Str) : Option TypeDiff :=
  if differ l r then
    match Dict.get? (structInfo dl) (structKey l), Dict.get? (structInfo dr) (structKey l) with
    | some a, some b => some ⟨structKey l, (diePos dl a).1, (diePos dr b).1, (diePos dl a).2, (diePos dr b).2⟩
    | _, _ => none
  else none

/-- One step of the loop of `findTypeDifferences`, DifferentialFunctionComparator.cpp 1361-1379. A source type is `none` if it
is not a structure with a name. -/
def typePairDifference (dl dr : DieMod) (differ : Str → Str → Bool) (p : Option Str × Option Str) : Option TypeDiff :=
  match p with
  | (some l, some r) => if stem l = stem r then findTypeDifference dl dr differ l r else none
  | _ => none

/-- `findTypeDifferences`, DifferentialFunctionComparator.cpp 1354-1381. -/
def findTypeDifferences (dl dr : DieMod) (differ : Str → Str → Bool) (tl tr : List (Option Str)) : List TypeDiff :=
  (tl.zip tr).filterMap (typePairDifference dl dr differ)

/-- Kinds of instructions of field accesses: a GEP with its source type and the source type of a constant GEP in its pointer,
a cast (marked if it is `ptrtoint`), or another instruction. -/
inductive FaKind where
  | gep (src : Option Str) (inner : Option (Option Str))
  | cast (toInt : Bool)
  | other
deriving DecidableEq

/-- An instruction: its number, its kind and the number of the instruction that is its first operand. -/
structure FaInst where
  id : Nat
  kind : FaKind
  op : Option Nat
deriving DecidableEq

/-- `isFollowingFieldAccessInstruction`, FieldAccessUtils.cpp 77-85. -/
def faFollows (i : FaInst) (last : Nat) : Bool :=
  (match i.kind with
    | .gep _ _ => true
    | .cast t => !t
    | .other => false) && i.op == some last

/-- What a GEP adds to the types (FieldAccessUtils.cpp 95-106). -/
def FaInst.types (i : FaInst) : List (Option Str) :=
  match i.kind with
  | .gep s none => [s]
  | .gep s (some t) => [s, t]
  | _ => []

/-- The loop of `getFieldAccessSourceTypes`, FieldAccessUtils.cpp 91-107, after an instruction of the access. -/
def sourceTypesAfter : Nat → List FaInst → List (Option Str)
  | _, [] => []
  | last, i :: rest =>
    if faFollows i last then i.types ++ sourceTypesAfter i.id rest else sourceTypesAfter last rest

/-- `getFieldAccessSourceTypes`, FieldAccessUtils.cpp 88-109, for a block from the first instruction of the access up to its
terminator. -/
def sourceTypes : List FaInst → List (Option Str)
  | [] => []
  | i :: rest => i.types ++ sourceTypesAfter i.id rest

/-- `getFieldAccessStart`, FieldAccessUtils.cpp 20-44, in instructions from the newest to the oldest, so that operands are later
in the list. -/
def accessStart : List FaInst → Nat → Option Nat
  | [], _ => none
  | i :: rest, v =>
    if i.id = v then
      match i.kind, i.op with
      | .cast _, some o => accessStart rest o
      | .cast _, none => none
      | .gep _ _, some o => some ((accessStart rest o).getD i.id)
      | .gep _ _, none => some i.id
      | .other, _ => none
    else accessStart rest v

end DK
