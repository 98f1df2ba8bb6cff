import Verif.Model.Py

/-!
Model of how accesses to members of structures are compared by the names of the members:
diffkemp/simpll/DebugInfo.cpp (53-335) collects the names, and
diffkemp/simpll/DifferentialFunctionComparator.cpp (84-219) uses them.
-/

set_option autoImplicit false

namespace DK

/-- A member of a structure in the debug information (`DIDerivedType`), in bits. `align` is the
explicit alignment (0: none), `storage` the offset of the storage unit of a bit field.
Simplified: members of C structures are always derived types. -/
structure DMember where
  name : Str
  offset : Nat
  size : Nat
  align : Nat
  storage : Option Nat
  deriving DecidableEq

/-- `DebugInfo::isSameElemIndex`, lines 259-272. -/
def sameElemIndex (m : DMember) : Bool :=
  match m.storage with
  | some s => s != m.offset
  | none => false

/-- `DebugInfo::getTypeMemberIndex`, lines 282-304, from a given index and offset.
Simplified: the counter does not overflow; its wrap below zero is undone by the conversion of the
result to `int`. -/
def memberIndexGo (name : Str) : Int → Nat → List DMember → Int
  | _, _, [] => -1
  | index, next, m :: ms =>
    let index := if sameElemIndex m then index - 1 else index
    let index := if m.align ≠ 0 ∧ next % m.align ≠ 0 then index + 1 else index
    if m.name = name then index
    else memberIndexGo name (if m.size > 0 then index + 1 else index) (m.offset + m.size) ms

/-- `DebugInfo::getTypeMemberIndex`, lines 278-305. -/
def memberIndex (ms : List DMember) (name : Str) : Int := memberIndexGo name 0 0 ms

/-- `DebugInfo::getElementNameAtIndex`, lines 313-322, from a given index. -/
def elementNameGo (index : Nat) : Nat → List DMember → Str
  | _, [] => []
  | current, m :: ms =>
    let current := if m.offset > 0 && !sameElemIndex m then current + 1 else current
    if current = index then m.name else elementNameGo index current ms

/-- `DebugInfo::getElementNameAtIndex`, lines 309-323. -/
def elementName (ms : List DMember) (index : Nat) : Str := elementNameGo index 0 ms

/-- Types that can be indexed; structures have an identity (`StructType *`) and a name (empty for
structures without a name). -/
inductive FTy where
  | leaf (bytes : Nat)
  | arr (n : Nat) (elem : FTy)
  | struct (id : Nat) (name : Str) (elems : List FTy)

/-- An index of a GEP: a constant (`getZExtValue`) or another value. -/
inductive GIdx where
  | const (n : Nat)
  | var (v : Nat)
  deriving DecidableEq

/-- A GEP instruction: source element type and indices. The pointer operand is compared before. -/
structure Gep where
  src : FTy
  idxs : List GIdx

/-- The type of a component; only arrays have indices that are not constant. -/
def FTy.step : FTy → GIdx → Option FTy
  | .struct _ _ es, .const n => es[n]?
  | .arr _ e, _ => some e
  | _, _ => none

/-- The type after several steps. -/
def FTy.walk : FTy → List GIdx → Option FTy
  | t, [] => some t
  | t, i :: is => match t.step i with
    | some t' => FTy.walk t' is
    | none => none

/-- `GetElementPtrInst::getIndexedType`: the first index steps over the pointer. -/
def indexedType (t : FTy) (is : List GIdx) : Option FTy := t.walk (is.drop 1)

/-- `getStructTypeName`, lines 55-61: without `struct.` and without what follows the last dot. -/
def cTypeName (name : Str) : Str :=
  let n := name.drop 7
  if '.' ∈ n then (n.reverse.dropWhile (· ≠ '.')).tail.reverse else n

/-- What the collection of names reads: the debug information of the structures of both modules
(`getStructTypeInfo`, lines 63-75, the first with a name), and the structure types of the second
module by name (`getTypeByName`). -/
structure NameEnv where
  first : Str → Option (List DMember)
  second : Str → Option (List DMember)
  typeByName : Str → Option Nat

/-- The state of the collection: indices that were visited (the keys of `IndexMaps`) and
`StructFieldNames`. The numbers in `IndexMaps` and the metadata made from them are not read
anywhere. -/
structure NameSt where
  seen : List (Nat × Nat)
  names : Dict (Nat × Nat) Str

/-- `std::map::insert`: a known key keeps its value. -/
def insertName (d : Dict (Nat × Nat) Str) (k : Nat × Nat) (v : Str) : Dict (Nat × Nat) Str :=
  if (Dict.get? d k).isSome then d else d ++ [(k, v)]

/-- `(uint64_t)` of an `int`. -/
def toU64 (i : Int) : Nat := (i % 2 ^ 64).toNat

/-- `StructFieldNames.insert`, lines 173-187. -/
def recordNames (st : NameSt) (id index : Nat) (other : Option Nat) (indexSecond : Nat)
    (name : Str) : NameSt :=
  let names := insertName st.names (id, index) name
  match other with
  | some o => { st with names := insertName names (o, indexSecond) name }
  | none => { st with names := names }

/-- The structure type that the other GEP indexes, lines 98-108. -/
def otherStruct (other : Option Gep) (is : List GIdx) : Option Nat :=
  match other with
  | none => none
  | some o => match indexedType o.src is with
    | some (.struct id _ _) => some id
    | _ => none

/-- What is done with a constant index `n` of a structure, lines 112-189. The result also says
whether the loop goes on to the step of the other GEP (no `continue`). -/
def recordIndex (E : NameEnv) (id : Nat) (name : Str) (n : Nat) (other : Option Nat)
    (st : NameSt) : NameSt × Bool :=
  if (id, n) ∈ st.seen then (st, false)
  else
    let st := { st with seen := (id, n) :: st.seen }
    if name = [] then (st, false)
    else match E.first (cTypeName name), E.second (cTypeName name) with
      | some ms, some ms' =>
        let elem := elementName ms n
        let indexSecond := toU64 (memberIndex ms' elem)
        if indexSecond > 0 then
          (recordNames st id n (match other with | some o => some o | none => E.typeByName name)
            indexSecond elem, true)
        else (st, true)
      | _, _ => (st, false)

/-- Lines 112-189 for any index of a structure; others than constants are passed over. -/
def recordAny (E : NameEnv) (id : Nat) (name : Str) (i : GIdx) (other : Option Nat)
    (st : NameSt) : NameSt × Bool :=
  match i with
  | .const n => recordIndex E id name n other st
  | .var _ => (st, true)

/-- `DebugInfo::extractAlignmentFromInstructions`, lines 91-195: `rest` are the remaining indices,
`indices` those pushed so far (each iteration pushes the index *after* the current one, line 92),
`indicesOther` and `restOther` those of the other GEP. -/
def recordGo (E : NameEnv) (g : Gep) (other : Option Gep) :
    List GIdx → List GIdx → List GIdx → List GIdx → NameSt → NameSt
  | [], _, _, _, st => st
  | i :: rest, indices, indicesOther, restOther, st =>
    let next := indices ++ rest.head?.toList
    match indexedType g.src indices with
    | some (.struct id name _) =>
      let r := recordAny E id name i (otherStruct other indicesOther) st
      if r.2 then
        recordGo E g other rest next (indicesOther ++ restOther.head?.toList) restOther.tail r.1
      else recordGo E g other rest next indicesOther restOther r.1
    | _ => recordGo E g other rest next indicesOther restOther st

/-- `DebugInfo::extractAlignmentFromInstructions`, lines 79-197. -/
def recordGep (E : NameEnv) (g : Gep) (other : Option Gep) (st : NameSt) : NameSt :=
  recordGo E g other g.idxs [] [] (match other with | some o => o.idxs | none => []) st

/-- `DebugInfo::calculateGEPIndexAlignments`, lines 203-254: `gs` are the GEPs of the first module
in order, each with the GEP at the same position of the other function, if there is one. -/
def recordAll (E : NameEnv) (gs : List (Gep × Option Gep)) : NameSt :=
  gs.foldl (fun st g => recordGep E g.1 g.2 st) ⟨[], []⟩

/-- What the comparison of GEPs reads: the collected names, offsets in bytes for constant indices
in both modules (`accumulateConstantOffset`), equality of types (`cmpTypes`) and of values that are
not constant (`cmpValues`), and whether an index is of an enumeration type in both modules
(`getVariableTypeInfo`). -/
structure GepEnv where
  names : Dict (Nat × Nat) Str
  offsetL : FTy → List Nat → Int
  offsetR : FTy → List Nat → Int
  typeEq : FTy → FTy → Bool
  valueEq : Nat → Nat → Bool
  enumL : GIdx → Bool
  enumR : GIdx → Bool

/-- `cmpValues` on two indices. Simplified: a constant is not equal to another value, and patterns
for constants are not used. -/
def GepEnv.idxEq (E : GepEnv) : GIdx → GIdx → Bool
  | .const a, .const b => a == b
  | .var a, .var b => E.valueEq a b
  | _, _ => false

/-- All indices are equal, in the same number. -/
def GepEnv.idxsEq (E : GepEnv) : List GIdx → List GIdx → Bool
  | [], [] => true
  | i :: is, j :: js => E.idxEq i j && E.idxsEq is js
  | _, _ => false

/-- `hasAllConstantIndices`, with the constants. -/
def constIdxs : List GIdx → Option (List Nat)
  | [] => some []
  | .const n :: is => (constIdxs is).map (n :: ·)
  | .var _ :: _ => none

/-- `FunctionComparator::cmpGEPs` (llvm-lib/16/FunctionComparator.cpp 707-736). Simplified: address
spaces are equal. -/
def gepOrig (E : GepEnv) (l r : Gep) : Bool :=
  match constIdxs l.idxs, constIdxs r.idxs with
  | some is, some js => E.offsetL l.src is == E.offsetR r.src js
  | _, _ => E.typeEq l.src r.src && E.idxsEq l.idxs r.idxs

/-- Lines 177-206: one index of each GEP; `tl` and `tr` are the types that are indexed. -/
def nameStep (E : GepEnv) (tl tr : Option FTy) (i j : Nat) : Bool :=
  match tl, tr with
  | some (.struct a _ _), some (.struct b _ _) =>
    (match Dict.get? E.names (a, i), Dict.get? E.names (b, j) with
     | some x, some y => x == y
     | _, _ => false) || i == j
  | _, _ => i == j

/-- Lines 165-207: the loop over the indices; `pl` and `pr` are the indices before. -/
def namesGo (E : GepEnv) (l r : FTy) : List Nat → List Nat → List Nat → List Nat → Bool
  | pl, i :: is, pr, j :: js =>
    nameStep E (indexedType l (pl.map .const)) (indexedType r (pr.map .const)) i j
      && namesGo E l r (pl ++ [i]) is (pr ++ [j]) js
  | _, _, _, _ => true

/-- `DifferentialFunctionComparator::cmpGEPs`, lines 84-219, whether the result is zero.
Simplified: the GEPs are instructions (line 162). -/
def gepEq (structAlign : Bool) (E : GepEnv) (l r : Gep) : Bool :=
  gepOrig E l r || (structAlign &&
    match l.src, r.src with
    | .arr n e, .arr n' e' =>
      (match l.idxs, r.idxs with
       | [i₀, i₁], [j₀, j₁] =>
         n != n' && E.typeEq e e' && E.idxsEq [i₀, i₁] [j₀, j₁] && E.enumL i₁ && E.enumR j₁
       | _, _ => false)
    | .struct _ name _, .struct _ name' _ =>
      cTypeName name == cTypeName name' && l.idxs.length == r.idxs.length &&
        (match constIdxs l.idxs, constIdxs r.idxs with
         | some is, some js => namesGo E l.src r.src [] is [] js
         | _, _ => match l.idxs, r.idxs with
           | [i], [j] => E.idxEq i j
           | _, _ => false)
    | _, _ => false)

end DK
