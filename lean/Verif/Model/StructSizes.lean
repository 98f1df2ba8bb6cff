import Verif.Model.Text

/-! Sizes of structures (simpll/passes/StructureSizeAnalysis.cpp) and the comparison of constants by them
(simpll/DifferentialFunctionComparator.cpp 868-885). -/

set_option autoImplicit false

namespace DK

/-- A structure type with a name: whether its size is known (`isSized`), and its size in bytes (`getTypeAllocSize`). -/
structure SizedStruct where
  name : Str
  sized : Bool
  size : Nat
  deriving DecidableEq, Repr

/-- The order of names in a `std::set` of strings. -/
def nameLt : Str → Str → Bool
  | [], [] => false
  | [], _ :: _ => true
  | _ :: _, [] => false
  | a :: as, b :: bs => if a.toNat < b.toNat then true else if a = b then nameLt as bs else false

/-- `std::set::insert` for names, kept in order, StructureSizeAnalysis.cpp 34 and 37. -/
def putName (n : Str) : List Str → List Str
  | [] => [n]
  | x :: xs => if n = x then x :: xs else if nameLt n x then n :: x :: xs else x :: putName n xs

/-- Lines 32-39: a structure is put to the names of its size. -/
def addSize (n : Str) (size : Nat) : List (Nat × List Str) → List (Nat × List Str)
  | [] => [(size, [n])]
  | e :: es => if e.1 = size then (e.1, putName n e.2) :: es else e :: addSize n size es

/-- `StructureSizeAnalysis::run`, lines 19-44, for the structures with names of a module (25); from the result `acc`. -/
def structSizes (acc : List (Nat × List Str)) : List SizedStruct → List (Nat × List Str)
  | [] => acc
  | t :: ts => structSizes (if t.sized then addSize t.name t.size acc else acc) ts

/-- `StructSizeMap.find` -/
def findSize (size : Nat) : List (Nat × List Str) → Option (List Str)
  | [] => none
  | e :: es => if e.1 = size then some e.2 else findSize size es

/-- `int IntL = ..->getZExtValue()` (873-874) and back to an unsigned number with 64 bits for the search (875-876). -/
def sizeAsInt (v : Nat) : Nat :=
  if v % 2 ^ 32 < 2 ^ 31 then v % 2 ^ 32 else 2 ^ 64 - 2 ^ 32 + v % 2 ^ 32

/-- Lines 871-884, for the constants `v` and `w` and the structures of both modules: found equal. -/
def equalBySizes (l r : List SizedStruct) (v w : Nat) : Bool :=
  match findSize (sizeAsInt v) (structSizes [] l), findSize (sizeAsInt w) (structSizes [] r) with
  | some a, some b => a = b
  | _, _ => false

end DK
