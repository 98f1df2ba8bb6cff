import Mathlib.Data.List.Basic

/-!
Model of the comparison of sequences of field accesses
(diffkemp/simpll/DifferentialFunctionComparator.cpp 1431-1501, FieldAccessUtils.cpp 46-71) with the
part of the comparison of blocks that calls it (DifferentialFunctionComparator.cpp 955-987) and the
replacement of casts and address computations that add nothing (757-784).

Blocks have address computations with constant indices, casts between pointers, and other
instructions. Simplified: constants and globals are part of the code of an instruction or arguments,
address computations with variable indices are other instructions, and the patterns that compare
members by name, reorder operations or group variables are off.
-/

set_option autoImplicit false

namespace DK

/-- An operand: an argument of the function or the result of an instruction. -/
inductive FVal where
  | arg (n : Nat)
  | inst (pos : Nat)
  deriving DecidableEq

/-- An instruction: `GetElementPtrInst` with the offset (as unsigned 64-bit number) that
`accumulateConstantOffset` returns, a cast between pointers, and any other instruction. -/
inductive FInst where
  | gep (ptr : FVal) (off : Nat)
  | cast (v : FVal)
  | op (code : Nat) (args : List FVal)
  deriving DecidableEq

/-- The serial numbers of one side, `sn_mapL` or `sn_mapR`. -/
abbrev SnMap := List (FVal × Nat)

/-- `sn_mapL`, `sn_mapR` and `replacedInstructions` (positions, for each side). The replacement of an
instruction is always its first operand (lines 540, 546, 581). -/
structure FSt where
  snL : SnMap
  snR : SnMap
  replL : List Nat
  replR : List Nat
  deriving DecidableEq

/-- `DifferentialFunctionComparator::getReplacementValue`, lines 759-784. Simplified: `isZeroGEP`
(Utils.cpp 229-240) is true if the offset is zero. -/
def replaceOnce (prog : List FInst) (repl : List Nat) (m : SnMap) : FVal → Option FVal
  | .arg _ => none
  | .inst i =>
    let use (w : FVal) : Option FVal :=
      if i ∈ repl then some w
      else match w with
        | .arg _ => some w
        | .inst _ => if (m.lookup w).isSome then some w else none
    match prog[i]? with
    | some (.cast w) => use w
    | some (.gep w 0) => use w
    | _ => none

/-- The repeated replacements in `DifferentialFunctionComparator::cmpValues`, lines 1540-1547. The
operands of an instruction come before it, so that there are at most as many replacements as
instructions. -/
def replaceAll (prog : List FInst) (repl : List Nat) (m : SnMap) : Nat → FVal → FVal
  | 0, v => v
  | fuel + 1, v =>
    match replaceOnce prog repl m v with
    | none => v
    | some w => replaceAll prog repl m fuel w

/-- `try_emplace` with the current size (llvm-lib/16/FunctionComparator.cpp 800-801). -/
def giveNumber (m : SnMap) (v : FVal) : SnMap × Nat :=
  match m.lookup v with
  | some n => (m, n)
  | none => (m ++ [(v, m.length)], m.length)

/-- `DifferentialFunctionComparator::cmpValues`, lines 1540-1550, and the numbers in
`FunctionComparator::cmpValues` (llvm-lib/16/FunctionComparator.cpp 800-803). -/
def cmpFVal (L R : List FInst) (st : FSt) (l r : FVal) : Bool × FSt :=
  let l := replaceAll L st.replL st.snL L.length l
  let r := replaceAll R st.replR st.snR R.length r
  let a := giveNumber st.snL l
  let b := giveNumber st.snR r
  (a.2 == b.2, { st with snL := a.1, snR := b.1 })

/-- The loop over the operands in `cmpOperationsWithOperands`, lines 1839-1847. -/
def cmpFVals (L R : List FInst) (st : FSt) : List FVal → List FVal → Bool × FSt
  | l :: ls, r :: rs =>
    let a := cmpFVal L R st l r
    if a.1 then cmpFVals L R a.2 ls rs else a
  | _, _ => (true, st)

/-- What is compared after the numbers of two instructions (llvm-lib/16/FunctionComparator.cpp
541-570, DifferentialFunctionComparator.cpp 1836-1850). -/
def cmpBodies (L R : List FInst) (st : FSt) : FInst → FInst → Bool × FSt
  | .gep p o, .gep q o' =>
    let a := cmpFVal L R st p q
    if a.1 then (o == o', a.2) else a
  | .cast v, .cast w => cmpFVal L R st v w
  | .op c as, .op c' as' =>
    if c = c' ∧ as.length = as'.length then cmpFVals L R st as as' else (false, st)
  | _, _ => (false, st)

/-- `cmpOperationsWithOperands`, lines 1808-1852, for the instructions at positions `i` and `j`. -/
def cmpFInst (L R : List FInst) (st : FSt) (i j : Nat) (l r : FInst) : Bool × FSt :=
  let a := cmpFVal L R st (.inst i) (.inst j)
  if a.1 then cmpBodies L R a.2 l r else a

/-- The conversion of an offset to `int` and back to `uint64_t` (FieldAccessUtils.cpp 64,
DifferentialFunctionComparator.cpp 1469 and 1477). -/
def throughInt (o : Nat) : Nat :=
  let k := o % 2 ^ 32
  if k < 2 ^ 31 then k else k + (2 ^ 64 - 2 ^ 32)

/-- The loop of `cmpFieldAccess`, lines 1464-1483, for one side: `ls` are the instructions from
position `i`, `p` is the current pointer and `acc` the sum of the offsets. Results are the sum, the
position, the pointer and the instructions after the access. -/
def accessGo : List FInst → Nat → FVal → Nat → Nat × Nat × FVal × List FInst
  | .gep q o :: ls, i, p, acc =>
    if q = p then accessGo ls (i + 1) (.inst i) ((acc + throughInt o) % 2 ^ 64)
    else (acc, i, p, .gep q o :: ls)
  | .cast q :: ls, i, p, acc =>
    if q = p then accessGo ls (i + 1) (.inst i) acc else (acc, i, p, .cast q :: ls)
  | ls, i, p, acc => (acc, i, p, ls)

/-- `DifferentialFunctionComparator::cmpFieldAccess`, lines 1434-1498. -/
def cmpAccess (L R : List FInst) (st : FSt) (i j : Nat) (ls rs : List FInst) :
    Option (Nat × List FInst × Nat × List FInst) × FSt :=
  match ls, rs with
  | .gep p _ :: _, .gep q _ :: _ =>
    let a := cmpFVal L R st p q
    if a.1 then
      let x := accessGo ls i p 0
      let y := accessGo rs j q 0
      if x.1 = y.1 then
        (some (x.2.1, x.2.2.2, y.2.1, y.2.2.2), (cmpFVal L R a.2 x.2.2.1 y.2.2.1).2)
      else (none, a.2)
    else (none, a.2)
  | _, _ => (none, st)

/-- `maySkipInstruction`, lines 538-548. -/
def maySkipF : FInst → Bool
  | .cast _ => true
  | .gep _ o => o == 0
  | .op _ _ => false

/-- `undoLastInstCompare`, lines 811-819. -/
def undoF (st : FSt) (i j : Nat) : FSt :=
  { st with snL := st.snL.filter (·.1 ≠ .inst i), snR := st.snR.filter (·.1 ≠ .inst j) }

/-- Skipped instructions become replaced ones (lines 540, 546, 581). -/
def skipF (st : FSt) (i j : Nat) (l r : FInst) : FSt :=
  { undoF st i j with
    replL := if maySkipF l then i :: st.replL else st.replL
    replR := if maySkipF r then j :: st.replR else st.replR }

/-- The loop of `cmpBasicBlocks`, lines 910-1070: `ls` and `rs` are the instructions from positions
`i` and `j`. Every iteration passes at least one instruction, so that the number of instructions of
both blocks and one more is enough `fuel`. -/
def cmpFGo (L R : List FInst) : Nat → FSt → Nat → List FInst → Nat → List FInst → Bool
  | 0, _, _, _, _, _ => false
  | fuel + 1, st, i, l :: ls, j, r :: rs =>
    let a := cmpFInst L R st i j l r
    if a.1 then cmpFGo L R fuel a.2 (i + 1) ls (j + 1) rs
    else
      let b := cmpAccess L R a.2 i j (l :: ls) (r :: rs)
      match b.1 with
      | some (i', ls', j', rs') => cmpFGo L R fuel b.2 i' ls' j' rs'
      | none =>
        if maySkipF l || maySkipF r then
          cmpFGo L R fuel (skipF b.2 i j l r) (if maySkipF l then i + 1 else i)
            (if maySkipF l then ls else l :: ls) (if maySkipF r then j + 1 else j)
            (if maySkipF r then rs else r :: rs)
        else false
  | _ + 1, _, _, [], _, [] => true
  | _ + 1, _, _, _, _, _ => false

/-- The arguments are numbered first (`compare`, llvm-lib/16/FunctionComparator.cpp 876-882). -/
def argNumbers (n : Nat) : SnMap := (List.range n).map fun k => (.arg k, k)

/-- The comparison of two functions with `n` arguments and one block each. -/
def cmpFBlocks (n : Nat) (L R : List FInst) : Bool :=
  cmpFGo L R (L.length + R.length + 1) ⟨argNumbers n, argNumbers n, [], []⟩ 0 L 0 R

end DK
