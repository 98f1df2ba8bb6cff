import Verif.Model.Py

/-!
Model of the alias check of SimpLL (Utils.cpp) and of the functions that decide whether a load or a store
may be skipped by the comparison (DifferentialFunctionComparator.cpp: `maySkipLoad`, `maySkipStore`).
Functions are lists of blocks of instructions that matter for memory; all other instructions are `op`.
Not modelled: volatile accesses, debug information other than debug calls, unreachable loads without block.
-/

set_option autoImplicit false

namespace DK

mutual
/-- Types of memory: scalars with a size in bytes, arrays, structures. -/
inductive LTy where
  | cell (size : Nat)
  | arr (n : Nat) (t : LTy)
  | struct (fs : LFields)
/-- Fields of a structure, each with the padding before it. -/
inductive LFields where
  | nil
  | cons (pad : Nat) (t : LTy) (rest : LFields)
end

/-- An index of a GEP instruction: a constant or the value of an instruction or argument. -/
inductive PIdx where
  | const (n : Int)
  | var (x : Nat)
  deriving DecidableEq, Repr

/-- A pointer value. `id` identifies the value: pointers are the same `Value *` iff their ids are equal.
`other` is any value that is neither an alloca nor a GEP instruction. -/
inductive MPtr where
  | alloca (id : Nat)
  | gep (id : Nat) (ty : LTy) (base : MPtr) (idx : List PIdx)
  | other (id : Nat)

/-- The identity of a value. -/
def MPtr.id : MPtr → Nat
  | .alloca i => i
  | .gep i _ _ _ => i
  | .other i => i

/-- `getAllocaFromPtr`, Utils.cpp 930-942. -/
def getAllocaFromPtr : MPtr → Option Nat
  | .alloca i => some i
  | .gep _ _ b _ => getAllocaFromPtr b
  | .other _ => none

/-- The loop over the indices in `mayAlias`, Utils.cpp 916-928. `true`: constant indices differ. -/
def indicesDiverge : List PIdx → List PIdx → Bool
  | .const m :: is, .const n :: js => if m ≠ n then true else indicesDiverge is js
  | _ :: is, _ :: js => indicesDiverge is js
  | _, _ => false

/-- `mayAlias`, Utils.cpp 896-928. -/
def mayAlias (l r : MPtr) : Bool :=
  match getAllocaFromPtr l, getAllocaFromPtr r with
  | some a, some b =>
    if a ≠ b then false
    else
      match l, r with
      | .gep _ _ _ is, .gep _ _ _ js => !(indicesDiverge is js)
      | _, _ => true
  | _, _ => true

/-- An operand: a constant or a value. -/
inductive MVal where
  | const (n : Int)
  | val (p : MPtr)

/-- Instructions. `atomic` is an atomic read-modify-write of the memory at `p`. `op` is any instruction
without effect on memory that computes a value from its operands. -/
inductive MInst where
  | load (id : Nat) (p : MPtr) (w : Nat)
  | store (id : Nat) (v : MVal) (p : MPtr) (w : Nat)
  | call (id : Nat) (debug : Bool) (args : List MVal)
  | atomic (id : Nat) (p : MPtr) (w : Nat)
  | op (id : Nat) (args : List MVal)

/-- `mayStoreTo`, Utils.cpp 879-894. -/
def mayStoreTo (i : MInst) (p : MPtr) : Bool :=
  match i with
  | .store _ _ q _ => mayAlias q p
  | .call _ debug _ => !debug
  | _ => false

/-- A basic block: instructions (without the terminator) and successors. -/
structure MBlock where
  insts : List MInst
  succs : List Nat

/-- A function: the first block is its entry. -/
abbrev MFun := List MBlock

/-- The instructions of a block. -/
def MFun.insts (f : MFun) (b : Nat) : List MInst := (f[b]?.map MBlock.insts).getD []

/-- The successors of a block. -/
def MFun.succs (f : MFun) (b : Nat) : List Nat := (f[b]?.map MBlock.succs).getD []

/-- `predecessors(BB)` of LLVM; in LLVM their order is that of the uses of the block. -/
def MFun.preds (f : MFun) (b : Nat) : List Nat :=
  (List.range f.length).filter fun a => (f.succs a).contains b

/-- What an instruction offers as replacement for a load from the pointer with identity `p`: the first part
of the loop body in `maySkipLoad`, DifferentialFunctionComparator.cpp 653-667. -/
def replacementCandidate (ign : Nat → Bool) (p : Nat) : MInst → Option MVal
  | .load id q _ => if p = q.id then some (.val (.other id)) else none
  | .store id v q _ => if ign id = true ∧ q.id = p then some v else none
  | _ => none

/-- Result of looking through a block. -/
inductive Scan where
  | conflict
  | found (v : MVal)
  | pass

/-- The loop over the instructions of a block in `maySkipLoad`, 643-683, on the reversed instructions. The
case that a second replacement is found is left to the caller. -/
def scanBack (ign : Nat → Bool) (p : MPtr) : List MInst → Scan
  | [] => .pass
  | i :: is =>
    match replacementCandidate ign p.id i with
    | some v => .found v
    | none => if mayStoreTo i p then .conflict else scanBack ign p is

/-- Queueing the unvisited predecessors, 693-699: new visited blocks and new part of the queue. -/
def queuePreds : List Nat → List Nat → List Nat × List Nat
  | [], vis => (vis, [])
  | b :: bs, vis =>
    if vis.contains b then queuePreds bs vis
    else
      let r := queuePreds bs (b :: vis)
      (r.1, b :: r.2)

/-- The search of `maySkipLoad`, 632-709: blocks still to do, visited blocks and replacement. `start` is the
position of the load while its block is the current one (the flag `first`). `fuel` bounds the number of
rounds: theorem `C90_ends` shows that the bound is never reached (outer `none`). -/
def skipSearch (f : MFun) (ign : Nat → Bool) (p : MPtr) :
    Nat → Option Nat → List Nat → List Nat → Option MVal → Option (Option MVal)
  | 0, _, _, _, _ => none
  | _ + 1, _, [], _, repl => some repl
  | fuel + 1, start, b :: queue, vis, repl =>
    let is := match start with
      | some j => (f.insts b).take j
      | none => f.insts b
    match scanBack ign p is.reverse with
    | .conflict => some none
    | .found v =>
      if repl.isSome then some none else skipSearch f ign p fuel none queue vis (some v)
    | .pass =>
      if (f.preds b).isEmpty then some none
      else
        let r := queuePreds (f.preds b) vis
        skipSearch f ign p fuel none (queue ++ r.2) r.1 repl

/-- `maySkipLoad`, 619-710, for the load at position `j` of block `b`; the result is the replacement that is
added to the replaced instructions, if the load may be skipped. -/
def maySkipLoad (f : MFun) (ign : Nat → Bool) (b j : Nat) : Option (Option MVal) :=
  match (f.insts b)[j]? with
  | some (.load _ p _) => skipSearch f ign p (f.length + 2) (some j) [b] [b] none
  | _ => some none

/-- The sets of skipped and of ignored instructions. -/
structure SkipSt where
  skipped : List Nat
  ignored : List Nat
  deriving DecidableEq, Repr

/-- `maySkipStore`, 712-743. -/
def maySkipStore (groupVars : Bool) (i : MInst) (st : SkipSt) : Bool × SkipSt :=
  match i with
  | .store id _ p _ =>
    if groupVars = false then (false, st)
    else
      match getAllocaFromPtr p with
      | none => (false, st)
      | some a =>
        if st.skipped.contains a then
          (true, { skipped := st.skipped.filter (· ≠ a), ignored := id :: a :: st.ignored })
        else if st.ignored.contains a then (true, { st with ignored := id :: st.ignored })
        else (false, st)
  | _ => (false, st)

end DK
