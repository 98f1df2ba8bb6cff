import Verif.Model.Py

/-!
Model of the comparison of basic blocks in DifferentialFunctionComparator.cpp with the patterns for
reordered binary operations, inverse conditions, relocated code and casts. Code consists of integer
operations, comparisons, loads, stores, calls, casts, phis and terminators. Not modelled: allocas, address computations and field accesses, skipped loads and stores (see Model/Loads.lean),
macros, custom patterns, differences of types that other patterns allow, and debug information.
-/

set_option autoImplicit false

namespace DK

/-- The reorderable operations, Utils.cpp 265-278. -/
inductive BOp where
  | add | mul | band | bor | xor
  deriving DecidableEq, Repr

/-- Predicates of comparisons: of integers, and of floating-point numbers as sets of outcomes (1: equal,
2: greater, 4: less, 8: unordered). -/
inductive Pred where
  | eq | ne | ugt | uge | ult | ule | sgt | sge | slt | sle
  | f (m : Fin 16)
  deriving DecidableEq, Repr

/-- `CmpInst::getInversePredicate` of LLVM. -/
def Pred.inverse : Pred → Pred
  | .eq => .ne | .ne => .eq
  | .ugt => .ule | .ule => .ugt
  | .ult => .uge | .uge => .ult
  | .sgt => .sle | .sle => .sgt
  | .slt => .sge | .sge => .slt
  | .f m => .f (15 - m)

/-- Casts between integers, and others. -/
inductive CastOp where
  | zext | sext | trunc
  | other (k : Nat)
  deriving DecidableEq, Repr

/-- What an instruction does: `arith` are the other binary operations, `pure` other instructions without
effect, `other` other instructions with effect; the numbers stand for opcodes and special state. The
called function of a call is part of it. -/
inductive DCode where
  | bin (o : BOp)
  | arith (c : Nat)
  | cmp (p : Pred)
  | cast (k : CastOp)
  | pure (c : Nat)
  | load
  | store
  | call (f : Nat)
  | other (c : Nat)
  | phi
  | ret
  | jump
  | branch
  deriving DecidableEq, Repr

/-- Values with serial numbers: instructions and arguments, and blocks. -/
inductive DKey where
  | val (id : Nat)
  | blk (b : Nat)
  deriving DecidableEq, Repr

/-- An operand with its type (the width; 0 for others): a constant with its value as a signed number,
an instruction or argument, or a block. -/
inductive DOp where
  | const (w : Nat) (v : Int)
  | ref (id w : Nat)
  | blk (b : Nat)
  deriving DecidableEq, Repr

def DOp.ty : DOp → Nat
  | .const w _ => w
  | .ref _ w => w
  | .blk _ => 0

def DOp.key : DOp → Option DKey
  | .const _ _ => none
  | .ref a _ => some (.val a)
  | .blk b => some (.blk b)

/-- An instruction. Operands of a conditional branch are the condition, the block for false and the
block for true, those of a phi are the incoming values (`inc`: their blocks). -/
structure DInst where
  id : Nat
  code : DCode
  ty : Nat
  ops : List DOp
  inc : List Nat := []
  deriving DecidableEq, Repr

/-- Patterns that are switched on, and what `isDependingOnReloc` answers after it has left the block. -/
structure DCfg where
  reorder : Bool
  inverse : Bool
  reloc : Bool
  past : Bool

inductive Prog where
  | first | second
  deriving DecidableEq, Repr

/-- `RelocationInfo`, DifferentialFunctionComparator.h 177-194. Positions are the instructions that
remain in their block. -/
inductive Reloc where
  | none
  | stored (prog : Prog) (begin_ : List DInst) (end_ : Nat)
  | matching (prog : Prog) (end_ : Nat) (restore : List DInst)

/-- The state of a comparison: serial numbers, `mappedValuesBySn`, ignored and replaced instructions,
inverse conditions, branches of the second program whose successors were swapped, phis to compare, the
relocation. -/
structure DSt where
  snL : List (DKey × Nat)
  snR : List (DKey × Nat)
  mapped : List (Nat × (DKey × DKey))
  ignL : List Nat
  ignR : List Nat
  repL : List (Nat × DOp)
  repR : List (Nat × DOp)
  inv : List (Option DKey × Option DKey)
  swapped : List Nat
  phis : List (Nat × Nat)
  reloc : Reloc

/-- The two compared functions: all of their instructions. -/
structure DPair where
  allL : List DInst
  allR : List DInst

/-- A bound for recursions over instructions. -/
def DPair.depth (P : DPair) : Nat := P.allL.length + P.allR.length + 1

/-- The phi with a key. -/
def phiKey (all : List DInst) : DKey → Option Nat
  | .val a => ((all.find? fun i => i.id == a).filter fun i => decide (i.code = .phi)).map DInst.id
  | .blk _ => none

/-- `insert({key, size()})` of a serial-number map. -/
def snInsert (k : DKey) (m : List (DKey × Nat)) : List (DKey × Nat) :=
  if (m.lookup k).isSome then m else m ++ [(k, m.length)]

/-- `erase` of a key. -/
def snErase (k : DKey) (m : List (DKey × Nat)) : List (DKey × Nat) := m.filter fun p => decide (p.1 ≠ k)

/-- Removal of a block that was just inserted, lines 1567-1572. -/
def snFix (k : DKey) (m : List (DKey × Nat)) : List (DKey × Nat) :=
  if (m.lookup k) = some (m.length - 1) then snErase k m else m

/-- `FunctionComparator::cmpValues` for values with serial numbers (llvm-lib/16, 800-803), and what
follows it in DifferentialFunctionComparator.cpp 1547-1592: blocks that do not correspond are taken as
equal, new pairs are recorded. -/
def cmpRefs (P : DPair) (a b : DKey) (st : DSt) : Bool × DSt :=
  let l := snInsert a st.snL
  let r := snInsert b st.snR
  if l.lookup a = r.lookup b then
    if st.snL.length + 1 = l.length then
      let st' := { st with snL := l, snR := r, mapped := (st.snL.length, (a, b)) :: st.mapped }
      match phiKey P.allL a, phiKey P.allR b with
      | some p, some q => (true, { st' with phis := st'.phis ++ [(p, q)] })
      | none, none => (true, st')
      | _, _ => (false, st')
    else (true, { st with snL := l, snR := r })
  else match a, b with
    | .blk _, .blk _ =>
      if l.length ≠ r.length then (true, { st with snL := snFix a l, snR := snFix b r })
      else (true, { st with snL := l, snR := r })
    | _, _ => (false, { st with snL := l, snR := r })

/-- Is the operand an ignored instruction? -/
def ignoredOp (ign : List Nat) : DOp → Bool
  | .ref a _ => decide (a ∈ ign)
  | _ => false

/-- The replacement of an operand. -/
def replacedOp (rep : List (Nat × DOp)) : DOp → Option DOp
  | .ref a _ => rep.lookup a
  | _ => none

/-- Comparison of operands that are not replaced. -/
def cmpPlainD (P : DPair) (l r : DOp) (st : DSt) : Bool × DSt :=
  match l.key, r.key with
  | some a, some b => cmpRefs P a b st
  | none, none => (decide (l = r), st)
  | _, _ => (false, st)

/-- `DifferentialFunctionComparator::cmpValues`, lines 1504-1593, with the number of replacements that
may follow each other. -/
def cmpVals (P : DPair) : Nat → DOp → DOp → DSt → Bool × DSt
  | n, l, r, st =>
    if ignoredOp st.ignL l || ignoredOp st.ignR r then (false, st)
    else if (replacedOp st.repL l).isSome || (replacedOp st.repR r).isSome then
      match n with
      | 0 => (false, st)
      | n + 1 => cmpVals P n ((replacedOp st.repL l).getD l) ((replacedOp st.repR r).getD r) st
    else cmpPlainD P l r st

/-- The loop over operands of `cmpOperationsWithOperands`, lines 1837-1854. -/
def cmpOpList (P : DPair) : List DOp → List DOp → DSt → Bool × DSt
  | a :: as, b :: bs, st =>
    let x := cmpVals P P.depth a b st
    if x.1 then cmpOpList P as bs x.2 else (false, x.2)
  | _, _, st => (true, st)

/-- What the basic comparator compares before the operands (llvm-lib/16, 544-702): opcode and special
state, number of operands, type, types of operands. -/
def sameHead (l r : DInst) : Bool :=
  decide (l.code = r.code) && decide (l.ty = r.ty) && decide (l.ops.map DOp.ty = r.ops.map DOp.ty)

/-- The condition of a conditional branch. -/
def branchCond (i : DInst) : Option DKey :=
  match i.code with
  | .branch => i.ops.head?.bind DOp.key
  | _ => none

/-- The users of an instruction in its function. -/
def usersOf (all : List DInst) (i : Nat) : List DInst :=
  all.filter fun u => u.ops.any fun o => match o with | .ref a _ => a == i | _ => false

/-- `isLogicalNot`, Utils.cpp 246-260. -/
def isNot (i : DInst) : Bool :=
  decide (i.code = .bin .xor) && decide (i.ty = 1) &&
  (match i.ops with
   | [_, .const _ v] => decide (v = -1)
   | _ => false)

/-- `checkInverseCondUsers`, lines 2116-2129; the number bounds the depth of the recursion. -/
def invUsersOk (all : List DInst) : Nat → Nat → Bool
  | 0, _ => false
  | n + 1, i => (usersOf all i).all fun u =>
      if isNot u then invUsersOk all n u.id else decide (u.code = .branch)

/-- Predicate of a comparison. -/
def predOf (i : DInst) : Option Pred :=
  match i.code with
  | .cmp p => some p
  | _ => none

/-- Can the comparisons be recorded as inverse? Lines 375-387. -/
def mayInvert (P : DPair) (l r : DInst) : Bool :=
  match predOf l, predOf r with
  | some p, some q => decide (l.ops.map DOp.ty = r.ops.map DOp.ty) && decide (p = q.inverse) &&
      invUsersOk P.allL P.depth l.id && invUsersOk P.allR P.depth r.id
  | _, _ => false

/-- Are the instructions conditional branches with conditions recorded as inverse? Lines 326-333. -/
def inverseBranches (l r : DInst) (st : DSt) : Bool :=
  match branchCond l, branchCond r with
  | some c, some d => decide ((some c, some d) ∈ st.inv)
  | _, _ => false

/-- Operands of a branch with its successors swapped. -/
def swapOps : List DOp → List DOp
  | [c, x, y] => [c, y, x]
  | ops => ops

/-- Operands of an instruction of the second program: the code swaps successors of branches. -/
def curOps (swapped : List Nat) (i : DInst) : List DOp :=
  if i.code = .branch ∧ swapped.count i.id % 2 = 1 then swapOps i.ops else i.ops

/-- `cmpOperations` and `cmpOperationsWithOperands`, lines 263-394 and 1808-1858. Phis are not compared
here and get no serial numbers. Successors of the branch of the second program are swapped before the
operands are compared. -/
def cmpInsts (cfg : DCfg) (P : DPair) (l r : DInst) (st : DSt) : Bool × DSt :=
  if l.code = .phi ∧ r.code = .phi then (true, st) else
  let x := cmpVals P P.depth (.ref l.id l.ty) (.ref r.id r.ty) st
  let st := x.2
  if inverseBranches l r st then
    cmpOpList P l.ops (curOps (r.id :: st.swapped) r) { st with swapped := r.id :: st.swapped }
  else if x.1 && sameHead l r then cmpOpList P l.ops (curOps st.swapped r) st
  else if cfg.inverse && mayInvert P l r then
    cmpOpList P l.ops r.ops { st with inv := (some (.val l.id), some (.val r.id)) :: st.inv }
  else (false, st)

/-- `undoLastInstCompare`, lines 811-819. -/
def undoLast (l r : Nat) (st : DSt) : DSt :=
  let snL := snErase (.val l) st.snL
  { st with snL := snL, snR := snErase (.val r) st.snR,
            mapped := st.mapped.filter fun m => m.1 != snL.length }

/-- The operation of a reorderable binary operation, `isReorderableBinaryOp`, Utils.cpp 265-278. -/
def binOf (i : DInst) : Option BOp :=
  match i.code with
  | .bin o => some o
  | _ => none

/-- `maySkipReorderableBinaryOp`, lines 745-751. -/
def maySkipBin (all : List DInst) (i : DInst) : Bool :=
  match binOf i with
  | some o => (usersOf all i.id).all fun u => decide (u.code = .bin o)
  | none => false

/-- Is a binary operation among the users of a cast, or of casts of it? Lines 597-611. -/
def castArith (all : List DInst) : Nat → Nat → Bool
  | 0, _ => true
  | n + 1, i => (usersOf all i).any fun u => match u.code with
    | .bin _ => true
    | .arith _ => true
    | .cast _ => castArith all n u.id
    | _ => false

/-- `maySkipCast` for casts between integers, lines 584-614. -/
def maySkipCast (all : List DInst) (n : Nat) (i : DInst) : Option DOp :=
  match i.code, i.ops with
  | .cast _, [o] => if o.ty ≤ i.ty && !castArith all n i.id then some o else none
  | _, _ => none

/-- `maySkipInstruction` for the first program, lines 515-556. -/
def maySkipL (cfg : DCfg) (P : DPair) (i : DInst) (st : DSt) : Bool × DSt :=
  if cfg.reorder && maySkipBin P.allL i then (true, { st with ignL := i.id :: st.ignL })
  else match maySkipCast P.allL P.depth i with
    | some o => (true, { st with repL := (i.id, o) :: st.repL })
    | none => (false, st)

/-- `maySkipInstruction` for the second program. -/
def maySkipR (cfg : DCfg) (P : DPair) (i : DInst) (st : DSt) : Bool × DSt :=
  if cfg.reorder && maySkipBin P.allR i then (true, { st with ignR := i.id :: st.ignR })
  else match maySkipCast P.allR P.depth i with
    | some o => (true, { st with repR := (i.id, o) :: st.repR })
    | none => (false, st)

/-- The leaf case of `collectBinaryOperands`, lines 2101-2107. -/
def collectLeaf (sn : List (DKey × Nat)) (k : DKey) : Option (List Nat × List Int) :=
  match sn.lookup k with
  | some k => if k + 1 = sn.length then none else some ([k], [])
  | none => none

/-- `collectBinaryOperands`, lines 2069-2109; the number bounds the depth of the recursion. -/
def collectBin (all : List DInst) (rep : List (Nat × DOp)) (sn : List (DKey × Nat)) (o : BOp) :
    Nat → DOp → Option (List Nat × List Int)
  | 0, _ => none
  | n + 1, v =>
    match (replacedOp rep v).getD v with
    | .const _ c => some ([], [c])
    | .blk b => collectLeaf sn (.blk b)
    | .ref a _ =>
      match all.find? (fun i => i.id == a) with
      | some i =>
        match i.code, i.ops with
        | .bin o', [x, y] =>
          if o' = o then
            match collectBin all rep sn o n x, collectBin all rep sn o n y with
            | some (s, c), some (s', c') => some (s ++ s', c ++ c')
            | _, _ => collectLeaf sn (.val a)
          else collectLeaf sn (.val a)
        | _, _ => collectLeaf sn (.val a)
      | none => collectLeaf sn (.val a)

/-- Are two reorderable operations equal up to the order of their operands? Lines 992-1008. Multisets
are lists up to order. -/
def reorderedEq (P : DPair) (l r : DInst) (st : DSt) : Bool :=
  match binOf l, binOf r with
  | some o, some o' =>
    decide (o = o') &&
    (match collectBin P.allL st.repL st.snL o P.depth (.ref l.id l.ty),
           collectBin P.allR st.repR st.snR o P.depth (.ref r.id r.ty) with
     | some (s, c), some (s', c') => s.isPerm s' && c.isPerm c'
     | _, _ => false)
  | _, _ => false

/-- `getMappedValue`, lines 1955-1970. -/
def mappedOf (left : Bool) (v : Option DKey) (st : DSt) : Option DKey :=
  v.bind fun k => ((if left then st.snL else st.snR).lookup k).bind fun n =>
    (st.mapped.lookup n).map fun p => if left then p.2 else p.1

/-- Removal of an inverse condition, or insertion of another one, lines 1058-1060. -/
def toggleInv (prev cond : Option DKey × Option DKey) (st : DSt) : DSt :=
  if prev ∈ st.inv then { st with inv := st.inv.filter fun p => decide (p ≠ prev) }
  else { st with inv := cond :: st.inv }

/-- The replacement of a logical not by its operand. -/
def notRep (i : DInst) : List (Nat × DOp) :=
  match i.ops.head? with
  | some o => [(i.id, o)]
  | none => []

/-- Skipping of a logical not of the first program, lines 1037-1060. -/
def skipNotL (l : DInst) (st : DSt) : DSt :=
  let x := l.ops.head?.bind DOp.key
  let m := mappedOf true x st
  toggleInv (x, m) (some (.val l.id), m) { st with repL := notRep l ++ st.repL }

/-- Skipping of a logical not of the second program. -/
def skipNotR (r : DInst) (st : DSt) : DSt :=
  let x := r.ops.head?.bind DOp.key
  let m := mappedOf false x st
  toggleInv (m, x) (m, some (.val r.id)) { st with repR := notRep r ++ st.repR }

/-- The pointer operand of a load. -/
def loadPtr (i : DInst) : Option DOp :=
  match i.code, i.ops with
  | .load, [p] => some p
  | _, _ => none

/-- The pointer operand of a store. -/
def storePtr (i : DInst) : Option DOp :=
  match i.code, i.ops with
  | .store, [_, p] => some p
  | _, _ => none

/-- The loop of `isDependingOnReloc`, lines 2049-2061: the end is tested only after the first
instruction, and the end of the block is not tested (`past`). -/
def dependLoop (past : Bool) (end_ : Nat) : Option DOp → Option DOp → List DInst → Bool
  | _, _, [] => past
  | ld, st, i :: is =>
    let ld := match ld with | some p => some p | none => loadPtr i
    let st := match st with | some p => some p | none => storePtr i
    if ld.isSome && ld == st then true
    else match is with
      | [] => past
      | j :: _ => if j.id = end_ then false else dependLoop past end_ ld st is

/-- `isDependingOnReloc`, lines 2042-2064. -/
def isDepending (past : Bool) (begin_ : List DInst) (end_ : Nat) (i : DInst) : Bool :=
  if (loadPtr i).isSome || (storePtr i).isSome then
    dependLoop past end_ (loadPtr i) (storePtr i) begin_
  else false

/-- The search of `findMatchingOpWithOffset`, lines 1998-2031, in the second program; the result has the
place where the search ended and whether a relocation was found. The serial numbers are restored after
an instruction that does not match, other parts of the state are not. When the found instruction depends
on the code before it, neither the place nor the serial numbers are restored (2012-2013). -/
def searchR (cfg : DCfg) (P : DPair) (begin_ : List DInst) (l : DInst) :
    Nat → List DInst → DSt → Option (List DInst × DSt × Bool)
  | _, [], _ => none
  | prev, r :: rs, st =>
    let x := cmpInsts cfg P l r st
    if x.1 then
      if isDepending cfg.past begin_ prev r then some (r :: rs, x.2, false)
      else some (r :: rs, { x.2 with reloc := .stored .second begin_ prev }, true)
    else searchR cfg P begin_ l r.id rs { x.2 with snL := st.snL, snR := st.snR, mapped := st.mapped }

/-- The same in the first program. -/
def searchL (cfg : DCfg) (P : DPair) (begin_ : List DInst) (r : DInst) :
    Nat → List DInst → DSt → Option (List DInst × DSt × Bool)
  | _, [], _ => none
  | prev, l :: ls, st =>
    let x := cmpInsts cfg P l r st
    if x.1 then
      if isDepending cfg.past begin_ prev l then some (l :: ls, x.2, false)
      else some (l :: ls, { x.2 with reloc := .stored .first begin_ prev }, true)
    else searchL cfg P begin_ r l.id ls { x.2 with snL := st.snL, snR := st.snR, mapped := st.mapped }

/-- The condition for trying the second search, and the searches, lines 1115-1120: `none` if nothing was
found. When the search in the second program fails because of a dependency, the search in the first one
starts with the moved instruction. -/
def findReloc (cfg : DCfg) (P : DPair) (l : DInst) (ls : List DInst) (r : DInst) (rs : List DInst)
    (st : DSt) : Option (List DInst × List DInst × DSt) :=
  let st := undoLast l.id r.id st
  let fromL := fun (iR : List DInst) (st : DSt) =>
    match iR with
    | [] => none
    | r :: rs =>
      let st := undoLast l.id r.id st
      match searchL cfg P (l :: ls) r l.id ls st with
      | some (iL, st, true) => some (iL, r :: rs, st)
      | _ => none
  match searchR cfg P (r :: rs) l r.id rs st with
  | some (iR, st, true) => some (l :: ls, iR, st)
  | some (iR, st, false) => fromL iR st
  | none => fromL (r :: rs) st

/-- What happens after two instructions were found different, lines 960-1124 (`none`: the blocks
differ): the places to continue, and the state. -/
def afterDiff (cfg : DCfg) (P : DPair) (l : DInst) (ls : List DInst) (r : DInst) (rs : List DInst)
    (st : DSt) : Option (List DInst × List DInst × DSt) :=
  let a := maySkipL cfg P l st
  let b := maySkipR cfg P r a.2
  let st := b.2
  if a.1 || b.1 then
    some (if a.1 then ls else l :: ls, if b.1 then rs else r :: rs, undoLast l.id r.id st)
  else if cfg.reorder && reorderedEq P l r st then some (ls, rs, st)
  else if cfg.inverse && isNot l && invUsersOk P.allL P.depth l.id then
    some (ls, r :: rs, skipNotL l (undoLast l.id r.id st))
  else if cfg.inverse && isNot r && invUsersOk P.allR P.depth r.id && !isNot l then
    some (l :: ls, rs, skipNotR r (undoLast l.id r.id st))
  else match st.reloc with
    | .stored .first begin_ end_ =>
      some (begin_, r :: rs, { undoLast l.id r.id st with reloc := .matching .first end_ (l :: ls) })
    | .stored .second begin_ end_ =>
      some (l :: ls, begin_, { undoLast l.id r.id st with reloc := .matching .second end_ (r :: rs) })
    | .matching _ _ _ => none
    | .none =>
      if cfg.reloc then
        (findReloc cfg P l ls r rs st).map fun x => (x.1.tail, x.2.1.tail, x.2.2)
      else none

/-- What happens after two instructions were found equal, lines 1125-1158. -/
def afterEq (cfg : DCfg) (l : DInst) (ls : List DInst) (r : DInst) (rs : List DInst) (st : DSt) :
    Option (List DInst × List DInst × DSt) :=
  match st.reloc with
  | .stored .first begin_ end_ => if isDepending cfg.past begin_ end_ l then none else some (ls, rs, st)
  | .stored .second begin_ end_ => if isDepending cfg.past begin_ end_ r then none else some (ls, rs, st)
  | .matching .first end_ restore =>
    if l.id = end_ then some (restore, rs, { st with reloc := .none }) else some (ls, rs, st)
  | .matching .second end_ restore =>
    if r.id = end_ then some (ls, restore, { st with reloc := .none }) else some (ls, rs, st)
  | .none => some (ls, rs, st)

/-- The loop of `cmpBasicBlocks`, lines 911-1165. The number bounds the steps; `none` if it does not
suffice. -/
def cmpBlocks (cfg : DCfg) (P : DPair) : Nat → List DInst → List DInst → DSt → Option (Bool × DSt)
  | _, [], [], st => some (true, st)
  | _, [], _ :: _, st => some (false, st)
  | _, _ :: _, [], st => some (false, st)
  | 0, _ :: _, _ :: _, _ => none
  | n + 1, l :: ls, r :: rs, st =>
    let x := cmpInsts cfg P l r st
    match (if x.1 then afterEq cfg l ls r rs x.2 else afterDiff cfg P l ls r rs x.2) with
    | some (ls', rs', st') => cmpBlocks cfg P n ls' rs' st'
    | none => some (false, x.2)

/-- A block. -/
structure DBlock where
  id : Nat
  code : List DInst

/-- A function: the arguments with their types, and the blocks, the first of them is the entry. -/
structure DFun where
  args : List (Nat × Nat)
  blocks : List DBlock

def DFun.find (f : DFun) (b : Nat) : Option DBlock := f.blocks.find? fun B => B.id == b

def DFun.all (f : DFun) : List DInst := f.blocks.flatMap DBlock.code

/-- Blocks among operands of a terminator, the first successor is the last operand. -/
def succsOf (ops : List DOp) : List Nat :=
  (ops.filterMap fun o => match o with | .blk b => some b | _ => none).reverse

/-- Successors of a block after some branches were swapped. -/
def DBlock.succs (swapped : List Nat) (B : DBlock) : List Nat :=
  match B.code.getLast? with
  | some t => succsOf (curOps swapped t)
  | none => []

/-- Lines 918-924 of the basic comparator (llvm-lib/16): unvisited successors of the left block. -/
def pushPairs : List Nat → List Nat → List (Nat × Nat) → List Nat → List (Nat × Nat) × List Nat
  | a :: as, b :: bs, work, visited =>
    if a ∈ visited then pushPairs as bs work visited
    else pushPairs as bs ((a, b) :: work) (a :: visited)
  | _, _, work, visited => (work, visited)

/-- The loop over pairs of blocks of `FunctionComparator::compare`, llvm-lib/16, 904-926. -/
def cmpPairs (cfg : DCfg) (l r : DFun) (steps : Nat) :
    Nat → List (Nat × Nat) → List Nat → DSt → Option (Bool × DSt)
  | _, [], _, st => some (true, st)
  | 0, _ :: _, _, _ => none
  | n + 1, (b, b') :: work, visited, st =>
    match l.find b, r.find b' with
    | some B, some B' =>
      let x := cmpVals ⟨l.all, r.all⟩ 0 (.blk b) (.blk b') st
      match cmpBlocks cfg ⟨l.all, r.all⟩ steps B.code B'.code x.2 with
      | none => none
      | some (false, st) => some (false, st)
      | some (true, st) =>
        let p := pushPairs (B.succs []) (B'.succs st.swapped) work visited
        cmpPairs cfg l r steps n p.1 p.2 st
    | _, _ => some (false, st)

/-- The serial number of a block by `operator[]`, which inserts 0. -/
def snBlock (b : Nat) (m : List (DKey × Nat)) : Nat × List (DKey × Nat) :=
  match m.lookup (.blk b) with
  | some n => (n, m)
  | none => (0, m ++ [(.blk b, 0)])

/-- The inner loop of `cmpPHIs`, lines 1789-1799: an incoming value of the left phi. -/
def findIncoming (P : DPair) (b : Nat) (v : DOp) : List (Nat × DOp) → DSt → Bool × DSt
  | [], st => (false, st)
  | (b', v') :: rest, st =>
    let x := snBlock b st.snL
    let y := snBlock b' st.snR
    let st := { st with snL := x.2, snR := y.2 }
    if x.1 = y.1 then
      let z := cmpVals P P.depth v v' st
      if z.1 then (true, z.2) else findIncoming P b v rest z.2
    else findIncoming P b v rest st

/-- The outer loop. -/
def findAllIncoming (P : DPair) (r : List (Nat × DOp)) : List (Nat × DOp) → DSt → Bool × DSt
  | [], st => (true, st)
  | (b, v) :: rest, st =>
    let x := findIncoming P b v r st
    if x.1 then findAllIncoming P r rest x.2 else (false, x.2)

/-- `cmpPHIs`, lines 1782-1804. -/
def cmpPhis (P : DPair) (p q : Nat) (st : DSt) : Bool × DSt :=
  match P.allL.find? (fun i => i.id == p), P.allR.find? (fun i => i.id == q) with
  | some l, some r =>
    if l.ops.length ≠ r.ops.length then (false, st)
    else findAllIncoming P (r.inc.zip r.ops) (l.inc.zip l.ops) st
  | _, _ => (false, st)

/-- The loop over phis at the end of `compare`, lines 56-59. Phis that are added meanwhile are not
compared. -/
def cmpAllPhis (P : DPair) : List (Nat × Nat) → DSt → Bool
  | [], _ => true
  | (p, q) :: rest, st => (cmpPhis P p q st).1 && cmpAllPhis P rest (cmpPhis P p q st).2

/-- The state after the arguments were compared, with the branches that were swapped by earlier
comparisons of the same functions (the code changes the functions themselves). -/
def startSt (l r : DFun) (swapped : List Nat) : DSt :=
  { snL := (l.args.map fun a => DKey.val a.1).zipIdx, snR := (r.args.map fun a => DKey.val a.1).zipIdx,
    mapped := (l.args.zip r.args).zipIdx.map fun p => (p.2, (.val p.1.1.1, .val p.1.2.1)),
    ignL := [], ignR := [], repL := [], repR := [], inv := [], swapped := swapped, phis := [],
    reloc := .none }

/-- `DifferentialFunctionComparator::compare`, lines 48-65: an unmatched relocation is a difference. The
result has the branches that are swapped afterwards. -/
def compareD (cfg : DCfg) (steps : Nat) (l r : DFun) (swapped : List Nat) : Option (Bool × List Nat) :=
  match l.blocks, r.blocks with
  | B :: _, B' :: _ =>
    if l.args.map Prod.snd ≠ r.args.map Prod.snd then some (false, swapped) else
    (cmpPairs cfg l r steps (l.blocks.length + 1) [(B.id, B'.id)] [B.id] (startSt l r swapped)).map
      fun x => (x.1 && (match x.2.reloc with | .none => true | _ => false) &&
        cmpAllPhis ⟨l.all, r.all⟩ x.2.phis x.2, x.2.swapped)
  | _, _ => some (false, swapped)

end DK
