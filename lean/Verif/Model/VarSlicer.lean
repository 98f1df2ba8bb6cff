import Verif.Model.Passes

/-!
Model of passes/VarDependencySlicer.cpp: reachability of blocks, blocks affected by a branch, the first
phase (which instructions depend on a global variable) and the removal of unreachable blocks; and of
the search for users of a parameter in library/DiffKempUtils.cpp.
-/

set_option autoImplicit false

namespace DK

/-! ### Blocks affected by a branch -/

/-- `llvm::isPotentiallyReachable` for blocks without dominator tree and loop information (LLVM 16,
Analysis/CFG.cpp): the blocks are explored from a stack, and after `limit` blocks (32 in LLVM) the answer
is true. The top of the stack is the head of the list. -/
def potReach (succ : Nat → List Nat) (stop : Nat) : Nat → List Nat → List Nat → Bool
  | 0, _, _ => true
  | limit + 1, work, seen =>
    match work.dropWhile (fun b => decide (b ∈ seen)) with
    | [] => false
    | b :: rest =>
      if b = stop then true
      else if limit = 0 then true
      else potReach succ stop limit ((succ b).reverse ++ rest) (b :: seen)

/-- `DefaultMaxBBsToExplore` of LLVM. -/
def exploreLimit : Nat := 32

/-- `reachableBlocks`, VarDependencySlicer.cpp 455-464. -/
def reachableBlocks (succ : Nat → List Nat) (blocks : List Nat) (src : Nat) : List Nat :=
  blocks.filter fun b => decide (src ≠ b) && potReach succ b exploreLimit [src] []

/-- `reachableBlocksThroughSucc`, lines 467-482: the terminator of `src` is replaced by a branch to
`s`. -/
def reachableThroughSucc (succ : Nat → List Nat) (blocks : List Nat) (src s : Nat) : List Nat :=
  reachableBlocks (fun b => if b = src then [s] else succ b) blocks src

/-- The loop over the successors in `affectedBasicBlocks`, lines 244-256: union and intersection. -/
def unionInter (reach : Nat → List Nat) : List Nat → Bool → List Nat × List Nat → List Nat × List Nat
  | [], _, acc => acc
  | s :: ss, first, (u, i) =>
    let r := reach s
    unionInter reach ss false
      (u ++ r.filter (fun b => decide (b ∉ u)), if first then r else i.filter (fun b => decide (b ∈ r)))

/-- `affectedBasicBlocks` for a branch at the end of `src`, lines 238-265. -/
def affectedBlocks (succ : Nat → List Nat) (blocks : List Nat) (src : Nat) : List Nat :=
  let (u, i) := if (succ src).length = 2 then
    unionInter (reachableThroughSucc succ blocks src) (succ src) true ([], []) else ([], [])
  u.filter fun b => decide (b ∉ i)

/-! ### Instructions that depend on the variable -/

/-- An operand: an instruction, or anything else with the question whether it is the variable or a
constant expression that contains it. -/
inductive VOp where
  | inst (id : Nat)
  | const (usesVar : Bool) (id : Nat)
  deriving DecidableEq, Repr

/-- Kinds of instructions; a phi has the incoming blocks of its operands. -/
inductive VKind where
  | phi (blocks : List Nat)
  | branch
  | store (ptr : VOp)
  | other
  deriving DecidableEq, Repr

structure VInst where
  id : Nat
  kind : VKind
  ops : List VOp

/-- A function: blocks in order with their instructions, and successors. -/
structure VFun where
  blocks : List (Nat × List VInst)
  succ : Nat → List Nat

/-- `DependentInstrs`, `AffectedBasicBlocks` and `IncludedBasicBlocks`. -/
structure VSt where
  dep : List Nat
  affected : List Nat
  included : List Nat

/-- `checkDependency`, lines 283-298. -/
def checkDependency (st : VSt) : VOp → Bool
  | .inst i => decide (i ∈ st.dep)
  | .const usesVar _ => usesVar

/-- The block of an instruction. -/
def VFun.blockOf (f : VFun) (i : Nat) : Option Nat :=
  (f.blocks.find? fun b => b.2.any fun x => x.id == i).map (·.1)

/-- `addToDependent`, lines 301-325: the block is included when the instruction was added. -/
def addToDependent (f : VFun) (i : Nat) (st : VSt) : VSt :=
  if i ∈ st.dep then st
  else { st with dep := i :: st.dep,
                 included := match f.blockOf i with | some b => b :: st.included | none => st.included }

/-- `addAllInstrs`, lines 269-278. -/
def addAllInstrs (f : VFun) (bs : List Nat) (st : VSt) : VSt :=
  bs.foldl (fun st b =>
    { dep := ((f.blocks.filter fun B => B.1 == b).flatMap fun B => B.2.map (·.id)) ++ st.dep,
      affected := b :: st.affected, included := b :: st.included }) st

/-- `checkPhiDependency`, lines 553-571: two included incoming blocks with different values. The rest
(572-598) does nothing in this phase: it asks `isIncluded` for terminators, and `IncludedInstrs` is
still empty. -/
def checkPhi (st : VSt) (blocks : List Nat) (ops : List VOp) : Bool :=
  let vals := ((blocks.zip ops).filter fun p => decide (p.1 ∈ st.included)).map (·.2)
  match vals with
  | [] => false
  | v :: vs => vs.any fun w => decide (w ≠ v)

/-- Is the instruction found to be dependent? Lines 52-68; the arguments of a call are operands. -/
def foundDep (i : VInst) (st : VSt) : Bool :=
  i.ops.any (checkDependency st) ||
    (match i.kind with | .phi bs => checkPhi st bs i.ops | _ => false)

/-- The body of the loop over instructions of the first phase, lines 51-85. -/
def depInst (f : VFun) (b : Nat) (i : VInst) (st : VSt) : VSt :=
  if foundDep i st then
    let st := addToDependent f i.id st
    match i.kind with
    | .branch => addAllInstrs f (affectedBlocks f.succ (f.blocks.map (·.1)) b) st
    | .store (.inst p) => addToDependent f p st
    | _ => st
  else st

/-- The first phase, lines 47-87: affected blocks are skipped. -/
def depPhase (f : VFun) : VSt :=
  f.blocks.foldl (fun st B =>
    if B.1 ∈ st.affected then st else B.2.foldl (fun st i => depInst f B.1 i st) st) ⟨[], [], []⟩

/-! ### Unreachable blocks -/

/-- `calculateReachableBlocksRecursive`, lines 669-680, and `deleteUnreachableBlocks`, 683-704: the
blocks that remain. The set `Reachable` consists of the entry and the successors of the visited blocks;
the number bounds the depth of the recursion. -/
def deleteUnreachable (succ : Nat → List Nat) (n : Nat) (entry : Nat) (blocks : List Nat) :
    Option (List Nat) :=
  (visit succ n entry []).map fun seen =>
    blocks.filter fun b => decide (b ∈ entry :: seen.flatMap succ)

/-! ### Users of a parameter -/

/-- `checkGEPIndicesCorrespond`, DiffKempUtils.cpp 62-76: the indices of the GEP (`none`: not constant)
and the list to compare with. Reading behind the end of the list is undefined; `junk` is what is read. -/
def gepIndicesCorrespond (junk : Nat → Nat) (gep : List (Option Nat)) (indices : List Nat) : Bool :=
  (List.range gep.length).all fun k =>
    if k ≥ indices.length then
      match gep[k]? with
      | some (some v) => v == indices.getD k (junk k)
      | _ => true
    else true

/-- A use of the variable: an instruction (with its function), or a constant expression with the
functions of the instructions that use it; with the indices if it is a GEP. -/
inductive PUse where
  | inst (fn : Nat) (gep : Option (List (Option Nat)))
  | expr (fns : List Nat) (gep : Option (List (Option Nat)))
  | other

/-- Is the use not skipped because of its indices? Lines 92-96 and 106-110. -/
def useOk (junk : Nat → Nat) (indices : List Nat) : Option (List (Option Nat)) → Bool
  | some gep => indices.isEmpty || gepIndicesCorrespond junk gep indices
  | none => true

/-- `getFunctionsUsingParam`, DiffKempUtils.cpp 79-120, for a variable that exists; `old` says whether
the name of a function contains ".old". -/
def functionsUsingParam (junk : Nat → Nat) (old : Nat → Bool) (indices : List Nat) (uses : List PUse) :
    List Nat :=
  uses.flatMap fun u => match u with
    | .inst f g => if useOk junk indices g && !old f then [f] else []
    | .expr fs g => if useOk junk indices g then fs.filter (fun f => !old f) else []
    | .other => []

/-- The constants that describe a parameter: a global variable with the last element of its initialiser
if that is a structure, an expression with its first operand, anything else. -/
inductive PVal where
  | gvar (name : Str) (last : Option PVal)
  | expr (op : PVal)
  | other

/-- Is `sub` a part of `s`? `StringRef::find(..) != npos`. -/
def hasPart (sub : Str) : Str → Bool
  | [] => sub.isEmpty
  | c :: s => sub.isPrefixOf (c :: s) || hasPart sub s

/-- `extractParamName`, DiffKempUtils.cpp 25-52. -/
def extractParamName : PVal → Str
  | .gvar name last =>
    if hasPart (str! "__param_arr") name || hasPart (str! "__param_string") name then
      match last with
      | none => []
      | some v => extractParamName v
    else name
  | .expr op => extractParamName op
  | .other => []

/-- Elements of a structure of constants: a structure itself, or another constant. -/
inductive PElem where
  | struct (elems : List PVal)
  | val (v : PVal)

/-- `findParamVar`, DiffKempUtils.cpp 131-152. `globals` has the initialisers of the global variables, for structures with their
elements. Variables without initialisers are left out. -/
def findParamVar (globals : List (Str × Option (List PElem))) (param : Str) : Str :=
  match globals.find? fun g => decide (g.1 = str! "__param_" ++ param) with
  | some (_, some elems) =>
    match elems.getLast? with
    | some (.struct [v]) => extractParamName v
    | _ => []
  | _ => []

end DK
