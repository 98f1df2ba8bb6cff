import Verif.Model.SliceKeep
import Verif.Model.Text

/-! The end of slicing, passes/VarDependencySlicer.cpp 183-231 and 664-759: the return type becomes void, and blocks that are not
reached are removed. -/

set_option autoImplicit false

namespace DK

/-- The body of a function: its blocks, the first one is the entry, and their successors. -/
structure SlBody where
  blocks : List Nat
  succ : Nat → List Nat

/-- `calculateReachableBlocksRecursive`, VarDependencySlicer.cpp 665-681. The pair are `Reachable` and `Visited`; the number bounds
the depth of the recursion. -/
def visitBlocks (succ : Nat → List Nat) : Nat → Nat → List Nat × List Nat → Option (List Nat × List Nat)
  | 0, _, _ => none
  | n + 1, b, rv =>
    if b ∈ rv.2 then some rv
    else (succ b).foldlM (fun rv s => visitBlocks succ n s (s :: rv.1, rv.2)) (rv.1, b :: rv.2)

/-- `deleteUnreachableBlocks`, VarDependencySlicer.cpp 684-706: the blocks that are left. -/
def deleteUnreached (n : Nat) (f : SlBody) : Option SlBody :=
  match f.blocks with
  | [] => none
  | e :: _ => (visitBlocks f.succ n e ([e], [])).map fun rv => ⟨f.blocks.filter fun b => decide (b ∈ rv.1), f.succ⟩

/-- `canRemoveFirstBlock`, VarDependencySlicer.cpp 444-450. `incB`: the included blocks. -/
def canRemoveFirst (incB : List Nat) (f : SlBody) (e : Nat) : Bool :=
  (f.succ e).all fun s => !(decide (s ∈ incB) && f.blocks.any fun b => decide (s ∈ f.succ b))

/-- The removal of the entry, VarDependencySlicer.cpp 215-219: the next block in order becomes the entry. -/
def removeFirst (incB : List Nat) (f : SlBody) : SlBody :=
  match f.blocks with
  | [] => f
  | e :: l =>
    if decide (e ∉ incB) && canRemoveFirst incB f e then ⟨l, fun b => if b = e then [] else f.succ b⟩ else f

/-- `PHINode::getIncomingValueForBlock` of LLVM: the first value for the block. -/
def incomingFor (phi : List (Nat × Nat)) (b : Nat) : Option Nat := (phi.find? fun e => decide (e.1 = b)).map (·.2)

/-- `canRemoveBlock`, VarDependencySlicer.cpp 419-439, for a block `bb` with `succs` successors. `preds`: its predecessors, `phis`:
the phis of its successor as lists of blocks and values. -/
def canRemoveBlock (succs : Nat) (preds : List Nat) (phis : List (List (Nat × Nat))) (bb : Nat) : Bool :=
  decide (succs = 1) && phis.all fun phi => phi.all fun e => decide (e.1 = bb) || preds.all fun p =>
    (incomingFor phi p).isNone || decide (incomingFor phi p = incomingFor phi bb)

/-- A function of the module: name, whether it returns void, body. -/
structure SlDef where
  name : Str
  void : Bool
  body : SlBody

/-- `changeToVoid`, VarDependencySlicer.cpp 712-759: the function with which the pass goes on, and the clone. `called`: an
instruction uses the function. A name with the suffix is not in use before. -/
def changeToVoid (called : Bool) (f : SlDef) : SlDef × List SlDef :=
  if called then (f, [])
  else ({ f with name := f.name ++ str! ".old" }, [{ f with void := true }])

/-- The end of the pass, VarDependencySlicer.cpp 183-231. `keepsReturn`: there is no block of the return, or its instruction is
included. `simplify` stands for the removal of dead and empty blocks by LLVM in lines 193-221. -/
def sliceEnd (simplify : SlBody → SlBody) (n : Nat) (keepsReturn called : Bool) (f : SlDef) : Option (List SlDef) :=
  let r := if !keepsReturn && !f.void then changeToVoid called f else (f, [])
  (deleteUnreached n (simplify r.1.body)).map fun b => { r.1 with body := b } :: r.2

end DK
