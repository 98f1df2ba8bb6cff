import Verif.Model.VarSlicer

/-! The second phase of the slicing with respect to a variable, passes/VarDependencySlicer.cpp 88-146: which branches and which
other instructions are kept besides those that depend on the variable. -/

set_option autoImplicit false

namespace DK

/-- A function: the blocks in order with their instructions, the terminators and whether they are branches, and for an
instruction the instructions among its operands, whether it is an alloca or a phi, and its block. `stores a u` are the stores
and calls that `addStoresToIncluded`, lines 603-663, finds for the alloca `a` and the user `u`. -/
structure SlFun where
  blocks : List Nat
  succ : Nat → List Nat
  branch : Nat → Bool
  insts : Nat → List Nat
  term : Nat → Nat
  ops : Nat → List Nat
  alloca : Nat → Bool
  phi : Nat → Bool
  stores : Nat → Nat → List Nat
  blockOf : Nat → Nat

/-- The instructions that `addAllOpsToIncluded` visits for an instruction: operands, and stores for allocas. -/
def SlFun.targets (f : SlFun) (i : Nat) : List Nat :=
  (f.ops i).flatMap fun o => o :: if f.alloca o then f.stores o i else []

/-- `addAllOpsToIncluded`, VarDependencySlicer.cpp 328-347, with `addToIncluded`, 305-311. The number bounds the depth of the
recursion. -/
def addAllOps (f : SlFun) (dep : List Nat) : Nat → Nat → List Nat → Option (List Nat)
  | 0, _, _ => none
  | n + 1, i, inc =>
    (f.targets i).foldlM (fun inc o => if o ∈ dep ∨ o ∈ inc then some inc else addAllOps f dep n o (o :: inc)) inc

/-- `includedSuccessors`, VarDependencySlicer.cpp 352-412, for a branch at the end of `src`. `incB`: the included blocks. -/
def includedSuccessors (succ : Nat → List Nat) (blocks incB : List Nat) (exit : Option Nat) (src : Nat) : List Nat :=
  match succ src with
  | [t, e] =>
    let rt := (reachableThroughSucc succ blocks src t).filter fun b => decide (b ∈ incB ∧ some b ≠ exit)
    let rf := (reachableThroughSucc succ blocks src e).filter fun b => decide (b ∈ incB ∧ some b ≠ exit)
    if (∀ b ∈ rf, b ∈ rt) ∧ ∀ b ∈ rt, b ∈ rf then
      if rt.isEmpty then [if some t = exit then e else t]
      else if !potReach succ src exploreLimit [t] [] then [t]
      else if !potReach succ src exploreLimit [e] [] then [e]
      else [if some t = exit then e else t]
    else if ∀ b ∈ rf, b ∈ rt then [t]
    else if ∀ b ∈ rt, b ∈ rf then [e]
    else [t, e]
  | [t] => [t]
  | _ => []

/-- The successors, the included instructions, and the blocks whose terminators were replaced. -/
structure SlSt where
  succ : Nat → List Nat
  inc : List Nat
  replaced : List Nat

/-- The body of the loop over blocks, VarDependencySlicer.cpp 108-136. `base`: the blocks that are included by the first phase.
-/
def branchStep (f : SlFun) (dep base : List Nat) (exit : Option Nat) (n : Nat) (st : SlSt) (b : Nat) : Option SlSt :=
  if f.branch b = true ∧ f.term b ∉ dep ∧ st.succ b ≠ [] then
    match includedSuccessors st.succ f.blocks (base ++ st.inc.map f.blockOf) exit b with
    | [] => some ⟨fun a => if a = b then [(st.succ b).headD 0] else st.succ a, st.inc, b :: st.replaced⟩
    | [s] => some ⟨fun a => if a = b then [s] else st.succ a, st.inc, b :: st.replaced⟩
    | _ =>
      (addAllOps f dep n (f.term b) (if f.term b ∈ st.inc then st.inc else f.term b :: st.inc)).map fun inc =>
        { st with inc := inc }
  else some st

/-- Incoming values of included phis, VarDependencySlicer.cpp 139-153, for one instruction. -/
def phiStep (f : SlFun) (dep : List Nat) (n : Nat) (inc : List Nat) (p : Nat) : Option (List Nat) :=
  if f.phi p = true ∧ (p ∈ inc ∨ p ∈ dep) then
    (f.ops p).foldlM (fun inc o => addAllOps f dep n o (if o ∈ dep ∨ o ∈ inc then inc else o :: inc)) inc
  else some inc

/-- The second phase, VarDependencySlicer.cpp 88-153: the state with all included instructions, to which the dependent ones
belong. Simplifications: the unification of returns is assumed to have been done; phis do not lose the operands of removed
edges; the new branches are not listed as included instructions (they have no operands); parameters are left out. -/
def secondPhase (f : SlFun) (dep base : List Nat) (exit : Option Nat) (n : Nat) : Option SlSt :=
  ((dep.filter fun i => !f.phi i).foldlM (fun inc i => addAllOps f dep n i inc) []).bind fun inc =>
  (f.blocks.foldlM (branchStep f dep base exit n) ⟨f.succ, inc, []⟩).bind fun st =>
  ((f.blocks.flatMap f.insts).foldlM (phiStep f dep n) st.inc).map fun inc => { st with inc := inc ++ dep }

end DK
