import Verif.Model.Py

/-!
Models of analyses and passes of SimpLL over whole modules: the analysis of called functions
(passes/CalledFunctionsAnalysis.cpp), the test for side effects (Utils.cpp), and the slicing of
functions to control flow (passes/ControlFlowSlicer.cpp).
-/

set_option autoImplicit false

namespace DK

/-- The recursive search used in several places: return if the item is in the set, otherwise insert it
and continue with the items after it. The number bounds the depth of the recursion (only in the
model). -/
def visit {N : Type} [DecidableEq N] (next : N → List N) : Nat → N → List N → Option (List N)
  | 0, _, _ => none
  | n + 1, x, seen =>
    if x ∈ seen then some seen
    else (next x).foldlM (fun s y => visit next n y s) (x :: seen)

/-! ### Called functions -/

/-- `llvm::Value` as seen by the analysis; other values are referred to by numbers. `bitcast` is a
`BitCastOperator` (an instruction or a constant expression), `const` any other constant that is a user;
`other` are all other values. -/
inductive CVal where
  | fn (f : Nat)
  | bitcast (operand : Nat)
  | aliasOf (aliasee : Nat)
  | gvar (constant : Bool) (init : Option Nat)
  | const (ops : List Nat)
  | other

/-- An instruction: its operands, and the called operand if it is a call (which is an operand too). -/
structure CInst where
  call : Option Nat
  ops : List Nat

/-- A module: values, and functions with their instructions (none for declarations). -/
structure CMod where
  val : Nat → CVal
  body : Nat → List CInst
  /-- the number of aliases: bounds chains of aliases (only in the model; LLVM does not allow
  cycles of aliases) -/
  aliases : Nat

/-- `valueToFunction`, Utils.cpp 65-75. -/
def valueToFunction (m : CMod) : Nat → Nat → Option Nat
  | 0, _ => none
  | n + 1, v =>
    match m.val v with
    | .fn f => some f
    | .bitcast o => match m.val o with | .fn f => some f | _ => none
    | .aliasOf a => valueToFunction m n a
    | _ => none

/-- What is in the two sets of the analysis: `Called` and `ProcessedValues`. -/
inductive CNode where
  | fn (f : Nat)
  | val (v : Nat)
  deriving DecidableEq, Repr

/-- The loop over an instruction in `collectCalled`, lines 44-53: the called function, then the
operands. -/
def instNext (m : CMod) (i : CInst) : List CNode :=
  (match i.call with
    | some c => match valueToFunction m (m.aliases + 1) c with | some f => [.fn f] | none => []
    | none => []) ++ i.ops.map .val

/-- `processValue` after the insertion, lines 63-77. Aliases are constants with one operand. -/
def valueNext (m : CMod) (v : Nat) : List CNode :=
  match valueToFunction m (m.aliases + 1) v with
  | some f => [.fn f]
  | none =>
    match m.val v with
    | .gvar true (some i) => [.val i]
    | .bitcast o => [.val o]
    | .aliasOf a => [.val a]
    | .const ops => ops.map .val
    | _ => []

/-- `collectCalled` (lines 37-55) and `processValue` (59-78) insert into their set, return if the item
was there, and continue with these. -/
def callNext (m : CMod) : CNode → List CNode
  | .fn f => (m.body f).flatMap (instNext m)
  | .val v => valueNext m v

/-- `CalledFunctionsAnalysis::run`, lines 23-31: the functions in `Called`. -/
def calledFunctions (m : CMod) (n : Nat) (main : Nat) : Option (List Nat) :=
  (visit (callNext m) n (.fn main) []).map fun seen =>
    seen.filterMap fun x => match x with | .fn f => some f | .val _ => none

/-! ### Side effects -/

/-- Instructions as seen by the test for side effects: stores, calls (with the function that is called
directly, if any), and, not looked at by it, invokes, read-modify-write instructions
(atomicrmw, cmpxchg) and the rest. -/
inductive EInst where
  | store
  | call (f : Option Nat)
  | invoke (f : Option Nat)
  | rmw
  | other
  deriving DecidableEq, Repr

/-- A function: without body (with the question whether it is one of the intrinsics dbg_declare,
dbg_value and expect), or with a body. -/
inductive EFun where
  | decl (harmless : Bool)
  | body (is : List EInst)

/-- The loop over the instructions in `hasSideEffect`, Utils.cpp 185-200. -/
def scanEffect (rec : Nat → List Nat → Option (Bool × List Nat)) :
    List EInst → List Nat → Option (Bool × List Nat)
  | [], seen => some (false, seen)
  | .store :: _, seen => some (true, seen)
  | .call none :: _, seen => some (true, seen)
  | .call (some g) :: is, seen =>
    if g ∈ seen then scanEffect rec is seen
    else
      match rec g seen with
      | some (true, seen') => some (true, seen')
      | some (false, seen') => scanEffect rec is seen'
      | none => none
  | _ :: is, seen => scanEffect rec is seen

/-- `hasSideEffect`, Utils.cpp 178-207; the number bounds the depth of the recursion. -/
def hasSideEffect (m : Nat → EFun) : Nat → Nat → List Nat → Option (Bool × List Nat)
  | 0, _, _ => none
  | n + 1, f, seen =>
    match m f with
    | .decl harmless => some (!harmless, seen)
    | .body is => scanEffect (hasSideEffect m n) is (f :: seen)

/-! ### Slicing to control flow -/

/-- An operand: an instruction, a function, or something else. -/
inductive SOp where
  | inst (id : Nat)
  | fn
  | other
  deriving DecidableEq, Repr

/-- What the slicer asks about an instruction. A call knows whether a function is called directly and
what is asked about that function (`hasSideEffect`, `isAllocFunction`); `pure` is "called directly and
without side effects". -/
inductive SKind where
  | term
  | call (pure alloc : Bool)
  | store
  | bitcast
  | other
  deriving DecidableEq, Repr

/-- An instruction. -/
structure SInst where
  id : Nat
  kind : SKind
  ops : List SOp

/-- A function: blocks with their instructions; `indirect` is `hasIndirectCall`, lines 50-75. -/
structure SFun where
  blocks : List (List SInst)
  indirect : Bool

/-- All instructions in order. -/
def SFun.insts (f : SFun) : List SInst := f.blocks.flatten

/-- The instruction operands of an instruction. -/
def SFun.operands (f : SFun) (i : Nat) : List Nat :=
  match f.insts.find? (fun x => x.id == i) with
  | some x => x.ops.filterMap fun o => match o with | .inst j => some j | _ => none
  | none => []

/-- `users()`: the instructions with this operand. -/
def SFun.users (f : SFun) (i : Nat) : List SInst := f.insts.filter fun x => .inst i ∈ x.ops

/-- `addWithOperands`, lines 26-36. -/
def addWithOperands (f : SFun) (n : Nat) (i : Nat) (dep : List Nat) : Option (List Nat) :=
  visit f.operands n i dep

/-- `addWithUsers`, lines 40-46. -/
def addWithUsers (f : SFun) (n : Nat) (i : Nat) (dep : List Nat) : Option (List Nat) :=
  (f.users i).foldlM (fun d u => addWithOperands f n u.id d) (if i ∈ dep then dep else i :: dep)

/-- `isResultOnlyStored`, lines 78-85. -/
def isResultOnlyStored (f : SFun) (i : Nat) : Bool :=
  (f.users i).all (fun u => u.kind == .store) && !(f.users i).isEmpty

/-- The question whether an instruction is kept, lines 97-128. -/
def keepInst (f : SFun) (i : SInst) : Bool :=
  match i.kind with
  | .term => true
  | .call pure _ => !(pure && isResultOnlyStored f i.id)
  | _ => i.ops.any (fun o => o == .fn) && f.indirect

/-- Lines 115-120: a cast that is the next instruction after an allocation is added with its users. -/
def addAfterAlloc (f : SFun) (n : Nat) (i : SInst) (next : Option SInst) (dep : List Nat) :
    Option (List Nat) :=
  match i.kind, next with
  | .call _ true, some x => if x.kind = .bitcast then addWithUsers f n x.id dep else some dep
  | _, _ => some dep

/-- The loop over the instructions of a block, lines 95-133. -/
def sliceBlock (f : SFun) (n : Nat) : List SInst → List Nat → Option (List Nat)
  | [], dep => some dep
  | i :: is, dep =>
    (addAfterAlloc f n i is.head? dep).bind fun dep =>
      (if keepInst f i then addWithOperands f n i.id dep else some dep).bind fun dep =>
        sliceBlock f n is dep

/-- The set `Dependent` after the loop, lines 93-134. -/
def dependentInsts (f : SFun) (n : Nat) : Option (List Nat) :=
  f.blocks.foldlM (fun dep b => sliceBlock f n b dep) []

/-- `ControlFlowSlicer::run`: the blocks with the instructions that are not erased (lines 136-155).
Operands that were erased are replaced by `undef`. -/
def sliceControlFlow (f : SFun) (n : Nat) : Option (List (List SInst)) :=
  (dependentInsts f n).map fun dep =>
    (f.blocks.map fun b => (b.filter fun i => i.id ∈ dep).map fun i =>
      { i with ops := i.ops.map fun o => match o with
        | .inst j => if j ∈ dep then .inst j else .other
        | o => o })

end DK
