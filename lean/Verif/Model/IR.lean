import Verif.Model.Py

/-!
The part of LLVM IR that the C++ comparator (diffkemp/simpll) reads: types, constants,
instructions with their special state, basic blocks and functions. Values (arguments,
instructions) and blocks are identified by numbers in place of pointers.
-/

set_option autoImplicit false

namespace DK

/-- `llvm::Type`. `prim` stands for the types without parameters (half, float, double, void,
label, metadata, ...), identified by their `TypeID` (0 to 12 in LLVM 16). -/
inductive Ty where
  | int (bits : Nat)
  | ptr (space : Nat)
  | prim (id : Fin 13)
  | struct (packed : Bool) (elems : List Ty)
  | func (ret : Ty) (params : List Ty) (vararg : Bool)
  | array (n : Nat) (elem : Ty)
  | vec (scalable : Bool) (n : Nat) (elem : Ty)

/-- `llvm::Constant`: integers, floats, null values (null pointers and zero aggregates), undef,
poison, globals, data sequences (raw bytes), aggregates (`kind` 0 array, 1 struct, 2 vector) and
constant expressions. Block addresses and DSO-local equivalents are not modelled. -/
inductive Const where
  | int (bits val : Nat)
  | fp (ty : Fin 13) (bits : Nat)
  | null (ty : Ty)
  | undef (ty : Ty)
  | poison (ty : Ty)
  | global (id : Nat)
  | data (ty : Ty) (bytes : List Nat)
  | aggr (kind : Fin 3) (ty : Ty) (elems : List Const)
  | expr (opcode : Nat) (ty : Ty) (ops : List Const)

/-- `Constant::getType` -/
def Const.ty : Const → Ty
  | .int w _ => .int w
  | .fp t _ => .prim t
  | .null t => t
  | .undef t => t
  | .poison t => t
  | .global _ => .ptr 0
  | .data t _ => t
  | .aggr _ t _ => t
  | .expr _ t _ => t

/-- `Constant::isNullValue` -/
def Const.isNull : Const → Bool
  | .int _ v => v == 0
  | .fp _ b => b == 0
  | .null _ => true
  | _ => false

/-- `llvm::InlineAsm` -/
structure Asm where
  ty : Ty
  text : Str
  constraints : Str
  sideEffects : Bool
  alignStack : Bool
  dialect : Nat

/-- What has a serial number: a value (argument or instruction) or a basic block. -/
inductive Key where
  | val (id : Nat)
  | blk (id : Nat)
  deriving DecidableEq, Repr

/-- An operand; `self` is the function that contains the instruction. -/
inductive Opnd where
  | const (c : Const)
  | ref (k : Key)
  | asm (a : Asm)
  | self

/-- `llvm::Attribute`: an attribute with a number (simplified: of any other kind than a type), or
with a type. -/
inductive Attr where
  | num (kind value : Nat)
  | ty (kind : Nat) (t : Option Ty)

/-- The state of an instruction that is not in its operands. `indices` serves insertvalue,
extractvalue and shufflevector. -/
inductive Special where
  | none
  | gep (src : Ty)
  | alloca (t : Ty) (align : Nat)
  | load (volatile : Bool) (align ordering scope : Nat) (range : Option (List (Nat × Nat)))
  | store (volatile : Bool) (align ordering scope : Nat)
  | cmp (pred : Nat)
  | call (cc : Nat) (attrs : List (List Attr)) (bundles : List (Str × Nat)) (tail : Nat)
      (range : Option (List (Nat × Nat)))
  | indices (l : List Nat)
  | fence (ordering scope : Nat)
  | cmpxchg (volatile weak : Bool) (success failure scope : Nat)
  | rmw (op : Nat) (volatile : Bool) (ordering scope : Nat)
  | phi (blocks : List Nat)

/-- `llvm::Instruction`; `ops` are the operands with their types in the order of `getOperand`,
`flags` is `getRawSubclassOptionalData`. The incoming blocks of a phi are in its special state. -/
structure Inst where
  id : Nat
  opcode : Nat
  ty : Ty
  flags : Nat
  ops : List (Opnd × Ty)
  special : Special

/-- `Instruction::Br` -/
def brOp : Nat := 2

/-- The blocks among the operands. -/
def blockOps (ops : List (Opnd × Ty)) : List Nat :=
  ops.filterMap fun o => match o.1 with | .ref (.blk b) => some b | _ => none

/-- `getSuccessor(0), getSuccessor(1), ...`: a branch stores its successors in reverse order
(condition, false, true). -/
def Inst.succs (i : Inst) : List Nat :=
  if i.opcode = brOp then (blockOps i.ops).reverse else blockOps i.ops

/-- A basic block: instructions and a terminator. -/
structure Block where
  id : Nat
  insts : List Inst
  term : Inst

/-- The instructions of a block including the terminator. -/
def Block.code (b : Block) : List Inst := b.insts ++ [b.term]

/-- A function with a body. -/
structure Fn where
  attrs : List (List Attr)
  gc : Option Str
  sect : Option Str
  vararg : Bool
  cc : Nat
  ret : Ty
  args : List (Nat × Ty)
  entry : Block
  rest : List Block

/-- All blocks, the entry first. -/
def Fn.blocks (f : Fn) : List Block := f.entry :: f.rest

/-- The block with a given identity. -/
def Fn.find (f : Fn) (b : Nat) : Option Block := f.blocks.find? (fun B => B.id == b)

/-- `getFunctionType` -/
def Fn.ty (f : Fn) : Ty := .func f.ret (f.args.map Prod.snd) f.vararg

/-- `DataLayout`: size of default pointers and `accumulateConstantOffset` (source type and constant
indices to the offset in bytes, if it is constant). -/
structure Layout where
  ptrBits : Nat
  offset : Ty → List Const → Option Nat

end DK
