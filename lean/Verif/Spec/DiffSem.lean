import Verif.Model.DiffCmp

/-!
What functions compute, and what it means that they are equal, well formed and have the same control
flow. Used for the comparison of basic blocks with patterns.
-/

set_option autoImplicit false

namespace DK.Spec

/-- Operations of integers of a width. -/
def binBits {w : Nat} (o : BOp) (a b : BitVec w) : BitVec w :=
  match o with
  | .add => a + b
  | .mul => a * b
  | .band => a &&& b
  | .bor => a ||| b
  | .xor => a ^^^ b

/-- The same for signed numbers. -/
def binInt (o : BOp) (w : Nat) (a b : Int) : Int :=
  (binBits o (BitVec.ofInt w a) (BitVec.ofInt w b)).toInt

/-- The result of a comparison of two floating-point numbers. -/
inductive FOrder where
  | eq | gt | lt | unordered
  deriving DecidableEq, Repr

/-- The set of outcomes of a floating-point predicate. -/
def FOrder.isIn (m : Fin 16) : FOrder → Bool
  | .eq => m.val.testBit 0
  | .gt => m.val.testBit 1
  | .lt => m.val.testBit 2
  | .unordered => m.val.testBit 3

/-- Does a predicate hold? Integers are compared as numbers of a width, floating-point numbers as the
machine says. -/
def holdsPred (fcmp : Int → Int → FOrder) (p : Pred) (w : Nat) (a b : Int) : Bool :=
  let x := BitVec.ofInt w a
  let y := BitVec.ofInt w b
  match p with
  | .eq => x == y
  | .ne => x != y
  | .ugt => y.ult x
  | .uge => y.ule x
  | .ult => x.ult y
  | .ule => x.ule y
  | .sgt => y.slt x
  | .sge => y.sle x
  | .slt => x.slt y
  | .sle => x.sle y
  | .f m => (fcmp a b).isIn m

/-- A machine: what the instructions do that the comparison knows nothing about. Values that are not
defined are `none`. The memory may contain the history of effects. -/
structure DMach (Mem : Type) where
  fcmp : Int → Int → FOrder
  pur : DCode → Nat → List (Nat × Option Int) → Option Int
  load : Nat → Mem → List (Option Int) → Option Int
  eff : DCode → Nat → List (Nat × Option Int) → Mem → Option Int × Mem

/-- Values of instructions and arguments. -/
abbrev DEnv := Nat → Option Int

def evalOp (env : DEnv) : DOp → Option Int
  | .const _ v => some v
  | .ref a _ => env a
  | .blk _ => none

def dEvalOps (env : DEnv) (ops : List DOp) : List (Nat × Option Int) :=
  ops.map fun o => (o.ty, evalOp env o)

/-- A result of two defined values. -/
def both (f : Int → Int → Int) : Option Int → Option Int → Option Int
  | some a, some b => some (f a b)
  | _, _ => none

/-- Truth as a number of one bit. -/
def truth (b : Bool) : Int := if b then -1 else 0

/-- The value of a cast between integers. -/
def castInt (k : CastOp) (w w' : Nat) (v : Int) : Int :=
  match k with
  | .zext => (BitVec.ofNat w' (BitVec.ofInt w v).toNat).toInt
  | .trunc => (BitVec.ofInt w' v).toInt
  | _ => v

/-- The result of an operation that is no phi and no terminator, from the types and values of its
operands, and the memory after it. -/
def evalCode {Mem : Type} (M : DMach Mem) (c : DCode) (ty : Nat) (vals : List (Nat × Option Int))
    (mem : Mem) : Option Int × Mem :=
  match c with
  | .bin o => (match vals with | [x, y] => both (binInt o ty) x.2 y.2 | _ => none, mem)
  | .cmp p =>
    (match vals with
     | [x, y] => both (fun a b => truth (holdsPred M.fcmp p x.1 a b)) x.2 y.2
     | _ => none, mem)
  | .cast (.other k) => (M.pur (.cast (.other k)) ty vals, mem)
  | .cast k => (match vals with | [x] => x.2.map (castInt k x.1 ty) | _ => none, mem)
  | .load => (M.load ty mem (vals.map Prod.snd), mem)
  | .store => M.eff .store ty vals mem
  | .call f => M.eff (.call f) ty vals mem
  | .other k => M.eff (.other k) ty vals mem
  | c => (M.pur c ty vals, mem)

/-- The value of an instruction, and the memory after it. -/
def evalInst {Mem : Type} (M : DMach Mem) (env : DEnv) (mem : Mem) (i : DInst) : Option Int × Mem :=
  evalCode M i.code i.ty (dEvalOps env i.ops) mem

def DEnv.set (env : DEnv) (a : Nat) (v : Option Int) : DEnv := fun b => if b = a then v else env b

/-- What follows a block: the function returns, or another block is entered. -/
inductive DNext (Mem : Type) where
  | done (vals : List (Option Int)) (mem : Mem)
  | goto (b : Nat) (env : DEnv) (mem : Mem)
  | stuck

/-- Execution of a block; phis were evaluated when the block was entered. -/
def execBlock {Mem : Type} (M : DMach Mem) : List DInst → DEnv → Mem → DNext Mem
  | [], _, _ => .stuck
  | i :: is, env, mem =>
    match i.code, i.ops with
    | .phi, _ => execBlock M is env mem
    | .ret, ops => .done (ops.map (evalOp env)) mem
    | .jump, [.blk b] => .goto b env mem
    | .jump, _ => .stuck
    | .branch, [c, .blk f, .blk t] =>
      match evalOp env c with
      | some v => .goto (if v = 0 then f else t) env mem
      | none => .stuck
    | .branch, _ => .stuck
    | _, _ => execBlock M is (env.set i.id (evalInst M env mem i).1) (evalInst M env mem i).2

/-- Values of phis when a block is entered from another one; all of them read the old values. -/
def enterBlock (from_ : Option Nat) (code : List DInst) (env : DEnv) : DEnv := fun a =>
  match code.find? (fun i => i.id == a && decide (i.code = .phi)) with
  | some i => ((i.inc.zip i.ops).find? fun p => some p.1 == from_).bind fun p => evalOp env p.2
  | none => env a

/-- At most `n` blocks of a function: the returned values and the memory, if it returns. -/
def runBlocks {Mem : Type} (M : DMach Mem) (f : DFun) :
    Nat → Option Nat → Nat → DEnv → Mem → Option (List (Option Int) × Mem)
  | 0, _, _, _, _ => none
  | n + 1, from_, b, env, mem =>
    match f.find b with
    | none => none
    | some B =>
      match execBlock M B.code (enterBlock from_ B.code env) mem with
      | .done vals mem => some (vals, mem)
      | .goto b' env mem => runBlocks M f n (some b) b' env mem
      | .stuck => none

/-- Arguments of a call. -/
def argEnv (f : DFun) (vals : List Int) : DEnv := fun a =>
  ((f.args.map Prod.fst).zip vals).lookup a

/-- A call of a function. -/
def runFun {Mem : Type} (M : DMach Mem) (f : DFun) (n : Nat) (vals : List Int) (mem : Mem) :
    Option (List (Option Int) × Mem) :=
  match f.blocks with
  | B :: _ => runBlocks M f n none B.id (argEnv f vals) mem
  | [] => none

/-- Functions do the same on every machine, for all arguments and every memory: they return in the same
cases, with the same values and the same memory. -/
def SameResults (l r : DFun) : Prop :=
  ∀ (Mem : Type) (M : DMach Mem) (vals : List Int) (mem : Mem) (res : List (Option Int) × Mem),
    (∃ n, runFun M l n vals mem = some res) ↔ ∃ n, runFun M r n vals mem = some res

/-- A terminator. -/
def isTerm (i : DInst) : Bool :=
  match i.code with
  | .ret | .jump | .branch => true
  | _ => false

/-- Operands of an instruction are as its kind requires: blocks only in jumps and branches, two operands
of the same type in comparisons, two operands of the type of the result in binary operations, truth
values have one bit, branches have no value. -/
def ShapeOk (i : DInst) : Prop :=
  match i.code with
  | .jump => ∃ b, i.ops = [.blk b]
  | .branch => ∃ c x y, i.ops = [c, .blk x, .blk y] ∧ i.ty = 0 ∧ c.ty = 1 ∧ ∀ b, c ≠ .blk b
  | .bin _ => ∃ x y, i.ops = [x, y] ∧ x.ty = i.ty ∧ y.ty = i.ty ∧ ∀ b, x ≠ .blk b ∧ y ≠ .blk b
  | .cmp _ => ∃ x y, i.ops = [x, y] ∧ i.ty = 1 ∧ x.ty = y.ty ∧ ∀ b, x ≠ .blk b ∧ y ≠ .blk b
  | _ => ∀ b, DOp.blk b ∉ i.ops

/-- Ids of instructions of a block. -/
def idsOf (code : List DInst) : List Nat := code.map DInst.id

/-- The blocks of a terminator, the false one before the true one. -/
def targets (t : DInst) : List Nat :=
  t.ops.filterMap fun o => match o with | .blk b => some b | _ => none

/-- A function is well formed: ids of arguments and instructions are distinct, ids of blocks are
distinct, every block ends with a terminator and has no other one, targets exist, operands have the types of the
instructions and arguments they refer to. -/
structure DWellFormed (f : DFun) : Prop where
  ids : (f.args.map Prod.fst ++ idsOf f.all).Nodup
  blocks : (f.blocks.map DBlock.id).Nodup
  ends : ∀ B ∈ f.blocks, ∃ body t, B.code = body ++ [t] ∧ isTerm t = true ∧ ∀ i ∈ body, isTerm i = false
  shape : ∀ i ∈ f.all, ShapeOk i
  targets : ∀ i ∈ f.all, ∀ b ∈ targets i, ∃ B ∈ f.blocks, B.id = b
  types : ∀ i ∈ f.all, ∀ a w, DOp.ref a w ∈ i.ops →
    (a, w) ∈ f.args ∨ ∃ j ∈ f.all, j.id = a ∧ j.ty = w

/-- A way from the entry to a block: the blocks before it. -/
inductive Way (f : DFun) : List Nat → Nat → Prop where
  | entry (B : DBlock) (rest : List DBlock) : f.blocks = B :: rest → Way f [] B.id
  | step (way : List Nat) (b c : Nat) (B : DBlock) : Way f way b → f.find b = some B → c ∈ B.succs [] →
      Way f (way ++ [b]) c

/-- Values are defined before they are used: an operand of an instruction that is no phi is an argument,
or it is defined earlier in the same block, or in another block, and then every way to the block goes
through that one. -/
def Dominated (f : DFun) : Prop :=
  ∀ way b B, Way f way b → f.find b = some B → ∀ pre i suf, B.code = pre ++ i :: suf →
    i.code ≠ .phi → ∀ a w, DOp.ref a w ∈ i.ops →
      a ∈ f.args.map Prod.fst ∨ a ∈ idsOf pre ∨
        (a ∉ idsOf B.code ∧ ∃ c ∈ way, ∃ C, f.find c = some C ∧ a ∈ idsOf C.code)

/-- The predicate of a comparison. -/
def predAt (f : DFun) (a : Nat) : Option Pred :=
  (f.all.find? fun i => i.id == a).bind fun i => match i.code with | .cmp p => some p | _ => none

/-- Are two values results of comparisons with different predicates? -/
def opposite (l r : DFun) (a b : Nat) : Bool :=
  match predAt l a, predAt r b with
  | some p, some q => decide (p ≠ q)
  | _, _ => false

/-- Are two branches on results of comparisons with different predicates? -/
def oppositeBranches (l r : DFun) (t u : DInst) : Bool :=
  match t.code, t.ops, u.ops with
  | .branch, .ref a _ :: _, .ref b _ :: _ => opposite l r a b
  | _, _, _ => false

/-- Two functions have the same control flow: there is a one-to-one correspondence of their blocks, the
entries correspond, and targets of corresponding blocks correspond, where the targets of branches on
opposite comparisons are exchanged. -/
def SameFlow (l r : DFun) (φ : Nat → Nat) : Prop :=
  (∀ B Bs C Cs, l.blocks = B :: Bs → r.blocks = C :: Cs → C.id = φ B.id) ∧
  (∀ B ∈ l.blocks, ∀ C ∈ l.blocks, φ B.id = φ C.id → B.id = C.id) ∧
  ∀ B ∈ l.blocks, ∃ C ∈ r.blocks, C.id = φ B.id ∧
    ∀ t u, B.code.getLast? = some t → C.code.getLast? = some u →
      (targets t).map φ = if oppositeBranches l r t u then (targets u).reverse else targets u

/-- No phis, no casts, no negations of conditions. -/
def Plain (f : DFun) : Prop :=
  ∀ i ∈ f.all, i.code ≠ .phi ∧ (∀ k, i.code ≠ .cast k) ∧
    ¬ (i.code = .bin .xor ∧ i.ty = 1 ∧ ∃ x w, i.ops = [x, .const w (-1)])

/-- No reorderable operation has only constants. -/
def Folded (f : DFun) : Prop :=
  ∀ i ∈ f.all, ∀ o, i.code = .bin o → ∃ a w, DOp.ref a w ∈ i.ops

/-- Reorderable operations on results of operations of the same kind are in the same block. -/
def LocalTrees (f : DFun) : Prop :=
  ∀ B ∈ f.blocks, ∀ i ∈ B.code, ∀ j ∈ f.all, ∀ o w, i.code = .bin o → j.code = .bin o →
    DOp.ref j.id w ∈ i.ops → j ∈ B.code

end DK.Spec
