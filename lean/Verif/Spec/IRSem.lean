import Verif.Model.IR

/-!
Execution of functions in the modelled part of LLVM IR (C43). The meaning of the individual
operations (arithmetic, memory accesses, calls of other functions, ...) is an arbitrary `Machine`;
control flow, SSA values, phis, address computations and recursive calls are defined here.
An operation sees everything of its instruction except the names of values and blocks, with
pointers of the default address space not distinguished from integers of the same size.
-/

set_option autoImplicit false

namespace DK.Spec

mutual
/-- A type in which pointers of the default address space are integers. -/
def normTy (p : Nat) : Ty → Ty
  | .int w => .int w
  | .ptr s => if s = 0 then .int p else .ptr s
  | .prim id => .prim id
  | .struct k es => .struct k (normTys p es)
  | .func r ps v => .func (normTy p r) (normTys p ps) v
  | .array n e => .array n (normTy p e)
  | .vec s n e => .vec s n (normTy p e)
def normTys (p : Nat) : List Ty → List Ty
  | [] => []
  | t :: ts => normTy p t :: normTys p ts
end

/-- The type of an aggregate as far as it is part of its content: the type of a vector is not. -/
def contentTy (p : Nat) : Ty → Ty
  | .vec _ _ _ => .prim 7
  | t => normTy p t

mutual
/-- The content of a constant: zeros of all kinds are the null value of their type; the types of
data sequences and of vectors with elements are given by their content. -/
def normConst (p : Nat) : Const → Const
  | .int w v => if v = 0 then .null (.int w) else .int w v
  | .fp t b => if b = 0 then .null (.prim t) else .fp t b
  | .null t => .null (normTy p t)
  | .undef t => .undef (normTy p t)
  | .poison t => .poison (normTy p t)
  | .global g => .global g
  | .data _ bs => .data (.prim 7) bs
  | .aggr k t es => .aggr k (contentTy p t) (normConsts p es)
  | .expr op t es => .expr op (normTy p t) (normConsts p es)
def normConsts (p : Nat) : List Const → List Const
  | [] => []
  | c :: cs => normConst p c :: normConsts p cs
end

/-- Attributes up to pointer types. -/
def normAttr (p : Nat) : Attr → Attr
  | .num k v => .num k v
  | .ty k t => .ty k (t.map (normTy p))

/-- Special state without names of blocks and up to pointer types. -/
def normSpecial (p : Nat) : Special → Special
  | .gep t => .gep (normTy p t)
  | .alloca t a => .alloca (normTy p t) a
  | .call c as bs t m => .call c (as.map (·.map (normAttr p))) bs t m
  | .phi _ => .phi []
  | s => s

/-- Inline assembly up to pointer types. -/
def normAsm (p : Nat) (a : Asm) : Asm := { a with ty := normTy p a.ty }

/-- What an operation can depend on besides the values of its operands. -/
structure Info where
  opcode : Nat
  ty : Ty
  flags : Nat
  opTys : List Ty
  special : Special

/-- Everything of an instruction but names. -/
def info (p : Nat) (i : Inst) : Info :=
  ⟨i.opcode, normTy p i.ty, i.flags, i.ops.map (fun o => normTy p o.2), normSpecial p i.special⟩

/-- How a terminator leaves a block. -/
inductive Exit (V : Type) where
  /-- to a successor, possibly with a result (of an invoke) -/
  | goto (succ : Nat) (result : Option V)
  | ret (result : Option V)

/-- The meaning of operations. Operations may fail (undefined behaviour), change the memory and
produce events (such as calls of external functions). -/
structure Machine where
  Val : Type
  Mem : Type
  Ev : Type
  /-- values of constants (of their content) -/
  const : Const → Val
  asm : Asm → Val
  /-- address of the function itself -/
  self : Val
  /-- address computation: source type, pointer and indices -/
  gep : Ty → Val → List Val → Val
  /-- addition of a number of bytes to an address -/
  addBytes : Val → Nat → Val
  op : Info → List Val → Mem → Option (Option Val × Mem × List Ev)
  term : Info → List Val → Mem → Option (Exit Val × Mem × List Ev)

/-- The data layout computes constant offsets as the machine does. -/
def LayoutCorrect (lay : Layout) (M : Machine) : Prop :=
  ∀ src cs k ptr, lay.offset src cs = some k →
    M.gep (normTy lay.ptrBits src) ptr (cs.map fun c => M.const (normConst lay.ptrBits c)) =
      M.addBytes ptr k

/-- The value of an operand; `none` for an undefined value. Blocks have no value. -/
def evalOpnd (M : Machine) (p : Nat) (env : Nat → Option M.Val) : Opnd → Option M.Val
  | .const c => some (M.const (normConst p c))
  | .ref (.val v) => env v
  | .ref (.blk _) => none
  | .asm a => some (M.asm (normAsm p a))
  | .self => some M.self

/-- The values of all operands that are not blocks. -/
def evalOps (M : Machine) (p : Nat) (env : Nat → Option M.Val) :
    List (Opnd × Ty) → Option (List M.Val)
  | [] => some []
  | (.ref (.blk _), _) :: os => evalOps M p env os
  | (o, _) :: os =>
    match evalOpnd M p env o, evalOps M p env os with
    | some v, some vs => some (v :: vs)
    | _, _ => none

/-- Assignment of a value to a name. -/
def setVal {V : Type} (env : Nat → Option V) (x : Nat) (v : Option V) : Nat → Option V :=
  fun y => if y = x then v else env y

/-- One activation of the function: the remaining instructions of the current block, its
terminator, and the values. -/
structure Frame (V : Type) where
  blk : Nat
  rest : List Inst
  term : Inst
  env : Nat → Option V

/-- A state of the execution: the current activation, the suspended ones with the name that
receives the result, the memory and the events so far (last first). -/
inductive State (M : Machine) where
  | run (cur : Frame M.Val) (callers : List (Nat × Frame M.Val)) (mem : M.Mem) (trace : List M.Ev)
  | done (result : Option M.Val) (mem : M.Mem) (trace : List M.Ev)
  | stuck (trace : List M.Ev)

/-- Whether an instruction is a phi. -/
def isPhi (i : Inst) : Bool :=
  match i.special with
  | .phi _ => true
  | _ => false

/-- Incoming operand of a phi for a predecessor. -/
def incoming (pred : Nat) : List Nat → List (Opnd × Ty) → Option Opnd
  | b :: bs, o :: os => if b = pred then some o.1 else incoming pred bs os
  | _, _ => none

/-- Incoming value of a phi. -/
def phiValue (M : Machine) (p : Nat) (env : Nat → Option M.Val) (pred : Nat) (i : Inst) :
    Option M.Val :=
  match i.special with
  | .phi bs => (incoming pred bs i.ops).bind (evalOpnd M p env)
  | _ => none

/-- All phis of a block are evaluated in the old values, then assigned. -/
def enterPhis (M : Machine) (p : Nat) (old : Nat → Option M.Val) (pred : Option Nat) :
    List Inst → (Nat → Option M.Val) → Option (Nat → Option M.Val)
  | [], env => some env
  | i :: is, env =>
    match pred.bind (fun b => phiValue M p old b i) with
    | some v => enterPhis M p old pred is (setVal env i.id (some v))
    | none => none

/-- Entering a block from a predecessor (none for the entry of the function). -/
def enter (M : Machine) (p : Nat) (f : Fn) (pred : Option Nat) (b : Nat)
    (env : Nat → Option M.Val) : Option (Frame M.Val) :=
  match f.find b with
  | none => none
  | some B =>
    match enterPhis M p env pred (B.insts.takeWhile isPhi) env with
    | none => none
    | some env' => some ⟨b, B.insts.dropWhile isPhi, B.term, env'⟩

/-- The values of the arguments. -/
def bindArgs {V : Type} : List (Nat × Ty) → List V → Option (Nat → Option V)
  | [], [] => some fun _ => none
  | a :: as, v :: vs => (bindArgs as vs).map fun env => setVal env a.1 (some v)
  | _, _ => none

/-- A new activation. -/
def activate (M : Machine) (p : Nat) (f : Fn) (args : List M.Val) : Option (Frame M.Val) :=
  (bindArgs f.args args).bind (enter M p f none f.entry.id)

/-- Whether an instruction calls the function itself (the callee is the last operand). -/
def callsSelf (i : Inst) : Bool :=
  (match i.special with
    | .call _ _ _ _ _ => true
    | _ => false) &&
  (match i.ops.getLast? with
    | some (.self, _) => true
    | _ => false)

/-- One instruction that is not a terminator: the result, or a recursive call with arguments. -/
inductive Effect (M : Machine) where
  | result (v : Option M.Val) (mem : M.Mem) (evs : List M.Ev)
  | recurse (args : List M.Val)
  | fail

/-- Effect of an instruction that is not a terminator. -/
def execInst (M : Machine) (p : Nat) (env : Nat → Option M.Val) (mem : M.Mem) (i : Inst) :
    Effect M :=
  match i.special, i.ops with
  | .phi _, _ => .fail
  | .gep _, [] => .fail
  | .gep src, ptr :: idx =>
    match evalOpnd M p env ptr.1, evalOps M p env idx with
    | some a, some vs => .result (some (M.gep (normTy p src) a vs)) mem []
    | _, _ => .fail
  | _, ops =>
    if callsSelf i then
      match evalOps M p env ops.dropLast with
      | some vs => .recurse vs
      | none => .fail
    else
      match (evalOps M p env ops).bind (fun vs => M.op (info p i) vs mem) with
      | some (v, mem', evs) => .result v mem' evs
      | none => .fail

/-- Assignment of an optional result. -/
def setResult {V : Type} (env : Nat → Option V) (x : Nat) (v : Option V) : Nat → Option V :=
  match v with
  | some v => setVal env x (some v)
  | none => env

/-- Effect of a terminator (an address computation is none). -/
def execTerm (M : Machine) (p : Nat) (env : Nat → Option M.Val) (mem : M.Mem) (i : Inst) :
    Option (Exit M.Val × M.Mem × List M.Ev) :=
  match i.special with
  | .gep _ => none
  | _ => (evalOps M p env i.ops).bind fun vs => M.term (info p i) vs mem

/-- One step. -/
def step (M : Machine) (p : Nat) (f : Fn) : State M → State M
  | .run ⟨b, i :: rest, term, env⟩ callers mem tr =>
    match execInst M p env mem i with
    | .result v mem' evs => .run ⟨b, rest, term, setResult env i.id v⟩ callers mem' (evs ++ tr)
    | .recurse args =>
      match activate M p f args with
      | some fr => .run fr ((i.id, ⟨b, rest, term, env⟩) :: callers) mem tr
      | none => .stuck tr
    | .fail => .stuck tr
  | .run ⟨b, [], term, env⟩ callers mem tr =>
    match execTerm M p env mem term with
    | some (.goto k v, mem', evs) =>
      match (term.succs[k]?).bind
          (fun t => enter M p f (some b) t (setResult env term.id v)) with
      | some fr => .run fr callers mem' (evs ++ tr)
      | none => .stuck (evs ++ tr)
    | some (.ret v, mem', evs) =>
      match callers with
      | [] => .done v mem' (evs ++ tr)
      | (x, fr) :: callers => .run { fr with env := setResult fr.env x v } callers mem' (evs ++ tr)
    | none => .stuck tr
  | s => s

/-- The state before the first step. -/
def start (M : Machine) (p : Nat) (f : Fn) (args : List M.Val) (mem : M.Mem) : State M :=
  match activate M p f args with
  | some fr => .run fr [] mem []
  | none => .stuck []

/-- The state after `n` steps. -/
def runFn (M : Machine) (p : Nat) (f : Fn) (args : List M.Val) (mem : M.Mem) : Nat → State M
  | 0 => start M p f args mem
  | n + 1 => step M p f (runFn M p f args mem n)

/-- What can be observed of a state: the memory and the events at each moment, the depth of the
recursion, and the result or failure. -/
inductive Obs (M : Machine) where
  | running (depth : Nat) (mem : M.Mem) (trace : List M.Ev)
  | done (result : Option M.Val) (mem : M.Mem) (trace : List M.Ev)
  | stuck (trace : List M.Ev)

/-- Observation of a state. -/
def obs {M : Machine} : State M → Obs M
  | .run _ callers mem tr => .running callers.length mem tr
  | .done v mem tr => .done v mem tr
  | .stuck tr => .stuck tr

/-- Two functions behave equally: started with the same arguments and memory they show the same at
every moment (so they return the same result with the same memory and events, or both run forever
or both fail). -/
def SameBehaviour (lay : Layout) (M : Machine) (f g : Fn) : Prop :=
  ∀ args mem n, obs (runFn M lay.ptrBits f args mem n) = obs (runFn M lay.ptrBits g args mem n)

mutual
/-- No constant expression in a constant. -/
def NoExpr : Const → Prop
  | .expr _ _ _ => False
  | .aggr _ _ es => NoExprs es
  | _ => True
def NoExprs : List Const → Prop
  | [] => True
  | c :: cs => NoExpr c ∧ NoExprs cs
end

/-- No constant expression among the operands of a function. -/
def FnNoExpr (f : Fn) : Prop :=
  ∀ B ∈ f.blocks, ∀ i ∈ B.code, ∀ o ∈ i.ops, ∀ c, o.1 = .const c → NoExpr c

end DK.Spec
