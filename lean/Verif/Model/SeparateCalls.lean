import Verif.Model.Py

/-!
Model of diffkemp/simpll/passes/SeparateCallsToBitcastPass.cpp: calls of functions through casts of them are
replaced by direct calls, with casts of arguments and results.
-/

set_option autoImplicit false

namespace DK

/-- Types: of integers of some width, and of pointers to something. -/
inductive CTy where
  | void
  | int (w : Nat)
  | ptr (p : Nat)
  deriving DecidableEq, Repr

/-- The type of a function. -/
structure FnTy where
  params : List CTy
  ret : CTy
  vararg : Bool

/-- A value with its type: an instruction or argument, or a constant. -/
inductive BVal where
  | ref (id : Nat) (ty : CTy)
  | const (v : Int) (ty : CTy)
  deriving DecidableEq, Repr

def BVal.ty : BVal → CTy
  | .ref _ t => t
  | .const _ t => t

/-- What is called: a function, a cast of a function, or something else. -/
inductive Callee where
  | fn (f : Nat)
  | castFn (f : Nat)
  | other (v : BVal)
  deriving DecidableEq, Repr

/-- Instructions: calls, bitcasts, and others (the number stands for what they do; terminators are among
them). Left out: attributes, calling conventions and debug locations. -/
inductive CIn where
  | call (id : Nat) (c : Callee) (args : List BVal) (ty : CTy)
  | cast (id : Nat) (x : BVal) (ty : CTy)
  | other (id : Nat) (code : Nat) (ops : List BVal) (ty : CTy)
  deriving DecidableEq, Repr

def CIn.id : CIn → Nat
  | .call i _ _ _ => i
  | .cast i _ _ => i
  | .other i _ _ _ => i

def CIn.ty : CIn → CTy
  | .call _ _ _ t => t
  | .cast _ _ t => t
  | .other _ _ _ t => t

/-- A phi: the values for the numbers of preceding blocks. -/
structure CPhi where
  id : Nat
  ty : CTy
  inc : List (Nat × BVal)
  deriving DecidableEq, Repr

structure CBlock where
  phis : List CPhi
  code : List CIn
  deriving DecidableEq, Repr

/-- A function: arguments, and blocks; the first one is the entry. -/
structure CFun where
  args : List (Nat × CTy)
  blocks : List CBlock
  deriving DecidableEq, Repr

/-- Replacements of calls and the next name. -/
structure SepSt where
  map : List (Nat × BVal)
  next : Nat

/-- The casts of arguments, lines 62-81, and the new arguments; remaining arguments are taken as they are,
lines 83-87. The first number is the next name. -/
def sepArgs : Nat → List CTy → List BVal → List CIn × List BVal × Nat
  | n, p :: ps, a :: as =>
    if a.ty = p then
      let x := sepArgs n ps as
      (x.1, a :: x.2.1, x.2.2)
    else
      let x := sepArgs (n + 1) ps as
      (.cast n a p :: x.1, .ref n p :: x.2.1, x.2.2)
  | n, _, as => ([], as, n)

/-- Is the call replaced? Lines 34-56. -/
def sepOk (sig : Nat → FnTy) : CIn → Option (Nat × Nat × List BVal × CTy)
  | .call i (.castFn f) args ty =>
    if args.length < (sig f).params.length then none
    else if (sig f).ret = .void ∧ ty ≠ .void then none
    else some (i, f, args, ty)
  | _ => none

/-- The cast of the result, lines 92-109. -/
def sepRet (n : Nat) (ret ty : CTy) : List CIn × BVal × Nat :=
  if ty ≠ ret ∧ ret ≠ .void then ([.cast (n + 1) (.ref n ret) ty], .ref (n + 1) ty, n + 2)
  else ([], .ref n ret, n + 1)

/-- The body of the loop for an instruction, lines 34-118: the code that replaces it. -/
def sepInst (sig : Nat → FnTy) (i : CIn) (st : SepSt) : List CIn × SepSt :=
  match sepOk sig i with
  | none => ([i], st)
  | some (id, f, args, ty) =>
    let x := sepArgs st.next (sig f).params args
    let y := sepRet x.2.2 (sig f).ret ty
    (x.1 ++ .call x.2.2 (.fn f) x.2.1 (sig f).ret :: y.1, ⟨(id, y.2.1) :: st.map, y.2.2⟩)

/-- The loop over instructions of a block. -/
def sepCode (sig : Nat → FnTy) : List CIn → SepSt → List CIn × SepSt
  | [], st => ([], st)
  | i :: is, st =>
    let x := sepInst sig i st
    let y := sepCode sig is x.2
    (x.1 ++ y.1, y.2)

/-- The loop over blocks. -/
def sepBlocks (sig : Nat → FnTy) : List CBlock → SepSt → List CBlock × SepSt
  | [], st => ([], st)
  | B :: Bs, st =>
    let x := sepCode sig B.code st
    let y := sepBlocks sig Bs x.2
    (⟨B.phis, x.1⟩ :: y.1, y.2)

/-- Replacement of a value. -/
def sepVal (m : List (Nat × BVal)) : BVal → BVal
  | .ref i t => (m.lookup i).getD (.ref i t)
  | .const v t => .const v t

def sepCallee (m : List (Nat × BVal)) : Callee → Callee
  | .other v => .other (sepVal m v)
  | c => c

/-- Replacement in an instruction. -/
def substIn (m : List (Nat × BVal)) : CIn → CIn
  | .call i c args ty => .call i (sepCallee m c) (args.map (sepVal m)) ty
  | .cast i x ty => .cast i (sepVal m x) ty
  | .other i k ops ty => .other i k (ops.map (sepVal m)) ty

def substPhi (m : List (Nat × BVal)) (p : CPhi) : CPhi := { p with inc := p.inc.map fun x => (x.1, sepVal m x.2) }

def substBlock (m : List (Nat × BVal)) (B : CBlock) : CBlock := ⟨B.phis.map (substPhi m), B.code.map (substIn m)⟩

/-- `SeparateCallsToBitcastPass::run`, lines 27-129; new instructions get names from the given number on.
The code replaces the uses of a call at once; here, all uses are replaced at the end, which gives the same
because no call is replaced by another replaced one. -/
def separateCalls (sig : Nat → FnTy) (next : Nat) (f : CFun) : CFun :=
  let x := sepBlocks sig f.blocks ⟨[], next⟩
  ⟨f.args, x.1.map (substBlock x.2.map)⟩

end DK
