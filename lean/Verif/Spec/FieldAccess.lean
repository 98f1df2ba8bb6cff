import Verif.Model.FieldAccess

/-! What blocks do, and programs whose accesses are split into steps, for C124 and C125. -/

set_option autoImplicit false

namespace DK.Spec
open DK

/-- What is observable: the other instructions that are executed, with the values of their
operands. -/
abbrev FTrace := List (Nat × List Nat)

/-- The value of an operand, for the values of the arguments and of the instructions so far. -/
def fval (args : Nat → Nat) (vals : List Nat) : FVal → Nat
  | .arg n => args n
  | .inst i => vals.getD i 0

/-- Execution. The result of an instruction that is no address computation (a load, a call) is given
by `world` and depends on all that was executed so far. -/
def frun (args : Nat → Nat) (world : FTrace → Nat) : List FInst → List Nat → FTrace → FTrace
  | [], _, tr => tr
  | .gep p o :: is, vals, tr =>
    frun args world is (vals ++ [(fval args vals p + o) % 2 ^ 64]) tr
  | .cast v :: is, vals, tr => frun args world is (vals ++ [fval args vals v]) tr
  | .op c as :: is, vals, tr =>
    let tr := tr ++ [(c, as.map (fval args vals))]
    frun args world is (vals ++ [world tr]) tr

/-- The trace of a block. -/
def ftrace (args : Nat → Nat) (world : FTrace → Nat) (prog : List FInst) : FTrace :=
  frun args world prog [] []

/-- The operands of an instruction. -/
def foperands : FInst → List FVal
  | .gep p _ => [p]
  | .cast v => [v]
  | .op _ as => as

/-- Operands are one of `n` arguments or results of instructions before; the last instruction (the
terminator) is no address computation and no cast. -/
def FWellFormed (n : Nat) (prog : List FInst) : Prop :=
  (∀ (i : Nat) (x : FInst), prog[i]? = some x → ∀ v ∈ foperands x,
    (∀ k, v = .arg k → k < n) ∧ ∀ k, v = .inst k → k < i) ∧
  ∃ c as, prog.getLast? = some (.op c as)

/-- Offsets of address computations are not zero and fit in 32 bits with sign, and there are no
casts. -/
def SmallSteps (prog : List FInst) : Prop :=
  ∀ x ∈ prog, (∀ v, x ≠ .cast v) ∧ ∀ p o, x = .gep p o → 0 < o ∧ throughInt o = o

/-- A pointer from which the next instruction computes an address is used by this instruction
only. -/
def InnerOnce (prog : List FInst) : Prop :=
  ∀ (i : Nat) (p : FVal) (o o' : Nat), prog[i]? = some (.gep p o) →
    prog[i + 1]? = some (.gep (.inst i) o') →
    ∀ (k : Nat) (x : FInst), prog[k]? = some x → .inst i ∈ foperands x → k = i + 1

/-- The number of steps that continue an access whose last step is at position `i - 1`, where `is`
are the instructions from position `i`. -/
def moreSteps : List FInst → Nat → Nat
  | .gep q _ :: is, i => if q = .inst (i - 1) then moreSteps is (i + 1) + 1 else 0
  | _, _ => 0

/-- The numbers of steps of the accesses, in order: `is` are the instructions from position `i`, and
`skip` is the number of steps of the current access that are left. -/
def accessSteps : List FInst → Nat → Nat → List Nat
  | [], _, _ => []
  | .gep _ _ :: is, i, 0 =>
    (moreSteps is (i + 1) + 1) :: accessSteps is (i + 1) (moreSteps is (i + 1))
  | .gep _ _ :: is, i, skip + 1 => accessSteps is (i + 1) skip
  | _ :: is, i, _ => accessSteps is (i + 1) 0

/-! ### Programs with accesses -/

/-- A value of a program with accesses: an argument or the result of an item. -/
inductive ARef where
  | arg (n : Nat)
  | item (k : Nat)
  deriving DecidableEq

/-- A program with accesses: other instructions, and accesses to a pointer. -/
inductive AItem where
  | op (code : Nat) (args : List ARef)
  | access (ptr : ARef)
  deriving DecidableEq

/-- The value in the block, for the positions of the results of the items. -/
def aref (ends : List Nat) : ARef → FVal
  | .arg n => .arg n
  | .item k => .inst (ends.getD k 0)

/-- The steps of an access, from position `pos`. -/
def asteps : FVal → Nat → List Nat → List FInst
  | _, _, [] => []
  | p, pos, o :: os => .gep p o :: asteps (.inst pos) (pos + 1) os

/-- The block for a program, where `offs` gives the offsets of the steps of each access. -/
def lowerGo : List AItem → List (List Nat) → List Nat → Nat → List FInst
  | .op c as :: s, _ :: os, ends, pos =>
    .op c (as.map (aref ends)) :: lowerGo s os (ends ++ [pos]) (pos + 1)
  | .access p :: s, o :: os, ends, pos =>
    asteps (aref ends p) pos o ++ lowerGo s os (ends ++ [pos + o.length - 1]) (pos + o.length)
  | _, _, _, _ => []

def lower (s : List AItem) (offs : List (List Nat)) : List FInst := lowerGo s offs [] 0

/-- The values that an item uses. -/
def arefs : AItem → List ARef
  | .op _ as => as
  | .access p => [p]

/-- Items use one of `n` arguments or items before. -/
def AWellFormed (n : Nat) (s : List AItem) : Prop :=
  ∀ (i : Nat) (x : AItem), s[i]? = some x → ∀ v ∈ arefs x,
    (∀ k, v = .arg k → k < n) ∧ ∀ k, v = .item k → k < i

/-- The steps of two versions of an access: at least one step, none of which is zero, and the same
sum, below 2 GiB. -/
def SameSum (o o' : List Nat) : Prop :=
  o ≠ [] ∧ o' ≠ [] ∧ (∀ x ∈ o, 0 < x) ∧ (∀ x ∈ o', 0 < x) ∧ o.sum = o'.sum ∧ o.sum < 2 ^ 31

end DK.Spec
