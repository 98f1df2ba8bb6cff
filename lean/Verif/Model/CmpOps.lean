import Verif.Model.NamedTypes
import Verif.Model.DiffCmp

/-!
Model of the comparison of two comparison instructions with the patterns for type casts and for inverse conditions
(diffkemp/simpll/DifferentialFunctionComparator.cpp 267-399). Their operands are compared as values afterwards and are
not part of this model.
-/

set_option autoImplicit false

namespace DK

/-- A comparison: its predicate and the type of its operands. -/
structure CmpI where
  pred : Pred
  ty : NTy

/-- `isa<ICmpInst>`: the predicates of integers. -/
def Pred.isInt : Pred → Bool
  | .f _ => false
  | _ => true

/-- `ICmpInst::getUnsignedPredicate` of LLVM. -/
def Pred.unsigned : Pred → Pred
  | .sgt => .ugt
  | .sge => .uge
  | .slt => .ult
  | .sle => .ule
  | p => p

/-- The patterns: those of the comparison of types, and inverse conditions. -/
structure CmpPats where
  tys : TyPats
  inverse : Bool

/-- How the comparison of two comparisons ends: they are equal, they are remembered as inverse conditions, or they
differ. -/
inductive CmpRes where
  | equal
  | inverse
  | differ
  deriving DecidableEq, Repr

/-- `cmpOperations`, lines 276-279 and 349-399, for two comparisons: the inherited `cmpOperations` compares the types of
the operands and the predicates (llvm-lib/16/FunctionComparator.cpp 553-611); opcodes differ if one of the predicates is
of integers only. `users` tells whether both results are used by branches only (`checkInverseCondUsers`, lines
2116-2136). -/
def cmpCmps (c : CmpPats) (sizeL sizeR : NTy → Nat) (p : Nat) (users : Bool) (l r : CmpI) : CmpRes :=
  let types := decide (cmpNamed c.tys sizeL sizeR p l.ty r.ty = 0)
  if types && decide (l.pred = r.pred) then .equal
  else if c.tys.casts && l.pred.isInt && r.pred.isInt && decide (l.pred.unsigned = r.pred.unsigned) then .equal
  else if c.inverse && types && decide (l.pred = r.pred.inverse) && users then .inverse
  else .differ

end DK
