import Verif.Model.Text

/-! Comparison of constants with and without the pattern for type casts (simpll/DifferentialFunctionComparator.cpp 1592-1623,
1698-1705 and 1717-1730, simpll/llvm-lib/16/FunctionComparator.cpp 214-419). -/

set_option autoImplicit false

namespace DK

/-- Casts of constants. -/
inductive KCast where
  | trunc | zext | sext | ptrToInt | intToPtr
  deriving DecidableEq, Repr

/-- Operations on two constants. -/
inductive KBin where
  | add | sub | mul
  deriving DecidableEq, Repr

/-- Constants: integers of a width, null pointers, addresses of global values, and constant expressions: casts (with the width
of the result, for integers), operations, and addresses of elements (with the size of the elements, for one index).
Vectors, aggregates, numbers with a floating point and address spaces are left out. -/
inductive VConst where
  | int (w v : Nat)
  | null
  | glob (name : Str)
  | cast (op : KCast) (w : Nat) (c : VConst)
  | bin (op : KBin) (a b : VConst)
  | gep (elem : Nat) (base idx : VConst)
  deriving DecidableEq, Repr

/-- Types of these constants. -/
inductive KTy where
  | int (w : Nat)
  | ptr
  deriving DecidableEq, Repr

/-- The type of a constant. -/
def VConst.ty : VConst → KTy
  | .int w _ => .int w
  | .null => .ptr
  | .glob _ => .ptr
  | .cast .intToPtr _ _ => .ptr
  | .cast _ w _ => .int w
  | .bin _ a _ => a.ty
  | .gep _ _ _ => .ptr

/-- `isNullValue` -/
def VConst.isNull : VConst → Bool
  | .int _ v => v = 0
  | .null => true
  | _ => false

/-- `cmpTypes` of DifferentialFunctionComparator.cpp, 1698-1708, for these types; `true` for the result 0. -/
def sameKTy (casts : Bool) : KTy → KTy → Bool
  | .int w, .int w' => if casts && !(w = 1 || w' = 1) then true else w = w'
  | .ptr, .ptr => true
  | _, _ => false

/-- `cmpAPInts`, 1717-1730; `true` for the result 0. -/
def sameKInt (casts : Bool) (w v w' v' : Nat) : Bool := (w = w' && v = v') || (casts && v = v')

/-- `cmpConstants`, 1594-1623, with `FunctionComparator::cmpConstants`, 214-419, where constant expressions are compared by
their operands (357-370); `true` for the result 0. Global values are compared by name here. -/
def cmpVConst (casts : Bool) (l r : VConst) : Bool :=
  (sameKTy casts l.ty r.ty &&
    if l.isNull || r.isNull then l.isNull && r.isNull
    else
      match l, r with
      | .int w v, .int w' v' => sameKInt casts w v w' v'
      | .glob n, .glob n' => n = n'
      | .cast _ _ a, .cast _ _ b => cmpVConst casts a b
      | .bin _ a b, .bin _ a' b' => cmpVConst casts a a' && cmpVConst casts b b'
      | .bin _ a b, .gep _ a' b' => cmpVConst casts a a' && cmpVConst casts b b'
      | .gep _ a b, .bin _ a' b' => cmpVConst casts a a' && cmpVConst casts b b'
      | .gep _ a b, .gep _ a' b' => cmpVConst casts a a' && cmpVConst casts b b'
      | _, _ => false) ||
  (casts &&
    match l, r with
    | .cast _ _ a, .cast _ _ b => cmpVConst casts a b
    | .cast _ _ a, r => cmpVConst casts a r
    | l, .cast _ _ b => cmpVConst casts l b
    | _, _ => false)
termination_by sizeOf l + sizeOf r

end DK
