import Verif.Model.CmpOps

/-! What a user expects of comparisons that are found equal. -/

set_option autoImplicit false

namespace DK.Spec

/-- The outcome of a comparison of integers of a width (there is none for predicates of floating-point numbers). -/
def intOutcome {w : Nat} (x y : BitVec w) : Pred → Option Bool
  | .eq => some (x == y)
  | .ne => some (x != y)
  | .ugt => some (y.ult x)
  | .uge => some (y.ule x)
  | .ult => some (x.ult y)
  | .ule => some (x.ule y)
  | .sgt => some (y.slt x)
  | .sge => some (y.sle x)
  | .slt => some (x.slt y)
  | .sle => some (x.sle y)
  | .f _ => none

/-- A comparison of integers of the width `w`. -/
def ComparesInts (c : CmpI) (w : Nat) : Prop := c.ty = .int w ∧ ∀ m, c.pred ≠ .f m

/-- Two values of possibly different widths are the same number. -/
def SameNumberOf {w w' : Nat} (x : BitVec w) (x' : BitVec w') : Prop := x.toInt = x'.toInt

end DK.Spec
