import Verif.Model.CallAttrs

/-! Specification: attributes of calls and functions without result. -/

set_option autoImplicit false

namespace DK.Spec
open DK

/-- Attributes that LLVM does not accept at a result of type void (`AttributeFuncs::typeIncompatible`): they tell something
about a number, a pointer or a value. -/
def NeedsValue : AttrKind → Prop
  | .noReturn => False
  | .other _ => False
  | _ => True

/-- The attributes at the result fit its type. -/
def ResultFits (isVoid : Bool) (a : AttrList) : Prop := isVoid = true → ∀ x ∈ a.ret, ¬ NeedsValue x.kind

/-- The attributes of an argument; none if nothing is known about it. -/
def argAttrs (a : AttrList) (i : Nat) : List AttrVal := a.args.getD i []

end DK.Spec
