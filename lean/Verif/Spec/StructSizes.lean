import Verif.Model.StructSizes

/-! Specification: constants that are the sizes of a structure. -/

set_option autoImplicit false

namespace DK.Spec
open DK

/-- In the module, the structure has this size. -/
def HasSize (m : List SizedStruct) (name : Str) (size : Nat) : Prop :=
  ∃ t ∈ m, t.name = name ∧ t.sized = true ∧ t.size = size

end DK.Spec
