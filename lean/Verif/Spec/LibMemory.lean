import Verif.Model.LibMemory

/-! Specification: which memory the user can still reach. -/

set_option autoImplicit false

namespace DK.Spec
open DK

/-- The user refers to the object of this block, or to a function or table of this module. -/
def MemReachable (s : LibState) (b : Nat) : Prop :=
  s.held b = true ∨ ∃ i, s.held i = true ∧ ∃ m, s.objs i = some (.function b m) ∨ s.objs i = some (.table b m)

/-- The user asks for no data and child entries of sysctl tables. -/
def NoData (ops : List LibOp) : Prop := ∀ t, LibOp.data t ∉ ops

end DK.Spec
