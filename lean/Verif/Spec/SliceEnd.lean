import Verif.Model.SliceEnd
import Verif.Spec.SliceKeep

/-! Specification of the end of slicing. -/

set_option autoImplicit false

namespace DK.Spec
open DK

/-- Every block is reached from the first one. -/
def EachReached (f : SlBody) : Prop := ∃ e, f.blocks.head? = some e ∧ ∀ b ∈ f.blocks, Reached f.succ e b

/-- A phi has one value for each incoming block. -/
def OneValue (phi : List (Nat × Nat)) : Prop := ∀ b v w, (b, v) ∈ phi → (b, w) ∈ phi → v = w

/-- A phi after the removal of `bb`: the predecessors of `bb` take its place. -/
def withoutBlock (phi : List (Nat × Nat)) (preds : List Nat) (bb v : Nat) : List (Nat × Nat) :=
  (phi.filter fun e => decide (e.1 ≠ bb)) ++ preds.map fun p => (p, v)

end DK.Spec
