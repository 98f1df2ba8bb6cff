import Verif.Spec.DiffSem

/-!
Functions in which relocated code cannot matter: used for the property about relocations.
-/

set_option autoImplicit false

namespace DK.Spec

/-- The instruction may change memory, or have another effect. -/
def writesMem (i : DInst) : Bool :=
  match i.code with
  | .store | .call _ | .other _ => true
  | _ => false

/-- The instruction reads memory, or may change it. -/
def usesMem (i : DInst) : Bool := writesMem i || decide (i.code = .load)

/-- A function with one block that returns. -/
def Straight (f : DFun) : Prop :=
  (∃ B, f.blocks = [B]) ∧ ∀ i ∈ f.all, i.code ≠ .jump ∧ i.code ≠ .branch

/-- At most one instruction has effects, and no instruction after it reads memory. -/
def Calm (f : DFun) : Prop :=
  ∀ pre i suf, f.all = pre ++ i :: suf → usesMem i = true → ∀ j ∈ pre, writesMem j = false

end DK.Spec
