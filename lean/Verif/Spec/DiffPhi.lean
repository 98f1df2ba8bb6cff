import Verif.Spec.DiffSem

/-!
What is assumed about functions with phis.
-/

set_option autoImplicit false

namespace DK.Spec

/-- No conversions of types. -/
def NoConversions (f : DFun) : Prop := ∀ i ∈ f.all, ∀ k, i.code ≠ .cast k

/-- Two functions have the same control flow: there is a one-to-one correspondence of their blocks, the
entries correspond, and targets of corresponding blocks correspond in their order. -/
def EqualFlow (l r : DFun) (φ : Nat → Nat) : Prop :=
  (∀ B Bs C Cs, l.blocks = B :: Bs → r.blocks = C :: Cs → C.id = φ B.id) ∧
  (∀ B ∈ l.blocks, ∀ C ∈ l.blocks, φ B.id = φ C.id → B.id = C.id) ∧
  ∀ B ∈ l.blocks, ∃ C ∈ r.blocks, C.id = φ B.id ∧
    ∀ t u, B.code.getLast? = some t → C.code.getLast? = some u → (targets t).map φ = targets u

/-- No negations of conditions: no exclusive or of a bit with a one. -/
def NoNegations (f : DFun) : Prop :=
  ∀ i ∈ f.all, ¬ (i.code = .bin .xor ∧ i.ty = 1 ∧ ∃ x w, i.ops = [x, .const w (-1)])

/-- Every block can be reached from the entry. -/
def AllReached (f : DFun) : Prop := ∀ B ∈ f.blocks, ∃ way, Way f way B.id

/-- Phis are as the compiler requires: the entry has none, and a phi has exactly one incoming value for
each block that precedes its block. -/
structure PhisOk (f : DFun) : Prop where
  entry : ∀ B Bs, f.blocks = B :: Bs → ∀ i ∈ B.code, i.code ≠ .phi
  nodup : ∀ i ∈ f.all, i.code = .phi → i.inc.Nodup
  length : ∀ i ∈ f.all, i.code = .phi → i.inc.length = i.ops.length
  inc : ∀ B ∈ f.blocks, ∀ i ∈ B.code, i.code = .phi →
    ∀ c, c ∈ i.inc ↔ ∃ C, f.find c = some C ∧ B.id ∈ C.succs []

/-- A phi that is an incoming value of a phi is used by another instruction, too. -/
def PhisUsed (f : DFun) : Prop :=
  ∀ i ∈ f.all, ∀ j ∈ f.all, ∀ w, i.code = .phi → j.code = .phi → DOp.ref i.id w ∈ j.ops →
    ∃ k ∈ f.all, k.code ≠ .phi ∧ ∃ w', DOp.ref i.id w' ∈ k.ops

end DK.Spec
