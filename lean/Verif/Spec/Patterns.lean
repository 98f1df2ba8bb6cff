import Verif.Spec.DiffSem

/-!
Specification: functions without loops, and patterns that are added.
-/

set_option autoImplicit false

namespace DK.Spec

/-- No loops: blocks have ranks such that every successor has a higher rank. -/
def NoLoops (f : DFun) : Prop :=
  ∃ rank : Nat → Nat, ∀ B ∈ f.blocks, ∀ i ∈ B.code, ∀ b, DOp.blk b ∈ i.ops → rank B.id < rank b

/-- Every pattern of the first configuration is in the second one. -/
def MorePatterns (c d : DCfg) : Prop :=
  (c.reorder = true → d.reorder = true) ∧ (c.inverse = true → d.inverse = true) ∧
  (c.reloc = true → d.reloc = true) ∧ c.past = d.past

end DK.Spec
