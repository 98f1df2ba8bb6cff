import Verif.Model.Logger

/-! Specification of the log of comparisons. -/

set_option autoImplicit false

namespace DK.Spec
open DK

/-- A comparison is shown if a difference was found in it and in all comparisons around it. With the higher level of
verbosity important comparisons are shown even without a difference, also inside of other important comparisons. `around`
gives, for each comparison around, whether a difference was found and whether it is important. -/
def ShownCmp (around : List (Bool × Bool)) (differs important : Bool) : Prop :=
  (differs = true ∨ important = true) ∧ ∀ a ∈ around, a.1 = true ∨ (a.2 = true ∧ important = true)

instance (around : List (Bool × Bool)) (differs important : Bool) : Decidable (ShownCmp around differs important) := by
  unfold ShownCmp; infer_instance

/-- The expected log: the shown comparisons in the order in which they begin, indented by their depth. -/
def expectedLog (extra : Bool) : List (Bool × Bool) → CmpRun → List (Nat × Str)
  | _, .done => []
  | around, .cmp m inside keep e next =>
    (if ShownCmp around keep (e && extra) then [(around.length, m)] else []) ++
      expectedLog extra ((keep, e && extra) :: around) inside ++ expectedLog extra around next
  | around, .skip _ next => expectedLog extra around next

/-- No comparison of assumed-equal global values. -/
def NoSkips : CmpRun → Prop
  | .done => True
  | .cmp _ inside _ _ next => NoSkips inside ∧ NoSkips next
  | .skip _ _ => False

end DK.Spec
