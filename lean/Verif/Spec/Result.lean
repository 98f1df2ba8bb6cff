import Verif.Model.Graph

/-! Specification of verdicts (C01, C02). -/

set_option autoImplicit false

namespace DK.Spec

/-- The verdicts in increasing priority. -/
def priority : List Kind := [.none, .equal, .assumedEqual, .notEqual, .unknown, .timeout, .error]

/-- `b` has at least the priority of `a`. -/
def AtMost (a b : Kind) : Prop := priority.idxOf a ≤ priority.idxOf b

instance (a b : Kind) : Decidable (AtMost a b) := by unfold AtMost; infer_instance

/-- `w` is the worst of the verdicts in a list. -/
def Worst (ks : List Kind) (w : Kind) : Prop := w ∈ ks ∧ ∀ k ∈ ks, AtMost k w

/-- The verdicts for which a number is printed. -/
def Counted (k : Kind) : Prop := k = .equal ∨ k = .notEqual ∨ k = .unknown ∨ k = .error ∨ k = .timeout

end DK.Spec
