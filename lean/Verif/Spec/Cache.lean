import Verif.Model.Cache

/-! Specification of the cache of compared functions (C14–C16). -/

set_option autoImplicit false

namespace DK.Spec

/-- A sequence of updates of the cache: the state of the objects and the vertices at the time of each update. -/
abbrev History := List (Heap × List Vid)

/-- In some update, a cachable function named `p.1`/`p.2` from the files `l`/`r` was given to the cache. -/
def Written (hist : History) (l r : Str) (p : Str × Str) : Prop :=
  ∃ x ∈ hist, ∃ v ∈ x.2, (x.1 v).cachable = true ∧ (x.1 v).files .left = some l ∧ (x.1 v).files .right = some r ∧
    ((x.1 v).names .left, (x.1 v).names .right) = p

/-- Function names as they occur in C: not empty, no colon and no newline. -/
def GoodName (n : Str) : Prop := n ≠ [] ∧ ':' ∉ n ∧ '\n' ∉ n

instance (n : Str) : Decidable (GoodName n) := by unfold GoodName; infer_instance

/-- All functions given to the cache have good names. -/
def GoodNames (hist : History) : Prop :=
  ∀ x ∈ hist, ∀ v ∈ x.2, ∀ s, GoodName ((x.1 v).names s)

/-- All functions given to the cache have files on both sides that satisfy `P`. -/
def FilesAre (P : Str → Str → Prop) (hist : History) : Prop :=
  ∀ x ∈ hist, ∀ v ∈ x.2, ∃ l r, (x.1 v).files .left = some l ∧ (x.1 v).files .right = some r ∧ P l r

end DK.Spec
