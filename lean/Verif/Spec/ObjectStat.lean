import Verif.Model.ObjectStat

/-! Specification of the extended statistics. -/

set_option autoImplicit false

namespace DK.Spec
open DK

/-- Exactly `n` things have the property. -/
def CountOf {α : Type} (P : α → Prop) (n : Nat) : Prop := ∃ l : List α, l.Nodup ∧ (∀ x, x ∈ l ↔ P x) ∧ l.length = n

/-- The object with this name and kind is found to differ, with this text of the difference, in some compared function; it
is not an empty difference explained by another one. -/
def DiffersIn (r : Res) (name : Str) (kind : DiffKind) (diff : Option Str) : Prop :=
  ∃ x ∈ r.inner.values, ∃ y ∈ x.inner.values, y.first.name = name ∧ y.first.kind = kind ∧ y.diff = diff ∧
    ¬ (y.diff = some [] ∧ y.first.covered = true)

/-- Objects of different kinds have different names. -/
def NamesOfKinds (r : Res) : Prop :=
  ∀ name k k' d d', DiffersIn r name k d → DiffersIn r name k' d' → k = k'

/-- An object has the same difference wherever it is found. -/
def NamesOfDiffs (r : Res) : Prop :=
  ∀ name k k' d d', DiffersIn r name k d → DiffersIn r name k' d' → d = d'

end DK.Spec
