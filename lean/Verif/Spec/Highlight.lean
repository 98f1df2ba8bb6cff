import Verif.Model.Highlight

/-! Specification: the rows of a diff and the lines that a user sees marked. -/

set_option autoImplicit false

namespace DK.Spec
open DK

/-- Rows of a diff: no line of a version is in two rows. -/
def DiffRows (rows : List VRow) : Prop :=
  ∀ r ∈ rows, ∀ r' ∈ rows, (∃ l, r.oldLine = some l ∧ r'.oldLine = some l) ∨ (∃ l, r.newLine = some l ∧ r'.newLine = some l) → r = r'

/-- Line `l` of the old version is among the rows. -/
def ShowsOld (rows : List VRow) (l : Nat) : Prop := ∃ r ∈ rows, r.oldLine = some l

/-- Line `l` of the new version is among the rows. -/
def ShowsNew (rows : List VRow) (l : Nat) : Prop := ∃ r ∈ rows, r.newLine = some l

/-- The unchanged rows with a line of the call have the lines of both calls. -/
def CallsAligned (rows : List VRow) (o n : Nat) : Prop := ∀ o' n', VRow.normal o' n' ∈ rows → (o' = o ↔ n' = n)

end DK.Spec
