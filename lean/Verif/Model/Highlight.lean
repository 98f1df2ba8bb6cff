import Verif.Model.Text

/-! Highlighted lines of the viewer, view/src/components/DiffViewWrapper.jsx 52-70. -/

set_option autoImplicit false

namespace DK

/-- A row of a diff as the package react-diff-view has it: the same line in both versions, an added or a removed line. -/
inductive VRow where
  | normal (old new : Nat)
  | insert (new : Nat)
  | delete (old : Nat)
  deriving DecidableEq, Repr

/-- Line in the old version. -/
def VRow.oldLine : VRow → Option Nat
  | .normal o _ => some o
  | .insert _ => none
  | .delete o => some o

/-- Line in the new version. -/
def VRow.newLine : VRow → Option Nat
  | .normal _ n => some n
  | .insert n => some n
  | .delete _ => none

/-- `getChangeKey` of react-diff-view: a letter and a number; the text made of both is left out, as it determines them. -/
def VRow.key : VRow → Char × Nat
  | .normal o _ => ('N', o)
  | .insert n => ('I', n)
  | .delete o => ('D', o)

/-- `findChangeByOldLineNumber` of react-diff-view, for the rows of all hunks. -/
def findOldRow (rows : List VRow) (line : Nat) : Option VRow := rows.find? (fun r => decide (r.oldLine = some line))

/-- `findChangeByNewLineNumber` of react-diff-view, for the rows of all hunks. -/
def findNewRow (rows : List VRow) (line : Nat) : Option VRow := rows.find? (fun r => decide (r.newLine = some line))

/-- `getLinesToHighlight`, DiffViewWrapper.jsx 57-70. -/
def linesToHighlight (toShow : Option (Nat × Nat)) (rows : List VRow) : List (Char × Nat) :=
  match toShow with
  | none => []
  | some (o, n) =>
    match findOldRow rows o, findNewRow rows n with
    | some r, some r' => if r.key = r'.key then [r.key] else [r.key, r'.key]
    | _, _ => []

/-- The rows that `Diff` of react-diff-view marks, `selectedChanges` at DiffViewWrapper.jsx 214: in a row with a line of both
versions, both are marked. -/
def markedRows (toShow : Option (Nat × Nat)) (rows : List VRow) : List VRow :=
  rows.filter (fun r => (linesToHighlight toShow rows).contains r.key)

end DK
