import Verif.Model.Snapshot
import Verif.Lemmas.Paths

/-! Specification vocabulary for snapshots (C25–C27, C69). -/

set_option autoImplicit false

namespace DK.Spec

/-- An addition to a snapshot: name, description, group. -/
abbrev Addition := Str × FunDesc × Option Str

/-- The description given by the last addition of the name to the group. -/
def lastAddition (name : Str) (group : Option Str) : List Addition → Option FunDesc
  | [] => none
  | a :: as =>
    match lastAddition name group as with
    | some d => some d
    | none => if a.1 = name ∧ a.2.2 = group then some a.2.1 else none

/-- The file with components `rel` below the directory `dir`. -/
def IsBelow (cwd : List Str) (dir p : Str) (rel : List Str) : Prop :=
  rel ≠ [] ∧ absComps cwd p = absComps cwd dir ++ rel

/-- Description `d` (seen from working directory `cwd`, snapshot in `dir`) and description `d'` (seen from `cwd'`,
snapshot in `dir'`) agree: same variable and tag, both without module or modules at the same place in the snapshot. -/
def SameDesc (cwd : List Str) (dir : Str) (d : FunDesc) (cwd' : List Str) (dir' : Str) (d' : FunDesc) : Prop :=
  d'.globVar = d.globVar ∧ d'.tag = d.tag ∧
    ((d.mod = none ∧ d'.mod = none) ∨
     ∃ p p' rel, d.mod = some p ∧ d'.mod = some p' ∧ IsBelow cwd dir p rel ∧ IsBelow cwd' dir' p' rel)

/-- Working directories are lists of proper components. -/
def GoodDir (cwd : List Str) : Prop := ∀ w ∈ cwd, NormalComp w

end DK.Spec
