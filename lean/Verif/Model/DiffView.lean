import Verif.Model.Py

/-! Model of the display of one function in the viewer, view/src/components/DiffViewWrapper.jsx. Only the lines of the old
version are modelled: a hunk is a range of old lines. The package react-diff-view is a parameter. -/

set_option autoImplicit false

namespace DK

/-- A hunk: `oldStart` and `oldLines`. -/
structure VHunk where
  start : Int
  lines : Nat
  deriving DecidableEq, Repr

/-- `expandFromRawCode(hunks, oldCode, start, end)` for the given code: the lines from `start` up to, but without, `end`. -/
abbrev ExpandFun := List VHunk → Int → Int → List VHunk

/-- `isFunctionLong`, DiffViewWrapper.jsx 23-31. -/
def isFunctionLong (s e : Int) : Bool := decide (e - s ≥ 25)

/-- `createFileStructure` for an empty diff and the result of `parseDiff` otherwise, DiffViewWrapper.jsx 41-50 and 112-118. -/
def fileHunks (diff : Option (List VHunk)) (s : Int) : List VHunk :=
  match diff with
  | none => [⟨s, 1⟩]
  | some hs => hs

/-- `expandHunks(startLine, endLine)`, DiffViewWrapper.jsx 123-128. -/
def expandHunks (ex : ExpandFun) (hs : List VHunk) (a b : Int) : List VHunk := ex hs a (b + 1)

/-- `addLineWithContext`, DiffViewWrapper.jsx 135-139. -/
def addLineWithContext (ex : ExpandFun) (s e : Int) (hs : List VHunk) (line : Int) : List VHunk :=
  expandHunks ex hs (max (line - 10) s) (min (line + 10) e)

/-- `getHunksInRange`, DiffViewWrapper.jsx 145-148. -/
def hunksInRange (s e : Int) (hs : List VHunk) : List VHunk :=
  hs.filter (fun h => decide (h.start ≤ e) && decide (h.start + h.lines ≥ s))

/-- The effect that sets the hunks, DiffViewWrapper.jsx 134-175. `corr` is `getCorrespondingOldLineNumber`. -/
def initialHunks (ex : ExpandFun) (corr : List VHunk → Int → Int) (file : List VHunk) (s e : Int) (toShow : Option (Int × Int)) :
    List VHunk :=
  let hs := hunksInRange s e (expandHunks ex (expandHunks ex file s s) e e)
  match toShow with
  | none => hs
  | some (o, n) =>
    if isFunctionLong s e then
      let hs := addLineWithContext ex s e hs o
      if corr file n ≠ o then addLineWithContext ex s e hs (corr file n) else hs
    else expandHunks ex hs s e

/-- The buttons that are rendered between the hunks, with the lines they expand, DiffViewWrapper.jsx 181-204. -/
def expandButtons : List VHunk → List (Int × Int)
  | a :: b :: l =>
    (if a.start + a.lines < b.start then [(a.start + a.lines, b.start - 1)] else []) ++ expandButtons (b :: l)
  | _ => []

/-- A click on the button with this number; there is no effect if there is no such button. -/
def clickExpand (ex : ExpandFun) (hs : List VHunk) (i : Nat) : List VHunk :=
  match (expandButtons hs)[i]? with
  | some r => expandHunks ex hs r.1 r.2
  | none => hs

end DK
