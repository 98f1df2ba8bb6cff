import Verif.Model.DiffView

/-! What is expected from the display of a function. -/

set_option autoImplicit false

namespace DK.Spec

/-- The line is one of the hunk. -/
def InHunk (h : VHunk) (l : Int) : Prop := h.start ≤ l ∧ l < h.start + h.lines

/-- The line is displayed. -/
def ShownLine (hs : List VHunk) (l : Int) : Prop := ∃ h ∈ hs, InHunk h l

/-- The hunks are in the order of lines and do not overlap. -/
def OrderedHunks (hs : List VHunk) : Prop := hs.Pairwise (fun a b : VHunk => a.start + (a.lines : Int) ≤ b.start)

/-- All lines of one hunk are lines of the other. -/
def InsideHunk (h h' : VHunk) : Prop := h'.start ≤ h.start ∧ h.start + h.lines ≤ h'.start + h'.lines

/-- What the documentation of react-diff-view says about `expandFromRawCode` for a code of `n` lines: the given lines (as far
as they exist) are displayed in addition, the order is kept and hunks are not torn. -/
def ExpandContract (n : Int) (ex : ExpandFun) : Prop :=
  ∀ hs a b, OrderedHunks hs → OrderedHunks (ex hs a b) ∧
    (∀ l, ShownLine (ex hs a b) l ↔ ShownLine hs l ∨ (a ≤ l ∧ l < b ∧ 1 ≤ l ∧ l ≤ n)) ∧
    (∀ h ∈ hs, ∃ h' ∈ ex hs a b, InsideHunk h h')

end DK.Spec
