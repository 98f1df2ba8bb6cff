import Verif.Model.SyntaxDiff

/-! Specification vocabulary for syntax diffs (C30, C31, C79). -/

set_option autoImplicit false

namespace DK.Spec

/-- Decimal representation. -/
def dec (n : Nat) : Str := Nat.toDigits 10 n

/-- A count after a line number, which may be omitted. -/
def countStr : Option Nat → Str
  | none => []
  | some n => ',' :: dec n

/-- A line of a unified diff: a hunk header (line and count on both sides) or another line, which does not start with `@`. -/
inductive ULine where
  | hunk (a : Nat) (c : Option Nat) (b : Nat) (d : Option Nat)
  | text (s : Str)

def ULine.render : ULine → Str
  | .hunk a c b d => str! "@@ -" ++ dec a ++ countStr c ++ str! " +" ++ dec b ++ countStr d ++ str! " @@"
  | .text s => s

def ULine.Ok : ULine → Prop
  | .hunk _ _ _ _ => True
  | .text s => s.head? ≠ some '@' ∧ '\n' ∉ s

/-- The line with numbers of the source files: line 1 of a function is line `first` (`second`) of its file. -/
def ULine.shift (first second : Nat) : ULine → ULine
  | .hunk a c b d => .hunk (a + first - 1) c (b + second - 1) d
  | .text s => .text s

/-- A line of a context diff (after the names of the files): separator, range of lines on the old and new side, or a source
line with its mark. -/
inductive CLine where
  | sep
  | old (a : Nat) (b : Option Nat)
  | new (a : Nat) (b : Option Nat)
  | text (mark : Char) (s : Str)

def rangeStr (a : Nat) (b : Option Nat) : Str := dec a ++ countStr b

def CLine.render : CLine → Str
  | .sep => List.replicate 15 '*'
  | .old a b => str! "*** " ++ rangeStr a b ++ str! " ****"
  | .new a b => str! "--- " ++ rangeStr a b ++ str! " ----"
  | .text m s => m :: ' ' :: s

def CLine.Ok : CLine → Prop
  | .text m s => m ∈ [' ', '!', '+', '-', '\\'] ∧ '\n' ∉ s
  | _ => True

/-- What is shown for the line: the header of the function, the numbers in the source files, the line itself. -/
def CLine.shown (first second : Nat) (head : Str) : CLine → Str
  | .sep => List.replicate 15 '*' ++ ' ' :: head
  | .old a b => str! "*** " ++ rangeStr (a + first - 1) (b.map (· + first - 1)) ++ str! " ***"
  | .new a b => str! "--- " ++ rangeStr (a + second - 1) (b.map (· + second - 1)) ++ str! " ---"
  | .text m s => m :: ' ' :: s

/-- The text of a context diff. -/
def contextText (name1 name2 : Str) (ls : List CLine) : Str :=
  joinChar '\n' (name1 :: name2 :: (ls.map CLine.render ++ [[]]))

/-- A line of the source that is not only digits, blanks, commas, stars and dashes, or has no digit. -/
def NotNumbers (s : Str) : Prop :=
  (∃ c ∈ s, c ∉ [' ', '*', '-', ','] ∧ c.isDigit = false) ∨ ∀ c ∈ s, c.isDigit = false

/-- The lines from number `i` to number `j`, counted from 1. -/
def linesFromTo (lines : List Str) (i j : Nat) : List Str :=
  (lines.zipIdx 1).filterMap (fun p => if i ≤ p.2 ∧ p.2 ≤ j then some p.1 else none)

end DK.Spec
