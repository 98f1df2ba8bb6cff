import Verif.Spec.Text

/-! Specification for the text of places in source files and for operands of inline assembly. -/

set_option autoImplicit false

namespace DK.Spec

/-- The line with a number, from 1 on. -/
def IsLine (file : List Str) (n : Nat) (s : Str) : Prop := (s, n) ∈ file.zipIdx 1

/-- Lines that are not empty, with their numbers. -/
def solidLines (file : List Str) : List (Str × Nat) := (file.zipIdx 1).filter fun x => decide (x.1 ≠ [])

/-- The text consists of consecutive lines, one of which is line `n`; empty ones are left out. -/
def TextAround (file : List Str) (n : Nat) (t : Str) : Prop :=
  ∃ pre seg post, solidLines file = pre ++ seg ++ post ∧ (∃ x ∈ seg, x.2 = n) ∧ t = (seg.map Prod.fst).flatten

/-- The text consists of the last lines of the file. -/
def TextToEnd (file : List Str) (t : Str) : Prop :=
  ∃ pre seg, solidLines file = pre ++ seg ∧ t = (seg.map Prod.fst).flatten

/-- Brackets that are opened are closed. -/
def ClosedText (t : Str) : Prop := t.count '(' ≤ t.count ')'

/-- There is a semicolon in line `n` or later. -/
def SemicolonFrom (file : List Str) (n : Nat) : Prop := ∃ m s, n ≤ m ∧ IsLine file m s ∧ ';' ∈ s

/-- An operand of inline assembly: constraint and expression. -/
structure AsmOp where
  constr : Str
  expr : Str
  deriving DecidableEq, Repr

/-- `"r"(x)` -/
def AsmOp.text (o : AsmOp) : Str := '"' :: o.constr ++ str! "\"(" ++ o.expr ++ str! ")"

/-- Operands with commas between them. -/
def opsText : List AsmOp → Str
  | [] => []
  | [o] => o.text
  | o :: os => o.text ++ str! ", " ++ opsText os

/-- String literals one after another: `"a" "b" ` -/
def litsText : List Str → Str
  | [] => []
  | l :: ls => str! "\"" ++ l ++ str! "\" " ++ litsText ls

/-- `asm("template" "continued" : outputs : inputs);` -/
def asmStmt (lits : List Str) (outs ins : List AsmOp) : Str :=
  str! "asm(" ++ litsText lits ++ str! ": " ++ opsText outs ++ str! " : " ++ opsText ins ++ str! ");"

/-- A statement with inline assembly, written as one or more string literals. -/
structure AsmSrc where
  lits : List Str
  outs : List AsmOp
  ins : List AsmOp
  deriving DecidableEq, Repr

/-- The assembly: literals that follow each other are one string. -/
def AsmSrc.template (a : AsmSrc) : Str := a.lits.flatten

def AsmSrc.text (a : AsmSrc) : Str := asmStmt a.lits a.outs a.ins

/-- A constraint without quotes and brackets. -/
def PlainConstr (s : Str) : Prop := ∀ c ∈ s, c ≠ '"' ∧ c ≠ '(' ∧ c ≠ ')'

/-- An expression with balanced brackets and without strings. -/
def PlainExpr (s : Str) : Prop := Balanced s ∧ '"' ∉ s

/-- A template without operands, escapes, quotes and brackets. -/
def PlainTemplate (s : Str) : Prop := s ≠ [] ∧ ∀ c ∈ s, c ≠ '"' ∧ c ≠ '%' ∧ c ≠ '\\' ∧ c ≠ '(' ∧ c ≠ ')'

/-- Operands without special characters. -/
def PlainOps (ops : List AsmOp) : Prop := ∀ o ∈ ops, PlainConstr o.constr ∧ PlainExpr o.expr

/-- A statement without special characters. -/
def PlainAsm (a : AsmSrc) : Prop := PlainTemplate a.template ∧ PlainOps a.outs ∧ PlainOps a.ins

/-- A piece of an assembly template: text, or an operand that is printed as a constant. -/
inductive AsmPiece where
  | text (s : Str)
  | operand (i : Nat)

/-- Source notation: `%c3` -/
def AsmPiece.source : AsmPiece → Str
  | .text s => s
  | .operand i => str! "%c" ++ (toString i).toList

/-- LLVM's notation: `${3:c}` -/
def AsmPiece.llvm : AsmPiece → Str
  | .text s => s
  | .operand i => str! "${" ++ (toString i).toList ++ str! ":c}"

end DK.Spec
