import Verif.Model.FunListing

/-! Specification: LLVM files as the compiler writes them. -/

set_option autoImplicit false

namespace DK.Spec
open DK

/-- A part of an LLVM file that is written on one line: the beginning of a definition of a function, with the text between the
keyword and the name (such as the type of the result), the name as it is written and the text after the bracket
(parameters, attributes, section), or another line. -/
inductive LLLine where
  | def (before name after : Str)
  | other (text : Str)

/-- The written line. -/
def LLLine.text : LLLine → Str
  | .def b n a => str! "define" ++ b ++ '@' :: n ++ '(' :: a
  | .other t => t

/-- Names as in C. -/
def IsCName (n : Str) : Prop := n ≠ [] ∧ ∀ c ∈ n, identChar c = true

instance (n : Str) : Decidable (IsCName n) := by unfold IsCName; infer_instance

/-- The functions with names as in C that are defined, in the order of the file. -/
def definedFunctions : List LLLine → List Str
  | [] => []
  | .def _ n _ :: ls => if IsCName n then n :: definedFunctions ls else definedFunctions ls
  | .other _ :: ls => definedFunctions ls

/-- Only definitions begin with the keyword. -/
def LLLine.WellFormed : LLLine → Prop
  | .def b _ _ => '@' ∉ b
  | .other t => ¬ (str! "define") <+: t

/-- No text such as `@name(` after the bracket, no `@` in names, and brackets only in names in quotes. -/
def LLLine.Plain : LLLine → Prop
  | .def _ n a => '@' ∉ n ∧ ('(' ∉ n ∨ n.head? = some '"') ∧ ∀ x m y, IsCName m → a ≠ x ++ '@' :: (m ++ '(' :: y)
  | .other _ => True

end DK.Spec
