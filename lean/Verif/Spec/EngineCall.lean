import Verif.Model.EngineCall

/-! Specification of calls of the engine. -/

set_option autoImplicit false

namespace DK.Spec
open DK

/-- A file `dir` + `stem` + `.` + `ext`, where `dir` is empty or ends with a slash and `stem` does not consist of dots. -/
structure ExtFile (file dir stem ext : Str) : Prop where
  eq : file = dir ++ (stem ++ '.' :: ext)
  dirEnd : dir = [] ∨ ∃ d, dir = d ++ ['/']
  stemName : '/' ∉ stem ∧ ∃ c ∈ stem, c ≠ '.'
  extName : '/' ∉ ext ∧ '.' ∉ ext

/-- The argument is not taken for an option. -/
def NoOption (s : Str) : Prop := s.head? ≠ some '-'

/-- The request has a suffix, as all requests of the comparison have (function_diff.py 218), and function names without
commas. -/
def PlainRequest (q : Request) : Prop :=
  (∃ s, q.suffix = some s ∧ s ≠ []) ∧ ',' ∉ q.funFirst

end DK.Spec
