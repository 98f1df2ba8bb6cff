import Verif.Model.CProject

/-! Specification of settings, logs of `configure` and lists of symbols. -/

set_option autoImplicit false

namespace DK.Spec
open DK

/-- What the user gave on the command line: the options in order; nothing if the option is not used. -/
def GivenOptions (l : Option (List Str)) (os : List Str) : Prop := l = some os ∨ (l = none ∧ os = [])

/-- The user has not set variables of the wrapper. -/
def NotInEnvironment (osEnv : Dict Str Str) : Prop :=
  ∀ k ∈ osEnv.map (·.1), ¬ (str! "DIFFKEMP_WRAPPER_") <+: k

/-- A log written by `configure`: the first line with a dollar shows the invocation. -/
def ConfigureLog (lines : List Str) (command : Str) : Prop :=
  ∃ header rest, (∀ l ∈ header, '$' ∉ l) ∧ lines = header ++ (str! "  $ " ++ command ++ str! "\n") :: rest

/-- No white space at the ends. -/
def Trimmed (s : Str) : Prop := s ≠ [] ∧ (∀ c ∈ s.head?, pySpace c = false) ∧ ∀ c ∈ s.getLast?, pySpace c = false

/-- A name of a C function. -/
def Identifier (n : Str) : Prop :=
  (∃ c cs, n = c :: cs ∧ (c.isAlpha = true ∨ c = '_')) ∧ ∀ c ∈ n, pySpace c = false

end DK.Spec
