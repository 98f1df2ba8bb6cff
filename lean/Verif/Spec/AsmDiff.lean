import Verif.Model.AsmDiff
import Verif.Spec.Identifier

/-! Specification of the reported differences of inline assembly. -/

set_option autoImplicit false

namespace DK.Spec
open DK

/-- The call executes inline assembly with this text and these constraints (after the replacement of inline assembly by
generated functions). -/
def Executes (c : AsmCall) (text constraints : Str) : Prop :=
  ∃ name, startsWith name asmPrefix = true ∧ c.callee = some ⟨name, .func text constraints⟩

/-- All arguments have texts, and the function with the call has debug information. -/
def Describable (members : Str → Nat → IdTy) (c : AsmCall) : Prop :=
  (∀ v ∈ c.args, SimpleVal members v) ∧ ∃ p, c.place = some p

/-- One side of a difference shows the assembly, the names of all its arguments, and the place of the function. -/
def ShowsAsmCall (fields : Str → Nat → Option Str) (members : Str → Nat → IdTy) (c : AsmCall) (text body : Str)
    (stack : List (Str × Str × Nat)) : Prop :=
  text <+: body ∧ (∀ v ∈ c.args, ∀ m ∈ mentioned fields members v, TextIn m body) ∧
    ∃ file line, c.place = some (file, line) ∧ stack.map (fun e => (e.2.1, e.2.2)) = [(file, line)]

/-- The difference shows both calls. -/
def ShowsBoth (fields : Str → Nat → Option Str) (members : Str → Nat → IdTy) (l r : AsmCall) (tL tR : Str)
    (d : MDiff) : Prop :=
  ShowsAsmCall fields members l tL d.bodyL d.stackL ∧ ShowsAsmCall fields members r tR d.bodyR d.stackR

end DK.Spec
