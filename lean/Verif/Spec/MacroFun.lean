import Verif.Model.MacroFun
import Verif.Spec.MacroUse

/-! Specification for functions that are macros in the other program. -/

set_option autoImplicit false

namespace DK.Spec

/-- A function is called at a place; the line of the other place expands to a macro of this name, the own line does
not. -/
def CalledAndMacro (call : Option Str) (own other : MLoc) (n : Str) : Prop :=
  call = some n ∧ ¬ Expands own.defs own.text n ∧ Expands other.defs other.text n

/-- The text of both lines is known and the same. -/
def SameLine (L R : MLoc) : Prop := L.text ≠ [] ∧ L.text = R.text

/-- The stack of a call, and that of a macro. -/
def callAt (n : Str) (l : MLoc) : List (Str × Str × Nat) := [(n, l.file, l.line)]
def macroAt (n : Str) (l : MLoc) : List (Str × Str × Nat) := [(n ++ str! " (macro)", l.file, l.line)]

/-- What is reported is right: a function that is called in one program is a macro in the other one. -/
def RightFunMacro (callL callR : Option Str) (L R : MLoc) (d : MDiff) (left : Bool) : Prop :=
  SameLine L R ∧
  ((left = true ∧ CalledAndMacro callL L R d.name ∧ d.stackL = callAt d.name L ∧ d.stackR = macroAt d.name R) ∨
   (left = false ∧ CalledAndMacro callR R L d.name ∧ d.stackL = macroAt d.name L ∧ d.stackR = callAt d.name R))

end DK.Spec
