import Verif.Model.MacroUse

/-!
Functions that are macros in the other program: DifferentialFunctionComparator.cpp.
-/

set_option autoImplicit false

namespace DK

/-- The decision and the reported difference, lines 426-463, for the uses of macros at both places and the names of
the called functions (empty if there is no call). The second component of the result tells whether the call of the
first program is to be inlined, otherwise it is that of the second one. -/
def macroFunAt (L R : MLoc) (uL uR : Dict Str MUse) (nL nR : Str) : Option (MDiff × Bool) :=
  if L.text ≠ [] ∧ R.text ≠ [] ∧ L.text = R.text then
    if (uL.get? nL).isNone ∧ (uR.get? nL).isSome then
      some ({ name := nL, bodyL := str! "[macro function difference]", bodyR := str! "[macro function difference]",
              stackL := [(nL, L.file, L.line)], stackR := [(nL ++ str! " (macro)", R.file, R.line)] }, true)
    else if (uL.get? nR).isSome ∧ (uR.get? nR).isNone then
      some ({ name := nR, bodyL := str! "[macro function difference]", bodyR := str! "[macro function difference]",
              stackL := [(nR ++ str! " (macro)", L.file, L.line)], stackR := [(nR, R.file, R.line)] }, false)
    else none
  else none

/-- `findMacroFunctionDifference`, lines 403-464. `callL`, `callR`: the functions that are called, if the instructions
are calls. Calls of unknown functions are left out: they are replaced before (C178). Both results of
`getAllMacroUsesAtLocation` are references. -/
def macroFunDiff (locs : Nat → MLoc) (c : UseCache) (l r : Nat) (callL callR : Option Str) :
    Option (Option (MDiff × Bool) × UseCache) :=
  match getUses locs false c l with
  | none => none
  | some (_, c1) =>
    match getUses locs false c1 r with
    | none => none
    | some (uR, c2) =>
      some (macroFunAt (locs l) (locs r) ((c2.get? l).getD []) uR (callL.getD []) (callR.getD []), c2)

/-- The search for macros in `findDifference`, lines 1877-1901: differences of macros, and for calls also functions
that are macros in the other program. The search for assembly and the comparison of the called functions in between
(lines 237-259) are left out. -/
def callDiff (locs : Nat → MLoc) (c : UseCache) (l r : Nat) (callL callR : Option Str) :
    Option (List MDiff × Option (MDiff × Bool) × UseCache) :=
  match findMacroDiffs locs c l r with
  | none => none
  | some (ds, c1) =>
    if callL.isSome || callR.isSome then
      (macroFunDiff locs c1 l r callL callR).map fun q => (ds, q.1, q.2)
    else some (ds, none, c1)

end DK
