import Verif.Model.MacroUse
import Verif.Model.Globals
import Verif.Model.Identifier

/-!
Differences of inline assembly (option `--print-asm-diffs`): DifferentialFunctionComparator.cpp 1166-1242.
-/

set_option autoImplicit false

namespace DK

/-- A call: the called function (`none`: not known), the arguments, and the file and the line of the function with the
call (`none`: the function has no debug information). -/
structure AsmCall where
  callee : Option GVal
  args : List IdVal
  place : Option (Str × Nat)

/-- The loop over the arguments of one call, lines 1206-1215, with the text so far. -/
def asmArgText (fields : Str → Nat → Option Str) : Str → List IdVal → Except IdErr Str
  | acc, [] => .ok acc
  | acc, v :: vs =>
    match identOf fields v with
    | .error e => .error e
    | .ok t => asmArgText fields (if acc = [] then acc ++ t else acc ++ str! ", " ++ t) vs

/-- `getCalledFunction` and the test of the prefix, lines 1170-1181, and `getInlineAsmString`: the text of the assembly
that is called. -/
def AsmCall.text? (c : AsmCall) : Option Str :=
  match c.callee with
  | none => none
  | some g => g.asm?.map Prod.fst

/-- `findAsmDifference`, lines 1166-1242. `n` is `asmDifferenceCounter`; the second result is its new value. The member
`function` of the difference (line 1234) is left out. -/
def findAsm (fields : Str → Nat → Option Str) (n : Nat) (l r : AsmCall) : Except IdErr (List MDiff × Nat) :=
  match l.text?, r.text? with
  | some tL, some tR =>
    if tL = tR then .ok ([], n)
    else
      match asmArgText fields [] l.args, asmArgText fields [] r.args with
      | .ok aL, .ok aR =>
        match l.place, r.place with
        | some pL, some pR =>
          .ok ([{ name := str! "assembly code " ++ indexText (n + 1)
                  bodyL := tL ++ str! " (args: " ++ aL ++ str! ")"
                  bodyR := tR ++ str! " (args: " ++ aR ++ str! ")"
                  stackL := [(str! "(generated assembly code)", pL.1, pL.2)]
                  stackR := [(str! "(generated assembly code)", pR.1, pR.2)] }], n + 1)
        | _, _ => .error .nullPointer
      | .error e, _ => .error e
      | _, .error e => .error e
  | _, _ => .ok ([], n)

/-- The searches in one run of the engine: `findDifference` lines 1889-1894, for the pairs of calls that were found to
be different, in this order. `enabled` is `PrintAsmDiffs`. -/
def findAsms (fields : Str → Nat → Option Str) (enabled : Bool) :
    Nat → List (AsmCall × AsmCall) → Except IdErr (List (List MDiff))
  | _, [] => .ok []
  | n, p :: ps =>
    if enabled then
      match findAsm fields n p.1 p.2 with
      | .error e => .error e
      | .ok (ds, m) =>
        match findAsms fields enabled m ps with
        | .error e => .error e
        | .ok rest => .ok (ds :: rest)
    else
      match findAsms fields enabled n ps with
      | .error e => .error e
      | .ok rest => .ok ([] :: rest)

end DK
