import Verif.Model.ModCmp
import Verif.Model.DiffCmp

/-!
The module comparator (`Verif.Model.ModCmp`) put together with the comparator of functions
(`Verif.Model.DiffCmp`), for programs of functions that call each other.
-/

set_option autoImplicit false

namespace DK

/-- A program: functions with bodies. A number is the name of a function in both programs; functions
without body are defined elsewhere. -/
abbrev DProg := Nat → Option DFun

/-- Functions called by a function, in the order of the blocks. -/
def DFun.calls (f : DFun) : List Nat :=
  f.all.filterMap fun i => match i.code with | .call g => some g | _ => none

/-- Branches of functions of the second program whose successors were exchanged: the comparator changes the
module (DifferentialFunctionComparator.cpp 323-342). -/
abbrev Swaps := Nat → List Nat

def Swaps.put (w : Swaps) (f : Nat) (sw : List Nat) : Swaps := fun g => if g = f then sw else w g

/-- `cmpGlobalValues` for called functions of the same name, DifferentialFunctionComparator.cpp
1280-1305, one after another. Functions of the kernel that print, which are not compared (1290-1293), are
not distinguished. -/
def calleeRun : List Nat → (Swaps → Run Swaps Unit) → Swaps → Run Swaps Unit
  | [], k, w => k w
  | f :: fs, k, w => .callee f f w (calleeRun fs k)

/-- `DifferentialFunctionComparator::compare` (ModuleComparator.cpp 97-116) of two functions with
bodies. If they are found equal, all calls have been compared; otherwise some functions (`seen`, any ones)
have been met before the difference. Simplified: nested comparisons follow the comparison of the bodies
(they do not change the two functions), and calls to be inlined are not noted. -/
def progCmp (cfg : DCfg) (steps : Nat) (seen : Pair → List Nat) (PL PR : DProg) (w : Swaps) (p : Pair) :
    Run Swaps Unit :=
  match PL p.1, PR p.2 with
  | some l, some r =>
    match compareD cfg steps l r (w p.2) with
    | some (true, sw) => calleeRun l.calls (fun w => .done true (w.put p.2 sw)) w
    | some (false, sw) => calleeRun (seen p) (fun w => .done false (w.put p.2 sw)) w
    | none => .done false w
  | _, _ => .done false w

/-- The module comparator for two programs without an external cache of results, without function splits
and without abstractions made by the tool (so nothing is inlined), ModuleComparator.cpp 41-215. -/
def progEngine (cfg : DCfg) (steps : Nat) (seen : Pair → List Nat) (names : Nat → Str) (PL PR : DProg) :
    Engine Swaps Unit where
  info side f := ⟨names f, (if side then PL f else PR f).isNone, false, false, false⟩
  cached _ := false
  controlFlowOnly := false
  splits := false
  cmp := progCmp cfg steps seen PL PR
  find _ _ _ _ := false
  called _ _ _ := 0
  inlineCall _ _ _ := none
  simplify w _ _ := w

/-- The comparison of a function of one program with the function of the same name of the other one,
ModuleAnalysis.cpp 190-194. -/
def comparePrograms (cfg : DCfg) (steps n : Nat) (seen : Pair → List Nat) (names : Nat → Str)
    (PL PR : DProg) (main : Nat) : Except Stop (MSt Swaps Unit) :=
  compareAll (progEngine cfg steps seen names PL PR) n [(main, main)] (newComparator fun _ => [])

end DK
