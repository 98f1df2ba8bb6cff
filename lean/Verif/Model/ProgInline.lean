import Verif.Model.Program

/-!
The comparison of programs (`Verif.Model.Program`) with inlining of called functions, ModuleComparator.cpp
130-213. How calls are inlined and functions are simplified is arbitrary. The pattern for inverse conditions
is left out: it changes functions of the second program (see C89).
-/

set_option autoImplicit false

namespace DK

/-- The two programs in their current state. -/
structure ProgSt where
  L : DProg
  R : DProg

def ProgSt.get (w : ProgSt) (side : Bool) : DProg := if side then w.L else w.R

def ProgSt.put (w : ProgSt) (side : Bool) (P : DProg) : ProgSt :=
  if side then { w with L := P } else { w with R := P }

/-- What is done with calls `C` of a program.
* `has`: `findCallInst`: the call is in the function;
* `called`: `getCalledFunction`;
* `inline`: `inlineCall`, if it succeeds;
* `simplify`: `simplifyFunction`. -/
structure Inliner (C : Type) where
  has : DProg → Nat → C → Bool
  called : DProg → C → Nat
  inline : DProg → C → Option DProg
  simplify : DProg → Nat → DProg

/-- `cmpGlobalValues` for called functions of the same name (see `calleeRun`). -/
def calleesThen {W C : Type} : List Nat → (W → Run W C) → W → Run W C
  | [], k, w => k w
  | f :: fs, k, w => .callee f f w (calleesThen fs k)

/-- `DifferentialFunctionComparator::compare` (see `progCmp`). If the functions differ, some functions were
met before, and calls to be inlined may have been noted (`diff`: any ones). -/
def inlineCmp {C : Type} (cfg : DCfg) (steps : Nat) (diff : ProgSt → Pair → List Nat × Option C × Option C)
    (w : ProgSt) (p : Pair) : Run ProgSt C :=
  match w.L p.1, w.R p.2 with
  | some l, some r =>
    match compareD cfg steps l r [] with
    | some (true, _) => calleesThen l.calls (fun w => .done true w) w
    | _ => calleesThen (diff w p).1 (fun w' => .inline (diff w p).2.1 (diff w p).2.2 (.done false w')) w
  | _, _ => .done false w

/-- The module comparator for two programs, with inlining, ModuleComparator.cpp 41-248. There is no external
cache, no intrinsic, no abstraction and no function that the tool has simplified. -/
def inlineEngine {C : Type} (cfg : DCfg) (steps : Nat) (diff : ProgSt → Pair → List Nat × Option C × Option C)
    (names : Nat → Str) (I : Inliner C) (PL PR : DProg) : Engine ProgSt C where
  info side f := ⟨names f, (if side then PL f else PR f).isNone, false, false, false⟩
  cached _ := false
  controlFlowOnly := false
  splits := true
  cmp := inlineCmp cfg steps diff
  find w side f c := I.has (w.get side) f c
  called w side c := I.called (w.get side) c
  inlineCall w side c := (I.inline (w.get side) c).map (w.put side)
  simplify w side f := w.put side (I.simplify (w.get side) f)

/-- The comparison of a function of one program with the function of the same name of the other one, with
inlining. -/
def compareInlining {C : Type} (cfg : DCfg) (steps n : Nat)
    (diff : ProgSt → Pair → List Nat × Option C × Option C) (names : Nat → Str) (I : Inliner C) (PL PR : DProg)
    (main : Nat) : Except Stop (MSt ProgSt C) :=
  compareAll (inlineEngine cfg steps diff names I PL PR) n [(main, main)] (newComparator ⟨PL, PR⟩)

end DK
