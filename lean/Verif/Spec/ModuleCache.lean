import Verif.Model.ModuleCache

/-! Specification of runs of the engine. -/

set_option autoImplicit false

namespace DK.Spec

variable {M : Type}

/-- A module as the engine compares it: sliced if there is a variable, then simplified. -/
def prepared (E : EngineRun M) (pats : Dict Str Bool) (f : Str) (var : Option Str) (m : M) : M :=
  E.passes pats (match var with
    | some v => E.slice f v m
    | none => m)

/-- What the engine says about the current files; `none`: it crashes. -/
def comparison (E : EngineRun M) (pats : Dict Str Bool) (disk : Str → M) (c : EngineCall) : Option Str :=
  E.analyse c.funFirst c.funSecond (prepared E pats c.funFirst c.var (disk c.first)) (prepared E pats c.funSecond c.var (disk c.second))

/-- The outcome is what the engine says, or the exception that is reported as an error if the engine crashes. -/
def Received (t : Option Str) (o : RunOut) : Prop :=
  match t with
  | some t => o = .text t
  | none => o = .exception .simpll

/-- How often a module is used by functions that are in both snapshots. -/
def uses (other : Str → Option (Option Str)) (functions : List (Str × Option Str)) (m : Str) : Nat :=
  functions.countP (fun p => decide (p.2 = some m) && (other p.1).isSome) + functions.countP (fun p => decide (other p.1 = some (some m)))

end DK.Spec
