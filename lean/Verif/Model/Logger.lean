import Verif.Model.Py

/-! Model of the log of comparisons that the engine prints with the option `--verbose`, simpll/Logger.h and Logger.cpp.
The compared objects are texts here. Indentation is relative to the indentation before the comparison. -/

set_option autoImplicit false

namespace DK

/-- `Logger::BufferMessage`, Logger.h 180-206; an erased message has no label. -/
structure LogMsg where
  forceKept : Bool
  level : Nat
  label : Option Str
  deriving DecidableEq, Repr

/-- The state of `Logger`, Logger.h 227-236, with the lines printed so far and their indentation. -/
structure LogSt where
  level : Nat := 0
  buffer : List LogMsg := []
  printed : List (Nat × Str) := []
  deriving DecidableEq, Repr

/-- `PREP_LOG`, Logger.h 114-116: `prepLog` and `prepContext`, Logger.cpp 22-28. -/
def prepLog (s : LogSt) (m : Str) : LogSt :=
  { s with level := s.level + 1, buffer := s.buffer ++ [⟨false, s.level, some m⟩] }

/-- A message is erased but stays in the buffer, Logger.cpp 40-43. -/
def eraseMsg (keep : Bool) (x : LogMsg) : LogMsg :=
  if !keep && !x.forceKept then { x with label := none, forceKept := true } else x

/-- The loop over the buffer from its end, Logger.cpp 35-44; the argument is the reversed buffer. -/
def forceLoop (level : Nat) (keep : Bool) : List LogMsg → List LogMsg
  | [] => []
  | x :: rest => if level = x.level then { x with forceKept := true } :: rest else eraseMsg keep x :: forceLoop level keep rest

/-- `while (!buffer.empty() && buffer.back().level > level) buffer.pop_back();`, lines 53-55, on the reversed buffer. -/
def popDeeper (level : Nat) : List LogMsg → List LogMsg
  | [] => []
  | x :: rest => if level < x.level then popDeeper level rest else x :: rest

/-- `Logger::dump`, Logger.cpp 62-72: messages that are erased are skipped. -/
def dumpLog (b : List LogMsg) : List (Nat × Str) := b.filterMap (fun x => x.label.map (fun m => (x.level, m)))

/-- `Logger::log`, Logger.cpp 30-60. `force` says that a type is given for which messages are always kept and that this
type is enabled (`VERBOSE_EXTRA`). Simplification: decreasing the level 0 gives 0. -/
def logKeep (s : LogSt) (keep force : Bool) : LogSt :=
  let level := s.level - 1
  let buffer := if force then (forceLoop level keep s.buffer.reverse).reverse else s.buffer
  let keep' := keep || force
  if level = 0 then { level := 0, buffer := [], printed := if keep' then s.printed ++ dumpLog buffer else s.printed }
  else if keep' then { s with level := level, buffer := buffer }
  else { s with level := level, buffer := ((popDeeper level buffer.reverse).drop 1).reverse }

/-- Comparisons that are done one after another. `cmp`: a comparison with the comparisons inside it, its result (`keep`: a
difference was found) and the kind of its end: with `RETURN_WITH_LOG` (`extra`) or `RETURN_WITH_LOG_NEQ`, Logger.h 133-155.
`skip`: a comparison of global values that are assumed to be equal, DifferentialFunctionComparator.cpp 1249-1253. -/
inductive CmpRun where
  | done
  | cmp (label : Str) (inside : CmpRun) (keep extra : Bool) (next : CmpRun)
  | skip (label : Str) (next : CmpRun)
  deriving Repr

/-- What the macros do during the comparisons; `extra`: the type `VERBOSE_EXTRA` is enabled. A skipped comparison is prepared
and never ended: the function returns without `RETURN_WITH_LOG`. -/
def runLog (extra : Bool) : CmpRun → LogSt → LogSt
  | .done, s => s
  | .cmp m inside keep e next, s => runLog extra next (logKeep (runLog extra inside (prepLog s m)) keep (e && extra))
  | .skip m next, s => runLog extra next (prepLog s m)

end DK
