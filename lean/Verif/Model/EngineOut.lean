import Verif.Model.GraphOps

/-! Model of how the engine records the calls of a compared pair and emits them (Result.h 36-80,
DifferentialFunctionComparator.cpp 1289-1301, ModuleComparator.cpp 184-201, Output.cpp 55-66). -/

set_option autoImplicit false

namespace DK

/-- `operator<` of `std::string` (lexicographic, by code unit). -/
def strLt : Str → Str → Bool
  | [], [] => false
  | [], _ :: _ => true
  | _ :: _, [] => false
  | a :: as, b :: bs => if a.toNat < b.toNat then true else if b.toNat < a.toNat then false else strLt as bs

/-- `std::set<CallInfo>::insert` (`FunctionInfo::addCall`, Result.h 74-79): the set is ordered by the name of the callee
only (Result.h 49), an element with an equal name is kept. A `CallInfo` is given as the `Edge` it is imported as. -/
def insertCall : List Edge → Edge → List Edge
  | [], e => [e]
  | c :: cs, e =>
    if strLt e.target c.target then e :: c :: cs
    else if strLt c.target e.target then c :: insertCall cs e
    else c :: cs

/-- `CI.weak = true` for the calls of a function, ModuleComparator.cpp 189-192 and 195-199. -/
def weakenCalls (cs : List Edge) (n : Str) : List Edge :=
  cs.map (fun c => if c.target = n then { c with weak := true } else c)

/-- What happens to the calls of a pair while it is compared: a pair of calls is recorded
(DifferentialFunctionComparator.cpp 1294-1301: always on both sides, with the file of the caller and a line per side),
or the calls of an inlined function become weak (ModuleComparator.cpp 184-201: on one or both sides). -/
inductive CallEvent where
  | call (left right : Str) (lineL lineR : Nat)
  | inlined (left right : Option Str)

/-- The call a `call` event records on a side, as callee and line. -/
def CallEvent.called : CallEvent → Side → Option (Str × Nat)
  | .call l _ ll _, .left => some (l, ll)
  | .call _ r _ lr, .right => some (r, lr)
  | .inlined _ _, _ => none

/-- The function an `inlined` event weakens on a side. -/
def CallEvent.weakens : CallEvent → Side → Option Str
  | .inlined l _, .left => l
  | .inlined _ r, .right => r
  | .call _ _ _ _, _ => none

/-- Effect of an event on the set of calls of one side; `file` is the file of the caller. -/
def applyEvent (file : Str) (s : Side) (cs : List Edge) (ev : CallEvent) : List Edge :=
  match ev.called s, ev.weakens s with
  | some (n, l), _ => insertCall cs ⟨n, file, l, false⟩
  | none, some n => weakenCalls cs n
  | none, none => cs

/-- The calls of one side after a comparison. -/
def callsAfter (file : Str) (s : Side) (evs : List CallEvent) : List Edge := evs.foldl (applyEvent file s) []

/-- Output.cpp 55-66: an empty sequence is omitted, the (default-less) file is not. -/
def emitCalls (cs : List Edge) : Option (List Edge) := if cs = [] then none else some cs

/-- What the engine knows about one compared pair: `Result` (Result.h 145-172). -/
structure EngineResult where
  result : Kind
  name : Side → Str
  file : Side → Str
  line : Side → Option Nat := fun _ => none
  stats : Side → Stats := fun _ => ⟨0, 0, 0⟩
  events : List CallEvent
  diffs : List NonFunDiff := []

/-- The YAML value emitted for a pair, Output.cpp 55-66 and 113-120. -/
def EngineResult.emit (r : EngineResult) : FunResult :=
  let info (s : Side) : FunInfo :=
    { function := r.name s, file := some (r.file s), line := r.line s, stats := r.stats s
      calls := emitCalls (callsAfter (r.file s) s r.events) }
  { result := r.result, first := info .left, second := info .right, diffs := r.diffs }

end DK
