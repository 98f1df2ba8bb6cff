import Verif.Model.OptCommand

/-! Specification: what the optimiser of LLVM does. -/

set_option autoImplicit false

namespace DK.Spec
open DK

/-- Where in the text of passes the reader is: in the name of a unit, in the name of a pass, or behind a pass. -/
inductive PipeMode where
  | unit (u : Str)
  | name (u n : Str)
  | after

/-- Reading `unit(pass),unit(pass)`, as names of passes with their units; `none`: an error. -/
def parsePipe : Str → PipeMode → Option (List (Str × Str))
  | [], .after => some []
  | [], _ => none
  | c :: cs, .unit u => if c = '(' then parsePipe cs (.name u []) else parsePipe cs (.unit (u ++ [c]))
  | c :: cs, .name u n => if c = ')' then (parsePipe cs .after).map ((n, u) :: ·) else parsePipe cs (.name u (n ++ [c]))
  | c :: cs, .after => if c = ',' then parsePipe cs (.unit []) else none

/-- A run of the optimiser: the file that is read, the passes with their units, the file for the result, and whether it is
written as text. -/
structure OptRun where
  input : Option Str
  passes : List (Str × Str)
  output : Option Str
  text : Bool
  deriving DecidableEq

/-- Reading the arguments. Up to version 15, passes are options, and their units (`unitOf`) are known to the optimiser;
from version 16 on they are given by `-passes=`. -/
def readOpt (version : Nat) (unitOf : Str → Str) : List Str → OptRun → Option OptRun
  | [], r => some r
  | a :: rest, r =>
    if a.head? = some '-' then
      if a.tail = str! "S" then readOpt version unitOf rest { r with text := true }
      else if a.tail = str! "o" then
        match rest with
        | [] => none
        | f :: rest => readOpt version unitOf rest { r with output := some f }
      else if version ≥ 16 then
        if (str! "passes=").isPrefixOf a.tail then
          match parsePipe (a.tail.drop 7) (.unit []) with
          | some ps => readOpt version unitOf rest { r with passes := r.passes ++ ps }
          | none => none
        else none
      else readOpt version unitOf rest { r with passes := r.passes ++ [(a.tail, unitOf a.tail)] }
    else if r.input = none then readOpt version unitOf rest { r with input := some a } else none

/-- The passes of functions one after the other on one function. -/
def onFunction {F : Type} (fsem : Str → F → F) (names : List Str) (f : F) : F := names.foldl (fun f n => fsem n f) f

/-- From version 16 on, each pass is run on all functions before the next one starts. -/
def runNew {F : Type} (fsem : Str → F → F) (msem : Str → List F → List F) : List (Str × Str) → List F → List F
  | [], m => m
  | p :: ps, m => runNew fsem msem ps (if p.2 = str! "module" then msem p.1 m else m.map (fsem p.1))

/-- Up to version 15, passes of functions that follow each other are run together, on one function after the other.
`pending` are the passes that wait. -/
def runOld {F : Type} (fsem : Str → F → F) (msem : Str → List F → List F) : List (Str × Str) → List Str → List F → List F
  | [], pending, m => m.map (onFunction fsem pending)
  | p :: ps, pending, m =>
    if p.2 = str! "module" then runOld fsem msem ps [] (msem p.1 (m.map (onFunction fsem pending)))
    else runOld fsem msem ps (pending ++ [p.1]) m

/-- What the optimiser does to a module. -/
def optResult {F : Type} (fsem : Str → F → F) (msem : Str → List F → List F) (version : Nat) (passes : List (Str × Str))
    (m : List F) : List F :=
  if version ≥ 16 then runNew fsem msem passes m else runOld fsem msem passes [] m

/-- A name of a pass or unit. -/
def PassName (n : Str) : Prop := ∀ c ∈ n, c.isAlphanum = true ∨ c = '-'

end DK.Spec
