import Verif.Model.Calls

/-!
Types of variables that are looked up by their names in C source (diffkemp/simpll/DebugInfo.cpp 416-438,
diffkemp/simpll/Utils.cpp 702-718).
-/

set_option autoImplicit false

namespace DK

/-- A function with the variables of its debug intrinsics, in the order of the instructions (several intrinsics may
describe the same variable). -/
structure DbgFun where
  name : Str
  vars : List (Str × DITy)
  deriving DecidableEq, Repr

/-- A map from names to types, `LocalVariableMap` (Utils.h): an entry is replaced by a later one. -/
abbrev LocalMap := Str → Option DITy

/-- The key of a variable, DebugInfo.cpp 432-433 and Utils.cpp 713. -/
def localKey (f x : Str) : Str := f ++ str! "::" ++ x

/-- The loop over the instructions of one function, DebugInfo.cpp 419-436. -/
def collectFun (f : DbgFun) (m : LocalMap) : LocalMap :=
  f.vars.foldl (fun m v k => if k = localKey f.name v.1 then some v.2 else m k) m

/-- `collectLocalVariables`, DebugInfo.cpp 416-438. The called functions are a set of pointers, so that their order is
that of their addresses: any order is possible. -/
def collectLocals (fns : List DbgFun) : LocalMap :=
  fns.foldl (fun m f => collectFun f m) fun _ => none

/-- Utils.cpp 702-718: the global variables (those with debug information) come first. -/
def varsIn (globals : Str → Option DITy) (m : LocalMap) (f x : Str) : Option DITy :=
  match globals x with
  | some t => some t
  | none => m (localKey f x)

end DK
