import Verif.Model.Py

/-! Memory of the library (diffkemp/simpll/library.py, diffkemp/simpll/library/FFI.cpp) during any use of its objects. An object
of Python is removed as soon as the last reference to it is gone. An object and the block of memory that the library allocates
for it have the same number, and numbers are not used again: an access to freed memory is always noticed. -/

set_option autoImplicit false

namespace DK

/-- Objects of library.py: `SimpLLModule`, `SimpLLFunction` and `SimpLLSysctlTable`. The latter two refer to the object of their
module (`self.module`), and the library works with the module `mem` that they are part of. -/
inductive LibObj where
  | module
  | function (owner mem : Nat)
  | table (owner mem : Nat)
  deriving DecidableEq, Repr

/-- The objects, those the user refers to, and the blocks that are allocated by the library. -/
structure LibState where
  next : Nat
  objs : Nat → Option LibObj
  held : Nat → Bool
  heap : Nat → Bool

/-- Before the first use. -/
def LibState.init : LibState := ⟨0, fun _ => none, fun _ => false, fun _ => false⟩

/-- Change of one value. -/
def setAt {α : Type} (f : Nat → α) (i : Nat) (v : α) : Nat → α := fun j => if j = i then v else f j

/-- An access to a block: `none` if the memory was freed. -/
def LibState.access (s : LibState) (b : Nat) : Option LibState := if s.heap b then some s else none

/-- `delete`: `none` if the memory was freed before. -/
def LibState.free (s : LibState) (b : Nat) : Option LibState :=
  if s.heap b then some { s with heap := setAt s.heap b false } else none

/-- `new` for memory without an object. -/
def LibState.alloc (s : LibState) : LibState := { s with next := s.next + 1, heap := setAt s.heap s.next true }

/-- An array that is copied and freed at once: `_ptrarray_to_list` and `_stringarray_to_list`, library.py 7-28, with
`freePointerArray` and `freeStringArray`, FFI.cpp 97-104; the strings of an array are left out. -/
def LibState.tempArray (s : LibState) : Option LibState := s.alloc.free s.next

/-- A new object with a block, to which the user gets a reference. -/
def LibState.addOwning (s : LibState) (o : LibObj) : LibState :=
  { s.alloc with objs := setAt s.objs s.next (some o), held := setAt s.held s.next true }

/-- A new object without a block. -/
def LibState.addPlain (s : LibState) (o : LibObj) : LibState :=
  { s with next := s.next + 1, objs := setAt s.objs s.next (some o), held := setAt s.held s.next true }

/-- The reference to the object of the module. -/
def LibObj.owner? : LibObj → Option Nat
  | .module => none
  | .function o _ => some o
  | .table o _ => some o

/-- Another object refers to this one. -/
def LibState.dependents (s : LibState) (m : Nat) : Bool :=
  (List.range s.next).any fun j => decide ((s.objs j).bind LibObj.owner? = some m)

/-- An object is removed. -/
def LibState.removeObj (s : LibState) (i : Nat) : LibState := { s with objs := setAt s.objs i none }

/-- A reference to a module is gone: without any other, `SimpLLModule.__del__`, library.py 44-45, and `freeModule`, FFI.cpp
91-95. -/
def LibState.release (s : LibState) (m : Nat) : Option LibState :=
  if s.held m || s.dependents m then some s else (s.free m).map fun s => s.removeObj m

/-- The last reference of the user to an object is gone; `SimpLLSysctlTable.__del__`, library.py 121-122. -/
def LibState.drop (s : LibState) (i : Nat) : Option LibState :=
  if s.held i then
    let s1 := { s with held := setAt s.held i false }
    match s.objs i with
    | none => some s1
    | some .module => s1.release i
    | some (.function o _) => (s1.removeObj i).release o
    | some (.table o _) => (s1.free i).bind fun s2 => (s2.removeObj i).release o
  else some s

/-- What a user may do. -/
inductive LibOp where
  | load (ok : Bool)
  | getFunction (m : Nat)
  | useModule (m : Nat)
  | usingParam (m : Nat)
  | useFunction (f : Nat)
  | called (f n : Nat)
  | newTable (m : Nat)
  | sysctls (t : Nat)
  | procFun (t : Nat)
  | data (t : Nat)
  | drop (i : Nat)

/-- `get_called_functions`, library.py 109-112: an object for each of `n` functions. -/
def LibState.addFunctions (s : LibState) (o m : Nat) : Nat → LibState
  | 0 => s
  | n + 1 => (s.addPlain (.function o m)).addFunctions o m n

/-- One use of the library by an object to which the user refers; nothing happens for other objects. -/
def LibState.step (s : LibState) : LibOp → Option LibState
  /- `SimpLLModule.__init__`, library.py 33-36, `loadModule`, FFI.cpp 81-89. If it raises, the object is gone, and the context that
  was kept for the module `NULL` is freed by `__del__`. -/
  | .load true => some (s.addOwning .module)
  | .load false => s.tempArray
  /- `get_function`, library.py 47-53. -/
  | .getFunction m =>
    if s.held m && s.objs m = some .module then (s.access m).map fun s => s.addPlain (.function m m) else some s
  /- `find_param_var` and `preprocess`, library.py 55-61 and 83-84: the result is copied. -/
  | .useModule m => if s.held m && s.objs m = some .module then s.access m else some s
  /- `get_functions_using_param`, library.py 63-81. -/
  | .usingParam m => if s.held m && s.objs m = some .module then (s.access m).bind LibState.tempArray else some s
  /- `get_name` and `is_declaration`, library.py 99-107. -/
  | .useFunction f =>
    match s.objs f with
    | some (.function _ m) => if s.held f then s.access m else some s
    | _ => some s
  /- `get_called_functions`, library.py 109-112, FFI.cpp 126-146: the new objects refer to the object of the same module. -/
  | .called f n =>
    match s.objs f with
    | some (.function o m) =>
      if s.held f then ((s.access m).bind LibState.tempArray).map fun s => s.addFunctions o m n else some s
    | _ => some s
  /- `SimpLLSysctlTable.__init__`, library.py 116-119. -/
  | .newTable m =>
    if s.held m && s.objs m = some .module then (s.access m).map fun s => s.addOwning (.table m m) else some s
  /- `parse_sysctls`, library.py 124-128. -/
  | .sysctls t =>
    match s.objs t with
    | some (.table _ m) => if s.held t then ((s.access t).bind fun s => s.access m).bind LibState.tempArray else some s
    | _ => some s
  /- `get_proc_fun`, library.py 130-135. -/
  | .procFun t =>
    match s.objs t with
    | some (.table o m) =>
      if s.held t then ((s.access t).bind fun s => s.access m).map fun s => s.addPlain (.function o m) else some s
    | _ => some s
  /- `get_child` and `get_data`, library.py 137-158, FFI.cpp 204-235: the array of indices is not freed. -/
  | .data t =>
    match s.objs t with
    | some (.table _ m) => if s.held t then ((s.access t).bind fun s => s.access m).map LibState.alloc else some s
    | _ => some s
  | .drop i => s.drop i

/-- Any use of the library. -/
def LibState.run (s : LibState) : List LibOp → Option LibState
  | [] => some s
  | op :: ops => (s.step op).bind fun s => s.run ops

end DK
