import Verif.Model.Py

/-! Model of the C-like texts that the engine shows for the arguments of inline assembly: `getIdentifierForValue`,
simpll/Utils.cpp 482-612. -/

set_option autoImplicit false

namespace DK

/-- How the process ends: `std::out_of_range` of `substr`, or a null pointer is dereferenced. -/
inductive IdErr where
  | outOfRange
  | nullPointer
  deriving DecidableEq, Repr

/-- Types of indexed objects. -/
inductive IdTy where
  | struct (name : Str)
  | array (elem : IdTy)
  | other
  deriving DecidableEq, Repr

/-- Values. `plain`: a value with a name, or a constant, or a register for which the name of the argument was found, or
another value with the text `<unknown>`, lines 568-611; `elem` begins a `getelementptr` on a pointer to the given type,
and `index`, `indexVal` add a constant or another index to it. Constant expressions are taken as the instructions they are
converted to, lines 543-546; texts of types are given. -/
inductive IdVal where
  | plain (text : Str)
  | bitcast (type : Str) (v : IdVal)
  | zext (v : IdVal)
  | load (v : IdVal)
  | elem (v : IdVal) (source : IdTy)
  | index (g : IdVal) (n : Nat)
  | indexVal (g i : IdVal)
  deriving DecidableEq, Repr

/-- `GEPi->getSourceElementType()`, line 499: the type of the first operand. -/
def IdVal.source : IdVal → IdTy
  | .elem _ s => s
  | .index g _ => g.source
  | .indexVal g _ => g.source
  | _ => .other

/-- `isa<StructType>(ValueType)`, line 511. -/
def IdTy.structName : IdTy → Option Str
  | .struct s => some s
  | _ => none

/-- `idx == GEPi->idx_begin()`, line 506: the index added to this is the first one. -/
def IdVal.isElem : IdVal → Bool
  | .elem _ _ => true
  | _ => false

/-- `name.substr(2, name.size() - 3)`, lines 529 and 565: the count is unsigned, so a text of two characters gives its
rest, and a shorter one an exception. -/
def stripRef (name : Str) : Except IdErr Str :=
  if name.length < 2 then .error .outOfRange
  else if name.length = 2 then .ok []
  else .ok ((name.drop 2).take (name.length - 3))

/-- `"&(" + name + ")"`, line 539. -/
def addRef (name : Str) : Str := str! "&(" ++ name ++ str! ")"

/-- The text of a number. -/
def indexText (n : Nat) : Str := (toString n).toList

/-- The text of an index of an array, lines 531-535. -/
def bracketed (i : Str) : Str := if i = [] then str! "[<unknown>]" else str! "[" ++ i ++ str! "]"

/-- Name of a member, lines 511-522. -/
def memberText (fields : Str → Nat → Option Str) (s : Str) (n : Nat) : Str :=
  match fields s n with
  | some f => f
  | none => indexText n

/-- `getIdentifierForValue`. The list `Indices` of line 496 is never extended, so the indexed type of line 499 is the
source type for each index. -/
def identOf (fields : Str → Nat → Option Str) : IdVal → Except IdErr Str
  | .plain t => .ok t
  | .bitcast ty v =>
    match identOf fields v with
    | .ok t => .ok (str! "((" ++ ty ++ str! ") " ++ t ++ str! ")")
    | .error e => .error e
  | .zext v => identOf fields v
  | .load v =>
    match identOf fields v with
    | .ok t => if t.head? = some '&' then stripRef t else .ok (str! "*(" ++ t ++ str! ")")
    | .error e => .error e
  | .elem v _ => identOf fields v
  | .index g n =>
    match identOf fields g with
    | .error e => .error e
    | .ok name =>
      if g.isElem && decide (n = 0) then .ok name
      else match g.source.structName with
        | some s => .ok (addRef (name ++ str! "->" ++ memberText fields s n))
        | none =>
          match stripRef name with
          | .ok b => .ok (addRef (b ++ bracketed (indexText n)))
          | .error e => .error e
  | .indexVal g i =>
    match identOf fields g with
    | .error e => .error e
    | .ok name =>
      match g.source.structName with
      | some _ => .error .nullPointer
      | none =>
        match identOf fields i with
        | .error e => .error e
        | .ok t =>
          match stripRef name with
          | .ok b => .ok (addRef (b ++ bracketed t))
          | .error e => .error e

end DK
