import Verif.Model.Loads

/-!
Specification of memory for the properties about the alias check and about skipped loads: layout of types,
addresses, machines and their runs.
-/

set_option autoImplicit false

namespace DK.Spec

mutual
/-- The size of a type in bytes. -/
def tySize : LTy → Nat
  | .cell n => n
  | .arr n t => n * tySize t
  | .struct fs => fieldsSize fs
/-- The size of a list of fields with their padding. -/
def fieldsSize : LFields → Nat
  | .nil => 0
  | .cons pad t rest => pad + tySize t + fieldsSize rest
end

/-- The field with a number: its offset and its type. -/
def fieldAt : LFields → Nat → Option (Nat × LTy)
  | .nil, _ => none
  | .cons pad t _, 0 => some (pad, t)
  | .cons pad t rest, n + 1 => (fieldAt rest n).map fun x => (pad + tySize t + x.1, x.2)

/-- The element or field of a type that an index selects: its offset and its type. Indices of arrays may be
out of bounds (the address is computed anyway), numbers of fields may not. -/
def selectTy : LTy → Int → Option (Int × LTy)
  | .cell _, _ => none
  | .arr _ t, i => some (i * tySize t, t)
  | .struct fs, i => if 0 ≤ i then (fieldAt fs i.toNat).map fun x => ((x.1 : Int), x.2) else none

/-- The index is within the bounds of the type. -/
def idxIn : LTy → Int → Prop
  | .cell _, _ => False
  | .arr n _, i => 0 ≤ i ∧ i < n
  | .struct fs, i => 0 ≤ i ∧ (fieldAt fs i.toNat).isSome = true

/-- The offset that indices select within a type. -/
def pathOffset : LTy → List Int → Int
  | _, [] => 0
  | t, i :: is =>
    match selectTy t i with
    | some (o, t') => o + pathOffset t' is
    | none => 0

/-- The type that indices select within a type. -/
def pathTy : LTy → List Int → LTy
  | t, [] => t
  | t, i :: is =>
    match selectTy t i with
    | some (_, t') => pathTy t' is
    | none => t

/-- All indices are within bounds. -/
def pathIn : LTy → List Int → Prop
  | _, [] => True
  | t, i :: is =>
    idxIn t i ∧
    match selectTy t i with
    | some (_, t') => pathIn t' is
    | none => False

/-- Values: an integer, or a place in the memory of an object. -/
abbrev MV := Option Nat × Int

/-- The current values of instructions and arguments. -/
abbrev MEnv := Nat → MV

/-- The value of an index. -/
def idxVal (e : MEnv) : PIdx → Int
  | .const n => n
  | .var x => (e x).2

/-- The offset computed by the indices of a GEP: the first one counts whole objects of the type. -/
def gepOffset (ty : LTy) : List Int → Int
  | [] => 0
  | i :: is => i * tySize ty + pathOffset ty is

/-- The address that a pointer denotes. Every alloca is an object of its own. -/
def addrOf (e : MEnv) : MPtr → MV
  | .alloca a => (some a, 0)
  | .gep _ ty b is =>
    ((addrOf e b).1, (addrOf e b).2 + gepOffset ty (is.map (idxVal e)))
  | .other x => e x

/-- An access of `w` bytes at the pointer stays within the element or field that the pointer selects. -/
def accessIn (e : MEnv) (w : Nat) : MPtr → Prop
  | .gep _ ty _ is =>
    match is.map (idxVal e) with
    | [] => w ≤ tySize ty
    | _ :: js => pathIn ty js ∧ w ≤ tySize (pathTy ty js)
  | _ => True

/-- Two accesses have no byte in common. -/
def Apart (a : MV) (v : Nat) (b : MV) (w : Nat) : Prop :=
  a.1 ≠ b.1 ∨ a.2 + v ≤ b.2 ∨ b.2 + w ≤ a.2

/-- Two element pointers into the same alloca start at the same pointer and have the same type. -/
def SameBase : MPtr → MPtr → Prop
  | .gep _ t b _, .gep _ t' b' _ => getAllocaFromPtr b = getAllocaFromPtr b' → t = t' ∧ b = b'
  | _, _ => True

/-- Memory: bytes of objects. -/
abbrev Mem := Option Nat → Int → Nat

/-- What the environment of the program decides: how values are stored in bytes, and what calls and
other instructions compute. -/
structure MMach where
  enc : Nat → MV → List Nat
  dec : List Nat → MV
  call : Nat → List MV → Mem → MV × Mem
  op : Nat → List MV → MV
  rmw : Nat → MV → Mem → MV × Mem

/-- Stored values can be read back. -/
def MMach.Faithful (M : MMach) : Prop :=
  ∀ w v, 0 < w → (M.enc w v).length = w ∧ M.dec (M.enc w v) = v

/-- The bytes of an access. -/
def readBytes (m : Mem) (a : MV) (w : Nat) : List Nat :=
  (List.range w).map fun (k : Nat) => m a.1 (a.2 + (k : Int))

/-- Memory after bytes were written. -/
def writeBytes (m : Mem) (a : MV) (l : List Nat) : Mem := fun o x =>
  if o = a.1 ∧ a.2 ≤ x then (l[(x - a.2).toNat]?).getD (m o x) else m o x

/-- The value of an operand. -/
def valOf (e : MEnv) : MVal → MV
  | .const n => (none, n)
  | .val p => addrOf e p

/-- Values and memory. -/
structure MSt where
  env : MEnv
  mem : Mem

/-- One instruction. Debug calls have no effect, other calls may change all memory. -/
def stepM (M : MMach) (s : MSt) : MInst → MSt
  | .load id p w =>
    { s with env := fun x => if x = id then M.dec (readBytes s.mem (addrOf s.env p) w) else s.env x }
  | .store _ v p w => { s with mem := writeBytes s.mem (addrOf s.env p) (M.enc w (valOf s.env v)) }
  | .call id debug args =>
    if debug then s
    else
      let r := M.call id (args.map (valOf s.env)) s.mem
      { env := fun x => if x = id then r.1 else s.env x, mem := r.2 }
  | .atomic id p _ =>
    let r := M.rmw id (addrOf s.env p) s.mem
    { env := fun x => if x = id then r.1 else s.env x, mem := r.2 }
  | .op id args => { s with env := fun x => if x = id then M.op id (args.map (valOf s.env)) else s.env x }

/-- The instruction computes the value with this identity. -/
def defines : MInst → Option Nat
  | .load id _ _ => some id
  | .store _ _ _ _ => none
  | .call id debug _ => if debug then none else some id
  | .atomic id _ _ => some id
  | .op id _ => some id

/-- The instructions and arguments whose values the address of a pointer depends on. -/
def leaves : MPtr → List Nat
  | .alloca _ => []
  | .gep _ _ b is => leaves b ++ is.filterMap fun i => match i with | .var x => some x | .const _ => none
  | .other x => [x]

/-- The same for an operand. -/
def valLeaves : MVal → List Nat
  | .const _ => []
  | .val p => leaves p

/-- The values that an instruction uses. -/
def usedBy : MInst → List Nat
  | .load _ p _ => leaves p
  | .store _ v p _ => valLeaves v ++ leaves p
  | .call _ _ args => args.flatMap valLeaves
  | .atomic _ p _ => leaves p
  | .op _ args => args.flatMap valLeaves

/-- The blocks `path` (in this order) can be executed from the entry of the function, then `b` begins. -/
inductive RunTo (f : MFun) : List Nat → Nat → Prop
  | entry : RunTo f [] 0
  | next {path : List Nat} {a b : Nat} : RunTo f path a → a < f.length → b ∈ f.succs a →
      RunTo f (path ++ [a]) b

/-- The instructions that are executed on a path up to position `j` of block `b`. -/
def executed (f : MFun) (path : List Nat) (b j : Nat) : List MInst :=
  path.flatMap f.insts ++ (f.insts b).take j

/-- The state after instructions. -/
def runM (M : MMach) (s : MSt) (is : List MInst) : MSt := is.foldl (stepM M) s

/-- The rules of SSA form that matter here: the entry has no predecessors, every value is defined at one
place, and on every path a value is defined before it is used. -/
structure SSA (f : MFun) (args : List Nat) : Prop where
  entry : ∀ a, a < f.length → 0 ∉ f.succs a
  once : ∀ (a j b k : Nat) i i' x, (f.insts a)[j]? = some i → (f.insts b)[k]? = some i' → defines i = some x →
    defines i' = some x → a = b ∧ j = k
  params : ∀ (a j : Nat) i x, (f.insts a)[j]? = some i → defines i = some x → x ∉ args
  dom : ∀ path (b j : Nat) i, RunTo f path b → (f.insts b)[j]? = some i → ∀ x ∈ usedBy i,
    x ∈ args ∨ ∃ d ∈ executed f path b j, defines d = some x

/-- The pointer and the width of an access to memory. -/
def accessOf : MInst → Option (MPtr × Nat)
  | .load _ p w => some (p, w)
  | .store _ _ p w => some (p, w)
  | .atomic _ p w => some (p, w)
  | _ => none

/-- Identities stand for pointers, and a pointer has one (non-empty) type. -/
def TypedPtrs (f : MFun) : Prop :=
  ∀ (a j b k : Nat) i i' p q v w, (f.insts a)[j]? = some i → (f.insts b)[k]? = some i' →
    accessOf i = some (p, v) → accessOf i' = some (q, w) → 0 < v ∧ (p.id = q.id → p = q ∧ v = w)

/-- All accesses of the executed instructions stay within the element or field that they select (everything
else is undefined behaviour in C). -/
def BoundsKept (M : MMach) (s : MSt) (is : List MInst) : Prop :=
  ∀ pre i post p w, is = pre ++ i :: post → accessOf i = some (p, w) → accessIn (runM M s pre).env w p

end DK.Spec
