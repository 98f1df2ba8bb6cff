import Verif.Model.Identifier

/-! Specification of the texts shown for arguments of inline assembly. -/

set_option autoImplicit false

namespace DK.Spec
open DK

/-- Is it a text inside the other one? -/
def TextIn (p s : Str) : Prop := ∃ a b, s = a ++ p ++ b

/-- The type inside a type at an index; `members` are the types of members of structures. -/
def innerType (members : Str → Nat → IdTy) : IdTy → Nat → IdTy
  | .struct s, n => members s n
  | .array e, _ => e
  | .other, _ => .other

/-- The type of the object that is reached with the indices; the first index stays in the type. -/
def reachedType (members : Str → Nat → IdTy) : IdVal → IdTy
  | .elem _ s => s
  | .index g n => if g.isElem then reachedType members g else innerType members (reachedType members g) n
  | .indexVal g _ => if g.isElem then reachedType members g else innerType members (reachedType members g) 0
  | _ => .other

/-- Indices can be added to a `getelementptr` only. -/
def isGep : IdVal → Bool
  | .elem _ _ => true
  | .index _ _ => true
  | .indexVal _ _ => true
  | _ => false

/-- The value may occur in a module: the indices of members are constant (as LLVM demands). -/
def ValidVal (members : Str → Nat → IdTy) : IdVal → Prop
  | .plain _ => True
  | .bitcast _ v => ValidVal members v
  | .zext v => ValidVal members v
  | .load v => ValidVal members v
  | .elem v _ => ValidVal members v
  | .index g _ => isGep g = true ∧ ValidVal members g
  | .indexVal g i => isGep g = true ∧ ValidVal members g ∧ ValidVal members i ∧
      (g.isElem = true ∨ ∀ s, reachedType members g ≠ .struct s)

/-- The variables and members that are accessed. -/
def mentioned (fields : Str → Nat → Option Str) (members : Str → Nat → IdTy) : IdVal → List Str
  | .plain t => [t]
  | .bitcast _ v => mentioned fields members v
  | .zext v => mentioned fields members v
  | .load v => mentioned fields members v
  | .elem v _ => mentioned fields members v
  | .index g n =>
    mentioned fields members g ++
      (if g.isElem then [] else match (reachedType members g).structName with
        | some s => [memberText fields s n]
        | none => [])
  | .indexVal g i => mentioned fields members g ++ mentioned fields members i

/-- The text has the form `&(...)`. -/
def isRefVal : IdVal → Bool
  | .plain _ => false
  | .bitcast _ _ => false
  | .zext v => isRefVal v
  | .load _ => false
  | .elem v _ => isRefVal v
  | .index g n => if g.isElem && decide (n = 0) then isRefVal g else true
  | .indexVal _ _ => true

/-- The text, and the text inside of `&(...)`, do not begin with `&`. -/
def plainHead : IdVal → Bool × Bool
  | .plain _ => (true, true)
  | .bitcast _ _ => (true, true)
  | .zext v => plainHead v
  | .load v => (!isRefVal v || (plainHead v).2, true)
  | .elem v _ => plainHead v
  | .index g n =>
    if g.isElem && decide (n = 0) then plainHead g
    else (false, if g.source.structName.isSome then (plainHead g).1 else (plainHead g).2)
  | .indexVal g _ => (false, (plainHead g).2)

/-- Values that are shown correctly: names do not begin with `&`; after a first index 0 a structure is indexed at most
once; arrays are indexed only after a member or as an element of another array, and not structures inside of arrays; and
what is dereferenced is a member or does not begin with `&`. -/
def SimpleVal (members : Str → Nat → IdTy) : IdVal → Prop
  | .plain t => t.head? ≠ some '&'
  | .bitcast _ v => SimpleVal members v
  | .zext v => SimpleVal members v
  | .load v => SimpleVal members v ∧ (isRefVal v = true ∨ (plainHead v).1 = true)
  | .elem v _ => SimpleVal members v
  | .index g n => SimpleVal members g ∧
      ((g.isElem = true ∧ n = 0) ∨
       (∃ v s, g = .index (.elem v (.struct s)) 0) ∨
       (isRefVal g = true ∧ g.source.structName = none ∧ (g.isElem = true ∨ (reachedType members g).structName = none)))
  | .indexVal g i => SimpleVal members g ∧ SimpleVal members i ∧ isRefVal g = true ∧ g.source.structName = none

end DK.Spec
