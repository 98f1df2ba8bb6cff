import Verif.Model.NamedTypes

/-!
Specification for the comparison of types (C126-C128) and integer constants (C129): layouts of
types in memory as in the LLVM language reference, and values of integers.
-/

set_option autoImplicit false

namespace DK.Spec
open DK

/-- Sizes and alignments (in bytes) of the types without components; for vectors they are
computed from those of the element. -/
structure DataLay where
  int : Nat → Nat × Nat
  ptr : Nat → Nat × Nat
  prim : Fin 13 → Nat × Nat
  vec : Bool → Nat → Nat × Nat → Nat × Nat

/-- The next multiple of an alignment. -/
def roundUp (n a : Nat) : Nat := (n + a - 1) / a * a

/-- Size so far and largest alignment after the elements of a structure; in a packed structure
elements are not aligned. -/
def placeElems (packed : Bool) : Nat × Nat → List (Nat × Nat) → Nat × Nat
  | acc, [] => acc
  | (off, al), (s, a) :: rest =>
    let a' := if packed then 1 else a
    placeElems packed (roundUp off a' + s, max al a') rest

/-- Size and alignment of a structure. -/
def structLay (packed : Bool) (elems : List (Nat × Nat)) : Nat × Nat :=
  let r := placeElems packed (0, 1) elems
  (roundUp r.1 r.2, r.2)

mutual
/-- Size and alignment of a type. -/
def layOf (D : DataLay) : NTy → Nat × Nat
  | .int w => D.int w
  | .ptr s => D.ptr s
  | .prim id => D.prim id
  | .struct _ k es => structLay k (layOfList D es)
  | .func _ _ _ => (0, 1)
  | .array n e => (n * (layOf D e).1, (layOf D e).2)
  | .vec s n e => D.vec s n (layOf D e)
/-- Sizes and alignments of several types. -/
def layOfList (D : DataLay) : List NTy → List (Nat × Nat)
  | [] => []
  | t :: ts => layOf D t :: layOfList D ts
end

mutual
/-- The type and its components are not unions. -/
def noUnions : NTy → Bool
  | .struct n _ es => !(n.take 5 == str! "union") && noUnionsList es
  | .func t ps _ => noUnions t && noUnionsList ps
  | .array _ e => noUnions e
  | .vec _ _ e => noUnions e
  | _ => true
/-- The same for several types. -/
def noUnionsList : List NTy → Bool
  | [] => true
  | t :: ts => noUnions t && noUnionsList ts
end

/-- The number that a bit pattern (width and unsigned value) stands for in a signed type. -/
def signedVal (a : Nat × Nat) : Int :=
  if a.2 < 2 ^ (a.1 - 1) then a.2 else (a.2 : Int) - 2 ^ a.1

/-- A layout of a 64-bit machine. -/
def lay64 : DataLay where
  int w := (if w ≤ 8 then 1 else if w ≤ 16 then 2 else if w ≤ 32 then 4 else 8,
    if w ≤ 8 then 1 else if w ≤ 16 then 2 else if w ≤ 32 then 4 else 8)
  ptr _ := (8, 8)
  prim _ := (4, 4)
  vec _ n e := (n * e.1, n * e.1)

end DK.Spec
