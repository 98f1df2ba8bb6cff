import Verif.Model.FunCmp

/-!
Model of the comparison of types and integer constants with the patterns for changed structures and
for type casts (diffkemp/simpll/DifferentialFunctionComparator.cpp 1665-1730), on types whose
structures have names. In `IR` structures have no names because the basic comparator does not
read them.
-/

set_option autoImplicit false

namespace DK

/-- `llvm::Type` with the names of structures (empty for literal structures). -/
inductive NTy where
  | int (bits : Nat)
  | ptr (space : Nat)
  | prim (id : Fin 13)
  | struct (name : Str) (packed : Bool) (elems : List NTy)
  | func (ret : NTy) (params : List NTy) (vararg : Bool)
  | array (n : Nat) (elem : NTy)
  | vec (scalable : Bool) (n : Nat) (elem : NTy)

/-- The patterns that the comparison of types reads (`config.Patterns.StructAlignment` and
`config.Patterns.TypeCasts`). -/
structure TyPats where
  structAlign : Bool
  casts : Bool

/-- `Type::getTypeID` after pointers of the default address space were replaced. -/
def NTy.kind : NTy → Nat
  | .prim id => id.val
  | .int _ => 13
  | .func _ _ _ => 14
  | .ptr s => if s = 0 then 13 else 15
  | .struct _ _ _ => 16
  | .array _ _ => 17
  | .vec s _ _ => if s then 19 else 18

/-- What is compared for types of the same kind without components. -/
def NTy.num (ptrBits : Nat) : NTy → Nat
  | .int w => w
  | .ptr s => if s = 0 then ptrBits else s
  | _ => 0

/-- The name of a structure type is that of a union (line 1691). -/
def NTy.isUnion : NTy → Bool
  | .struct n _ _ => n.take 5 == str! "union"
  | _ => false

/-- `Type::isStructTy` -/
def NTy.isStruct : NTy → Bool
  | .struct _ _ _ => true
  | _ => false

/-- `DifferentialFunctionComparator::cmpTypes`, lines 1674-1696: a union is equal to a type that is
not larger. `sizeL` and `sizeR` are `getTypeAllocSize` with the layouts of the two modules.
Simplified: for types without a size LLVM fails, here the functions return some number. -/
def unionRule (sizeL sizeR : NTy → Nat) (l r : NTy) : Bool :=
  if l.isStruct then l.isUnion && decide (sizeR r ≤ sizeL l)
  else r.isStruct && (r.isUnion && decide (sizeL l ≤ sizeR r))

mutual
/-- `DifferentialFunctionComparator::cmpTypes`, lines 1667-1714, with the inherited
`FunctionComparator::cmpTypes` (llvm-lib/16/FunctionComparator.cpp 430-524), which calls the former
for components. `p` is the size of pointers in the first module. The shortcut for identical types
(440) is subsumed (`cmpNamed_refl`). -/
def cmpNamed (c : TyPats) (sizeL sizeR : NTy → Nat) (p : Nat) (l r : NTy) : Int :=
  if c.structAlign && unionRule sizeL sizeR l r then 0
  else match l, r with
  | .int w, .int w' =>
    if c.casts then
      if w = 1 ∨ w' = 1 then (if w = w' then 0 else 1) else 0
    else cmpNum w w'
  | .struct _ k es, .struct _ k' es' =>
    thenCmp (cmpNum es.length es'.length)
      (thenCmp (cmpNum k.toNat k'.toNat) (cmpNamedList c sizeL sizeR p es es'))
  | .func t ps v, .func t' ps' v' =>
    thenCmp (cmpNum ps.length ps'.length) (thenCmp (cmpNum v.toNat v'.toNat)
      (thenCmp (cmpNamed c sizeL sizeR p t t') (cmpNamedList c sizeL sizeR p ps ps')))
  | .array n e, .array n' e' =>
    if c.casts then cmpNamed c sizeL sizeR p e e'
    else thenCmp (cmpNum n n') (cmpNamed c sizeL sizeR p e e')
  | .vec s n e, .vec s' n' e' =>
    thenCmp (cmpNum s.toNat s'.toNat) (thenCmp (cmpNum n n') (cmpNamed c sizeL sizeR p e e'))
  | l, r => thenCmp (cmpNum l.kind r.kind) (cmpNum (l.num p) (r.num p))
termination_by sizeOf l
/-- The loops over element and parameter types, lines 477-481 and 496-499. -/
def cmpNamedList (c : TyPats) (sizeL sizeR : NTy → Nat) (p : Nat) (l r : List NTy) : Int :=
  match l, r with
  | a :: as, b :: bs =>
    thenCmp (cmpNamed c sizeL sizeR p a b) (cmpNamedList c sizeL sizeR p as bs)
  | _, _ => 0
termination_by sizeOf l
end

/-- `DifferentialFunctionComparator::cmpAPInts`, lines 1717-1730, on pairs of width and value (as
an unsigned number). `none`: `getZExtValue` fails for a value of more than 64 bits. -/
def cmpAPIntCasts (casts : Bool) (a b : Nat × Nat) : Option Int :=
  let res := cmpAPInt a b
  if !casts || res = 0 then some res
  else if a.2 < 2 ^ 64 ∧ b.2 < 2 ^ 64 then some (cmpNum a.2 b.2)
  else none

end DK
