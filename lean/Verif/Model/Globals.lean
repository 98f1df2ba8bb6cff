import Verif.Model.FunCmp
import Verif.Model.Transforms

/-!
Comparison of global variables, functions and constants that refer to them
(diffkemp/simpll/DifferentialFunctionComparator.cpp, diffkemp/simpll/llvm-lib/16/FunctionComparator.cpp), and the
constants that are taken for values of macros (diffkemp/simpll/DebugInfo.cpp).
-/

set_option autoImplicit false

namespace DK

/-- What a global value is: a variable (constant or not, with its initializer) or a function with the code and
the constraints of the inline assembly it stands for (empty for other functions). -/
inductive GKind where
  | var (isConst : Bool) (init : Option Const)
  | func (asm constraints : Str)

/-- `llvm::GlobalValue`. The name is empty if it has none. -/
structure GVal where
  name : Str
  kind : GKind

/-- The initializer of a constant variable that has one, lines 1258-1259. -/
def GVal.content? (g : GVal) : Option Const :=
  match g.kind with
  | .var true init => init
  | _ => none

/-- The code and constraints of the inline assembly that a function stands for, lines 1307-1314. -/
def GVal.asm? (g : GVal) : Option (Str × Str) :=
  match g.kind with
  | .func a c => if startsWith g.name asmPrefix then some (a, c) else none
  | _ => none

/-- Comparison by name, 1268-1334. Unnamed values of two modules are different objects (1334). That functions with
the same name are compared later is not part of this model. -/
def cmpByName (l r : GVal) : Bool :=
  if l.name ≠ [] && r.name ≠ [] then
    if stem l.name = stem r.name || (isKernelPrint (stem l.name) && isKernelPrint (stem r.name)) then
      match l.asm?, r.asm? with
      | some a, some b => decide (a = b)
      | _, _ => true
    else false
  else false

mutual
/-- `FunctionComparator::cmpConstants`, lines 214-419, with the given comparison of global values; `true` stands for
the result 0. Constants without operands are compared as in `cmpConst`. -/
def cmpConstW (p : Nat) (g : Nat → Nat → Option Bool) : Const → Const → Option Bool
  | l, r =>
    match typesDecide p l.ty r.ty with
    | some _ => some false
    | none =>
      if l.isNull && r.isNull then some (decide (cmpTypes p l.ty r.ty = 0))
      else if l.isNull || r.isNull then some false
      else
        match l, r with
        | .global a, .global b => g a b
        | .aggr k _ es, .aggr k' _ es' =>
          if k = k' && decide (es.length = es'.length) then cmpConstListW p g es es' else some false
        | .expr _ _ es, .expr _ _ es' =>
          if decide (es.length = es'.length) then cmpConstListW p g es es' else some false
        | l, r => some (decide (cmpConst p l r = 0))
/-- The loops over the elements: the first difference ends them. -/
def cmpConstListW (p : Nat) (g : Nat → Nat → Option Bool) : List Const → List Const → Option Bool
  | a :: as, b :: bs =>
    match cmpConstW p g a b with
    | some true => cmpConstListW p g as bs
    | x => x
  | _, _ => some true
end

/-- `DifferentialFunctionComparator::cmpGlobalValues`, 1247-1335, for the global values with numbers `l` and `r` of the
two modules. `assumed` is `assumedEqual`: pairs of constants that are being compared. `none`: not finished with this
depth of recursion. The patterns that change the comparison of constants (type casts, struct alignment, 1597-1625 and
1667-1730) are off. -/
def cmpGlob (p : Nat) (G H : Nat → GVal) : Nat → List (Nat × Nat) → Nat → Nat → Option Bool
  | 0, _, _, _ => none
  | fuel + 1, assumed, l, r =>
    if (l, r) ∈ assumed then some true
    else
      match (G l).content?, (H r).content? with
      | some a, some b => cmpConstW p (cmpGlob p G H fuel ((l, r) :: assumed)) a b
      | _, _ => some (cmpByName (G l) (H r))

end DK
