import Verif.Model.Text
import Verif.Model.Transforms

/-!
Comparison of calls (diffkemp/simpll/DifferentialFunctionComparator.cpp) and how arguments are found in C source
(diffkemp/simpll/SourceCodeUtils.cpp, Utils.cpp).
-/

set_option autoImplicit false

namespace DK

/-- An operand of a call: a constant integer with its number of bits and its unsigned value, a null pointer, another
value, or a function. -/
inductive COp where
  | const (bits val : Nat)
  | null
  | ref (id : Nat)
  | fn (name : Str)
  deriving DecidableEq, Repr

/-- `isNullValue() || isZeroValue()` of a constant, 1641-1644. Functions and other values are no null values (constants
that are neither integers nor pointers are left out). -/
def COp.isNull : COp → Bool
  | .const _ v => v == 0
  | .null => true
  | _ => false

/-- Types in debug information: basic types, pointers, typedefs, and structures, unions and arrays (without name). -/
inductive DITy where
  | basic (name : Str) (size : Nat)
  | ptr (pointee : DITy)
  | typedef (name : Str) (base : DITy)
  | composite (name : Str) (size : Nat)
  deriving DecidableEq, Repr

/-- `DIType::getName` -/
def DITy.name : DITy → Str
  | .basic n _ => n
  | .ptr _ => []
  | .typedef n _ => n
  | .composite n _ => n

/-- A call instruction with what is known about its place.
`shape` are its type and other properties that `FunctionComparator::cmpOperations` compares (there the number of
operands and their types, too). `lines` are the source line and the bodies of the macros used on it, `asmArgs` what
`findInlineAssemblySourceArguments` finds if the callee stands for inline assembly. `info` is what
`getPointeeStructTypeInfo` (Utils.cpp 618-657) finds: name and size of the structure that the result (for
allocations, of the cast that follows) or the destination (for `memset`) points to; no name if there is none.
`vars` are the types of variables, by name. -/
structure CCall where
  callee : Str
  memset : Bool
  shape : Nat
  args : List COp
  tys : List Nat
  lines : List Str
  asmArgs : List Str
  info : Str × Nat
  vars : Str → Option DITy

/-- `getCalledFunction` and the arguments: the operands. -/
def CCall.operands (c : CCall) : List COp := c.args ++ [.fn c.callee]

/-- What the comparison of calls depends on: comparison of values, the patterns, and for both modules the map from sizes
of structures to their names (`StructureSizeAnalysis`). -/
structure CEnv where
  cmpV : COp → COp → Bool
  structAlignment : Bool
  controlFlowOnly : Bool
  sizesL : Nat → List Str
  sizesR : Nat → List Str

/-- `cmpValues`, 1505-1590 with `FunctionComparator::cmpValues` (16/FunctionComparator.cpp 764-804), for operands of calls;
`true` for the result 0. `mL` and `mR` are the serial numbers; values of both functions have different numbers as
operands (they are different objects). Two values without serial number get the same new one (both maps have the same
size); the new entries are left out here. -/
def snCmp (mL mR : Nat → Option Nat) : COp → COp → Bool
  | .ref a, .ref b =>
    match mL a, mR b with
    | some n, some k => n = k
    | none, none => true
    | _, _ => false
  | .const w v, .const w' v' => w = w' && v = v'
  | .null, .null => true
  | .fn f, .fn g => f = g
  | _, _ => false

/-- `isAllocFunction`, Utils.cpp 210-213. -/
def isAllocFun (n : Str) : Bool := n = str! "kzalloc" || n = str! "__kmalloc" || n = str! "kmalloc"

/-- `cmpIntWithConstant`, 467-473; `true` for the result 0. -/
def isConstant (n : Nat) : Option COp → Bool
  | some (.const _ v) => v = n
  | _ => false

/-- `isa<ConstantInt>` -/
def COp.isInt : COp → Bool
  | .const _ _ => true
  | _ => false

/-- The comparison of structures by name and of sizes with them, 505-508 and 1771-1774. -/
def sameStruct (l r : CCall) (a b : Option COp) : Bool :=
  l.info.1 ≠ [] && r.info.1 ≠ [] && l.info.1 = r.info.1 && isConstant l.info.2 a && isConstant r.info.2 b

/-- Comparison of optional operands. -/
def cmpOpt (v : COp → COp → Bool) : Option COp → Option COp → Bool
  | some a, some b => v a b
  | _, _ => false

/-- `cmpAllocs`, 479-509; `true` for the result 0. That sizes are constants (490-492) is implied by the last test. -/
def cmpAllocs (E : CEnv) (l r : CCall) : Bool :=
  cmpOpt E.cmpV l.operands[0]? r.operands[0]? || sameStruct l r l.operands[0]? r.operands[0]?

/-- The loop of `cmpMemset`, 1743-1748, from argument `i` on; `true` for the result 0. -/
def cmpMemsetLoop (E : CEnv) : Nat → List COp → List COp → Bool
  | _, [], _ => true
  | i, a :: as, bs =>
    if i = 2 then cmpMemsetLoop E (i + 1) as (bs.drop 1)
    else cmpOpt E.cmpV (some a) bs[0]? && cmpMemsetLoop E (i + 1) as (bs.drop 1)

/-- `cmpMemset`, 1737-1775; `true` for the result 0. -/
def cmpMemset (E : CEnv) (l r : CCall) : Bool :=
  cmpMemsetLoop E 0 l.args r.args &&
    (cmpOpt E.cmpV l.args[2]? r.args[2]? || sameStruct l r l.args[2]? r.args[2]?)

/-- The loop of `cmpCallsWithExtraArg`, 1652-1659. -/
def cmpCommon (E : CEnv) : List (COp × Nat) → List (COp × Nat) → Bool
  | a :: as, b :: bs => decide (a.2 = b.2) && E.cmpV a.1 b.1 && cmpCommon E as bs
  | _, _ => true

/-- `cmpCallsWithExtraArg`, 1627-1663, where `long` is the call with more arguments; `true` for the result 0. The
comparison of values takes the operands of the longer call first, also if this is the second one. -/
def cmpExtraArg (E : CEnv) (long short : CCall) : Bool :=
  (match long.args.getLast? with
    | some o => o.isNull
    | none => false) && decide (long.shape = short.shape) && cmpCommon E (long.args.zip long.tys) (short.args.zip short.tys)

/-- `ignoredMacroList`, 36-37. -/
def ignoredMacros : List Str :=
  [str! "__COUNTER__", str! "__FILE__", str! "__LINE__", str! "__DATE__", str! "__TIME__"]

/-- `input.find('(', i)` and the text up to the matching bracket, SourceCodeUtils.cpp 634-635 and 391-392. -/
def callText (s : Str) (i : Nat) : Str :=
  match findSub (str! "(") (s.drop i) with
  | some k => toMatchingBracket s (i + k)
  | none => []

/-- `findFunctionCallSourceArguments`, SourceCodeUtils.cpp 606-639: the last text in which the name occurs counts. -/
def callSourceArgs (lines : List Str) (name : Str) : List Str :=
  match lines with
  | [] => []
  | line :: _ =>
    if line = [] then []
    else splitArguments (lines.foldl (fun acc s => match findSub name s with
      | some i => callText s i
      | none => acc) [])

/-- The source arguments of a call; the name that is searched is given, 837-858. -/
def sourceArgs (c : CCall) (name : Str) : List Str :=
  if startsWith c.callee asmPrefix then c.asmArgs else callSourceArgs c.lines name

/-- `getCSourceIdentifierType`, Utils.cpp 660-719. -/
def sourceType (vars : Str → Option DITy) : Str → Option DITy
  | [] => vars []
  | c :: cs =>
    if c = '*' then
      match sourceType vars cs with
      | some (.ptr t) => some t
      | some (.typedef _ t) => some t
      | _ => none
    else if c = '&' then (sourceType vars cs).map .ptr
    else if (c :: cs).all identChar then vars (c :: cs) else none

/-- The text inside the brackets of `sizeof(..)`, 887-890. -/
def sizeofText (s : Str) : Str := ((toMatchingBracket s 6).drop 1).dropLast

/-- `sizeof` -/
def sizeofWord : Str := str! "sizeof"

/-- The comparison of two `sizeof` arguments, 868-903. -/
def cmpSizeofs (E : CEnv) (l r : CCall) (sl sr : Str) (v w : Nat) : Bool :=
  (E.sizesL v ≠ [] && E.sizesR w ≠ [] && E.sizesL v = E.sizesR w) ||
    match sourceType l.vars (sizeofText sl), sourceType r.vars (sizeofText sr) with
    | some a, some b => a.name = b.name
    | _, _ => false

/-- `cmpCallArgumentUsingCSource`, 824-906, for operand `i`; `true` for the result 0. Sizes are supposed to be below 2^31
(they are converted to `int`). In the line of the second call the name of the first callee is searched (857). -/
def cmpUsingSource (E : CEnv) (l r : CCall) (i : Nat) (a b : COp) : Bool :=
  match (sourceArgs l l.callee)[i]?, (sourceArgs r (if startsWith r.callee asmPrefix then r.callee else l.callee))[i]? with
  | some sl, some sr =>
    (decide (sl ∈ ignoredMacros) && decide (sr ∈ ignoredMacros) && decide (sl = sr)) ||
      match a, b with
      | .const _ v, .const _ w => startsWith sl sizeofWord && startsWith sr sizeofWord && cmpSizeofs E l r sl sr v w
      | _, _ => false
  | _, _ => false

/-- The loop of `cmpOperationsWithOperands`, 1838-1857, from operand `i` on: the first difference decides. -/
def cmpOperandsLoop (E : CEnv) (l r : CCall) : Nat → List COp → List COp → Bool
  | i, a :: as, b :: bs => if E.cmpV a b then cmpOperandsLoop E l r (i + 1) as bs else cmpUsingSource E l r i a b
  | _, _, _ => true

/-- `FunctionComparator::cmpOperations` for two calls: type, number and types of operands. -/
def sameForm (l r : CCall) : Bool :=
  decide (l.shape = r.shape) && decide (l.args.length = r.args.length) && decide (l.tys = r.tys)

/-- `cmpOperationsWithOperands` for two calls, 1811-1860, with `cmpOperations`, 269-400, for calls of functions that are
known; `true` for the result 0. -/
def cmpCall (E : CEnv) (l r : CCall) : Bool :=
  if decide (l.callee = r.callee) && isAllocFun l.callee && E.structAlignment && cmpAllocs E l r then true
  else if decide (l.callee = r.callee) && l.memset && r.memset && E.structAlignment && cmpMemset E l r then true
  else if decide (l.callee = r.callee) && !sameForm l r && E.controlFlowOnly && decide (l.args.length = r.args.length + 1) then
    cmpExtraArg E l r
  else if decide (l.callee = r.callee) && !sameForm l r && E.controlFlowOnly && decide (r.args.length = l.args.length + 1) then
    cmpExtraArg E r l
  else sameForm l r && cmpOperandsLoop E l r 0 l.operands r.operands

end DK
