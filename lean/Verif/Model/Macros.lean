import Verif.Model.SyntaxDiff

/-!
Constants that are taken for values of macros and enumerators (diffkemp/simpll/DebugInfo.cpp) and how they are compared
(diffkemp/simpll/DifferentialFunctionComparator.cpp).
-/

set_option autoImplicit false

namespace DK

/-- `llvm::Constant`: an integer with its number of bits and its value as a signed number, or any other constant (a
floating-point number, a null pointer, ...), of which only the identity is kept. Constants of one context are unique,
so two constants are the same object if these are the same. -/
inductive IConst where
  | int (bits : Nat) (val : Int)
  | other (id : Nat)
  deriving DecidableEq, Repr

/-- `valueAsString`, Utils.cpp 280-287. -/
def IConst.text : IConst → Str
  | .int _ v => intStr v
  | .other _ => []

/-- What debug information says about macros (`DIMacro`, with the text of its body, which is empty for `#undef`) and
enumerators (`DIEnumerator`, with number of bits and value). -/
inductive DDef where
  | macro (name value : Str)
  | enumr (name : Str) (bits : Nat) (val : Int)

/-- `getName` -/
def DDef.name : DDef → Str
  | .macro n _ => n
  | .enumr n _ _ => n

/-- `DIMacro::getValue`, and `getEnumValue` (DebugInfo.cpp 505-513), which prints the bits as an unsigned number (with
LLVM 11 or newer). -/
def DDef.text : DDef → Str
  | .macro _ v => v
  | .enumr _ b v => Nat.toDigits 10 (v % (2 ^ b : Nat)).toNat

/-- `DIMacroNode`: a definition of a macro with its line, the end of a definition (`#undef`, also a `DIMacro`), or a file
with the macros that are defined in it. -/
inductive MNode where
  | define (line : Nat) (name value : Str)
  | undef (line : Nat) (name : Str)
  | file (name : Str) (elems : List MNode)

/-- `DICompileUnit`: its macros and the enumerators of its enumerations. -/
structure CUnit where
  macros : List MNode
  enums : List (Str × Nat × Int)

/-- The macros that are visited (the loops at DebugInfo.cpp 371-375 and 395-400): those at the top. The kind of a
`DIMacro` is not looked at; the value of `#undef` is empty. -/
def topMacro : MNode → Option DDef
  | .define _ n v => some (.macro n v)
  | .undef _ n => some (.macro n [])
  | .file _ _ => none

/-- The definitions of one compile unit in the order in which they are visited, 371-383 and 395-410. -/
def CUnit.defs (u : CUnit) : List DDef :=
  u.macros.filterMap topMacro ++ u.enums.map (fun e => .enumr e.1 e.2.1 e.2.2)

/-- `MacroUsageMap[name].insert(c)`. The sets are ordered by pointers; here by first insertion. -/
def addUsage (m : Dict Str (List IConst)) (n : Str) (c : IConst) : Dict Str (List IConst) :=
  m.set n (let l := (m.get? n).getD []; if c ∈ l then l else l ++ [c])

/-- `collectMacrosWithValue`, DebugInfo.cpp 389-412. -/
def collectMacros (first : List DDef) (m : Dict Str (List IConst)) (c : IConst) : Dict Str (List IConst) :=
  if c.text = [] then m else first.foldl (fun m d => if d.text = c.text then addUsage m d.name c else m) m

/-- `std::map::emplaceText`: an existing entry is kept. -/
def emplaceText (m : Dict IConst Str) (c : IConst) (v : Str) : Dict IConst Str :=
  if (m.get? c).isSome then m else m.set c v

/-- `addAlignment`, 442-450. -/
def addAlignment (usage : Dict Str (List IConst)) (m : Dict IConst Str) (d : DDef) : Dict IConst Str :=
  match usage.get? d.name with
  | some (c :: cs) => if c.text ≠ d.text then (c :: cs).foldl (fun m c => emplaceText m c d.text) m else m
  | _ => m

/-- `calculateMacroAlignments`, 341-385: `consts` are the constants used as operands in called functions of the first
module that exist in the second one. Debug information about types is supposed to exist in both. -/
def macroMap (first second : List CUnit) (consts : List IConst) : Dict IConst Str :=
  (second.flatMap CUnit.defs).foldl
    (addAlignment (consts.foldl (collectMacros (first.flatMap CUnit.defs)) [])) []

/-- `cmpValues` for constants, DifferentialFunctionComparator.cpp 1550-1558: equal constants (of the same type), or a
constant that is mapped to the text of the other. With the pattern switched off the map is empty (DebugInfo.h 60-61). -/
def cmpIConst (map : Dict IConst Str) (l r : IConst) : Bool :=
  decide (l = r) || decide (map.get? l = some r.text)

end DK
