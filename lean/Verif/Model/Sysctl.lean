import Verif.Model.Text
import Verif.Model.Snapshot

/-!
Model of snapshots of sysctl options: tables of options in LLVM modules
(diffkemp/simpll/library/SysctlTable.cpp), the search for the table of an option
(diffkemp/llvm_ir/kernel_source_tree.py 19-59) and the generation of the snapshot
(diffkemp/diffkemp.py 256-322).
-/

set_option autoImplicit false

namespace DK

/-- Constants of a module: a variable, a function, an integer, a string (`ConstantDataSequential`),
structures and arrays, address computations and casts; anything else. -/
inductive KConst where
  | glob (name : Str)
  | func (name : Str)
  | int (n : Nat)
  | text (s : Str)
  | struct (ops : List KConst)
  | array (ops : List KConst)
  | gep (ptr : KConst) (idxs : List KConst)
  | cast (c : KConst)
  | other

/-- Operands of a constant (`getOperand`). Simplified: only structures and arrays can be tables. -/
def KConst.ops : KConst → List KConst
  | .struct ops => ops
  | .array ops => ops
  | _ => []

/-- The global variables of a module with their initializers (`none`: only declared). -/
abbrev KMod := Dict Str (Option KConst)

/-- Errors: the library crashes (a failed assertion or a C++ exception), or a Python exception:
`SourceNotFoundException`, `AttributeError`, `IndexError`. -/
inductive SysErr where
  | crash
  | notFound
  | attribute
  | index
  deriving DecidableEq

/-- `rtrim('\0')` -/
def trimNul (s : Str) : Str := (s.reverse.dropWhile (· = Char.ofNat 0)).reverse

/-- `std::stoi`. Simplified: without spaces and signs at the beginning. -/
def stoi (s : Str) : Option Nat :=
  let ds := s.takeWhile Char.isDigit
  if ds = [] then none else some (ds.foldl (fun n c => 10 * n + (c.toNat - '0'.toNat)) 0)

/-- SysctlTable.cpp 77-81: the indices in the name of a table are followed. -/
def followTable : KConst → List Str → Except SysErr KConst
  | c, [] => .ok c
  | c, p :: ps =>
    match stoi p with
    | none => .error .crash
    | some i => match c.ops[i]? with
      | none => .error .crash
      | some c' => followTable c' ps

/-- SysctlTable.cpp 61-83: the entries of the table. -/
def tableOps (M : KMod) (table : Str) : Except SysErr (List KConst) :=
  match getlines '.' table with
  | [] => .error .crash
  | root :: path =>
    match Dict.get? M root with
    | none => .ok []
    | some none => .error .crash
    | some (some c) => match followTable c path with
      | .ok c' => .ok c'.ops
      | .error x => .error x

/-- SysctlTable.cpp 87-109: the name of an entry, `none` if the entry is skipped. The branch for
LLVM 15 and later. -/
def entryName (M : KMod) : KConst → Except SysErr (Option Str)
  | .struct (.glob g :: _) =>
    match Dict.get? M g with
    | some (some (.text s)) => .ok (some (trimNul s))
    | some (some _) => .ok none
    | _ => .error .crash
  | _ => .ok none

/-- `SysctlMap` -/
abbrev SysMap := Dict Str KConst

/-- The loop of `SysctlTable::parseSysctls`, SysctlTable.cpp 86-129. A pattern without components is
undefined behaviour. -/
def parseLoop (M : KMod) (pattern : Str) :
    List KConst → SysMap → List Str → Except SysErr (SysMap × List Str)
  | [], m, found => .ok (m, found)
  | c :: cs, m, found =>
    match entryName M c with
    | .error x => .error x
    | .ok none => parseLoop M pattern cs m found
    | .ok (some name) =>
      match (getlines '.' pattern).getLast? with
      | none => .error .crash
      | some last =>
        if cMatches name last then
          match findAndReplace last name pattern with
          | none => .error .crash
          | some n => parseLoop M pattern cs (Dict.set m n c) (found ++ [n])
        else parseLoop M pattern cs m found

/-- `SysctlTable::parseSysctls`, SysctlTable.cpp 57-132. -/
def parseTable (M : KMod) (table pattern : Str) (m : SysMap) : Except SysErr (SysMap × List Str) :=
  match tableOps M table with
  | .error x => .error x
  | .ok cs => parseLoop M pattern cs m []

/-- `SysctlTable::getSysctl`, SysctlTable.cpp 42-51. -/
def getSysctl (M : KMod) (table name : Str) (m : SysMap) : Except SysErr (SysMap × Option KConst) :=
  match Dict.get? m name with
  | some c => .ok (m, some c)
  | none => match parseTable M table name m with
    | .error x => .error x
    | .ok (m', _) => .ok (m', Dict.get? m' name)

/-- The handler of an entry, SysctlTable.cpp 180-184. -/
def handlerOf (c : KConst) : Option Str :=
  match (c.ops[5]? : Option KConst) with
  | some (KConst.func f) => some f
  | _ => none

/-- `SysctlTable::getProcFun`, SysctlTable.cpp 178-185. -/
def getProcFun (M : KMod) (table name : Str) (m : SysMap) : Except SysErr (SysMap × Option Str) :=
  match getSysctl M table name m with
  | .error x => .error x
  | .ok (m', some c) => .ok (m', handlerOf c)
  | .ok (m', none) => .ok (m', none)

/-- The indices of a constant address computation, SysctlTable.cpp 150-158. Simplified: the
conversion of an index to `int` changes nothing. -/
def gepInts : List KConst → Option (List Nat)
  | [] => some []
  | .int n :: cs => (gepInts cs).map (n :: ·)
  | _ :: _ => none

/-- SysctlTable.cpp 163-174: the variable after at most one cast. -/
def castVar (is : List Nat) : KConst → Option (Str × List Nat)
  | .cast (.glob g) => some (g, is)
  | .glob g => some (g, is)
  | _ => none

/-- SysctlTable.cpp 149-174: the variable and indices of an address. -/
def addressOf : KConst → Option (Str × List Nat)
  | .gep p is => match gepInts is with
    | some ns => castVar ns p
    | none => none
  | c => castVar [] c

/-- The variable at an element of an entry. -/
def varAt (c : KConst) (i : Nat) : Option (Str × List Nat) :=
  match c.ops[i]? with
  | some d => addressOf d
  | none => none

/-- `SysctlTable::getGlobalVariableAtIndex`, SysctlTable.cpp 135-175. -/
def getVarAt (M : KMod) (table name : Str) (i : Nat) (m : SysMap) :
    Except SysErr (SysMap × Option (Str × List Nat)) :=
  match getSysctl M table name m with
  | .error x => .error x
  | .ok (m', some c) => .ok (m', varAt c i)
  | .ok (m', none) => .ok (m', none)

/-! ### Python -/

/-- What the generation asks the source tree for. `modFor` is `get_module_for_symbol` (the path of
the LLVM file; `none`: `SourceNotFoundException`), `content` the parsed module, `modsUsing` is
`get_modules_using_symbol` (`none`: `SourceNotFoundException`), and `funsUsing` is
`get_functions_using_param`. -/
structure SysEnv where
  modFor : Str → Option Str
  content : Str → KMod
  modsUsing : Str → Option (List Str)
  funsUsing : Str → Str × List Nat → List Str

/-- kernel_source_tree.py 30-47: the first table and the remaining entries. -/
def firstTable (entries : List Str) : Except SysErr (Str × List Str) :=
  match entries with
  | [] => .error .index
  | e :: es =>
    if e ∈ [str! "kernel", str! "vm", str! "fs", str! "debug", str! "dev"] then
      .ok (str! "sysctl_base_table", e :: es)
    else if e = str! "net" then
      match es with
      | [] => .error .index
      | e1 :: es1 =>
        if e1 = str! "ipv4" then
          match es1 with
          | [] => .error .index
          | e2 :: es2 =>
            if e2 = str! "conf" then .ok (str! "devinet_sysctl.1", es2.drop 1)
            else .ok (str! "ipv4_table", e2 :: es2)
        else if e1 = str! "core" then .ok (str! "net_core_table", es1)
        else .error .notFound
    else .error .notFound

/-- kernel_source_tree.py 49-59: the module and the table that contains the last entry. -/
def descend (E : SysEnv) : List Str → Str → Except SysErr (Str × Str)
  | [], _ => .error .notFound
  | e :: es, table =>
    match E.modFor ((splitChar '.' table).headD []) with
    | none => .error .notFound
    | some p =>
      match es with
      | [] => .ok (p, table)
      | _ :: _ =>
        match getVarAt (E.content p) table e 4 [] with
        | .error x => .error x
        | .ok (_, none) => .error .attribute
        | .ok (_, some v) => descend E es v.1

/-- `KernelSourceTree.get_sysctl_module`, kernel_source_tree.py 19-59. -/
def sysctlModule (E : SysEnv) (sysctl : Str) : Except SysErr (Str × Str) :=
  match firstTable (splitChar '.' sysctl) with
  | .error x => .error x
  | .ok (table, entries) => descend E entries table

/-- diffkemp.py 286-301: the handler. -/
def addHandler (E : SysEnv) (group : Str) (handler : Option Str) (s : FunGroups) : FunGroups :=
  match handler with
  | none => s
  | some f => match E.modFor f with
    | none => s
    | some p => s.addFun f ⟨some p, none, some (str! "proc handler function")⟩ (some group)

/-- The tag of a function that uses a variable, diffkemp.py 316. -/
def dataTag (var : Str) : Str := str! "using data variable \"" ++ var ++ str! "\""

/-- diffkemp.py 309-318: the functions of one module. -/
def addDataFuns (group : Str) (handler : Option Str) (var path : Str) :
    List Str → FunGroups → FunGroups
  | [], s => s
  | f :: fs, s =>
    if some f = handler then addDataFuns group handler var path fs s
    else addDataFuns group handler var path fs
      (s.addFun f ⟨some path, some var, some (dataTag var)⟩ (some group))

/-- diffkemp.py 307-318: the functions of all modules. -/
def addDataMods (E : SysEnv) (group : Str) (handler : Option Str) (data : Str × List Nat) :
    List Str → FunGroups → FunGroups
  | [], s => s
  | p :: ps, s =>
    addDataMods E group handler data ps
      (addDataFuns group handler data.1 p (E.funsUsing p data) s)

/-- diffkemp.py 282-322: the loop over the options of one symbol. -/
def genOptions (E : SysEnv) (M : KMod) (table : Str) :
    List Str → SysMap → FunGroups → Except SysErr FunGroups
  | [], _, s => .ok s
  | n :: ns, m, s =>
    match getProcFun M table n m with
    | .error x => .error x
    | .ok (m1, handler) =>
      match getVarAt M table n 1 m1 with
      | .error x => .error x
      | .ok (m2, none) => genOptions E M table ns m2 (addHandler E n handler s)
      | .ok (m2, some data) =>
        match E.modsUsing data.1 with
        | none => .error .notFound
        | some ps =>
          genOptions E M table ns m2
            (addDataMods E n handler data ps (addHandler E n handler s))

/-- diffkemp.py 270-282: one symbol of the list; only `SourceNotFoundException` of the search for the
table is caught. -/
def genSymbol (E : SysEnv) (symbol : Str) (s : FunGroups) : Except SysErr FunGroups :=
  match sysctlModule E symbol with
  | .error .notFound => .ok s
  | .error x => .error x
  | .ok (p, table) =>
    match parseTable (E.content p) table symbol [] with
    | .error x => .error x
    | .ok (m, names) => genOptions E (E.content p) table names m s

/-- `generate_from_sysctl_list`, diffkemp.py 256-322. -/
def genSysctls (E : SysEnv) : List Str → FunGroups → Except SysErr FunGroups
  | [], s => .ok s
  | sym :: syms, s =>
    match genSymbol E sym s with
    | .error x => .error x
    | .ok s' => genSysctls E syms s'

end DK
