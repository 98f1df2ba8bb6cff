import Verif.Model.Text
import Verif.Model.Py

/-!
Model of the simplification of kernel globals (diffkemp/simpll/passes/SimplifyKernelGlobalsPass.cpp) and of the names of
anonymous structures (diffkemp/simpll/passes/StructHashGeneratorPass.cpp).
-/

set_option autoImplicit false

namespace DK

/-- A part of code or of an initializer: a reference to a function or a global variable, the null constant, or anything
else. -/
inductive KgOp where
  | ref (name : Str)
  | null
  | other (t : Nat)
deriving DecidableEq

/-- A global variable, with `init = none` for a declaration. -/
structure KgGlob where
  name : Str
  init : Option (List KgOp)
deriving DecidableEq

/-- A function, with `body = none` for a declaration. -/
structure KgFun where
  name : Str
  body : Option (List KgOp)
deriving DecidableEq

/-- A module: its global variables (without `llvm.used`), the elements of `llvm.used`, and its functions. -/
structure KgMod where
  globs : List KgGlob
  used : Option (List KgOp)
  funs : List KgFun
deriving DecidableEq

/-- The name of a variable of the kernel symbol table (SimplifyKernelGlobalsPass.cpp 43, 65). -/
def isKsym (name : Str) : Bool := (str! "__ksym").isPrefixOf name

/-- Replacement of references (`replaceAllUsesWith`). -/
def KgOp.subst (s : Str → KgOp) : KgOp → KgOp
  | .ref n => s n
  | o => o

def KgMod.subst (s : Str → KgOp) (m : KgMod) : KgMod :=
  ⟨m.globs.map (fun g => { g with init := g.init.map (List.map (KgOp.subst s)) }), m.used.map (List.map (KgOp.subst s)),
    m.funs.map (fun f => { f with body := f.body.map (List.map (KgOp.subst s)) })⟩

/-- Removal of kernel symbols from `llvm.used` (SimplifyKernelGlobalsPass.cpp 49-86). -/
def usedWithoutKsyms (used : Option (List KgOp)) : Option (List KgOp) :=
  match used with
  | none => none
  | some us =>
    let us' := us.filter (fun o => match o with | .ref n => !isKsym n | _ => true)
    if us'.isEmpty then none else some us'

/-- Removal of kernel symbols (SimplifyKernelGlobalsPass.cpp 41-101). A declared kernel symbol has no initializer, which ends the
tool. -/
def removeKsyms (m : KgMod) : Option KgMod :=
  if m.globs.any (fun g => isKsym g.name && g.init.isNone) then none
  else
    let gone := (m.globs.filter (fun g => isKsym g.name)).map KgGlob.name
    some (({ m with used := usedWithoutKsyms m.used, globs := m.globs.filter (fun g => !isKsym g.name) } : KgMod).subst
      (fun n => if gone.contains n then .null else .ref n))

/-- `OrigName`, SimplifyKernelGlobalsPass.cpp 107. -/
def assertName : Str := str! "__compiletime_assert"

/-- Whether a function is merged (SimplifyKernelGlobalsPass.cpp 105-106). -/
def isAssertFun (name : Str) : Bool := decide (assertName <:+: name) && decide (name ≠ assertName)

/-- The loop over functions, SimplifyKernelGlobalsPass.cpp 103-114, for one function. References are by name, so both renaming of
the function and replacement of its uses change them. -/
def mergeAssert (m : KgMod) (name : Str) : KgMod :=
  if isAssertFun name then
    let m' := m.subst (fun n => if n = name then .ref assertName else .ref n)
    if m.funs.any (fun f => f.name == assertName) then m'
    else { m' with funs := m'.funs.map (fun f => if f.name = name then { f with name := assertName } else f) }
  else m

/-- `SimplifyKernelGlobalsPass::run`, SimplifyKernelGlobalsPass.cpp 36-116. -/
def simplifyKernelGlobals (m : KgMod) : Option KgMod :=
  (removeKsyms m).map (fun m' => (m'.funs.map KgFun.name).foldl mergeAssert m')

/-- A field of a structure: a structure type of the module or another type with its text. -/
inductive HashField where
  | struct (i : Nat)
  | text (t : Str)
deriving DecidableEq

/-- A structure type: its name and its fields, `none` for an opaque structure. -/
structure HashType where
  name : Str
  fields : Option (List HashField)
deriving DecidableEq

/-- The text of a declaration without the name (StructHashGeneratorPass.cpp 30-39): fields are printed one after another, structures
by their names. -/
def declText (names : List Str) (fs : List HashField) : List Str :=
  fs.map (fun f => match f with
    | .struct i => '%' :: names.getD i []
    | .text t => t)

/-- The prefix of an anonymous structure (StructHashGeneratorPass.cpp 26-28, 41-43). -/
def anonPrefix (name : Str) : Option Str :=
  if (str! "union.anon").isPrefixOf name then some (str! "union.anon.")
  else if (str! "struct.anon").isPrefixOf name then some (str! "struct.anon.")
  else none

/-- `StructType::setName`: a name that another type has is extended (`fresh`). -/
def setTypeName (fresh : List Str → Str → Str) (names : List Str) (i : Nat) (new : Str) : List Str :=
  if names[i]? = some new then names
  else if names.contains new then names.set i (fresh names new)
  else names.set i new

/-- The loop of `StructHashGeneratorPass::run`, StructHashGeneratorPass.cpp 24-49, for one type. -/
def renameAnon (fresh : List Str → Str → Str) (hash : List Str → Nat) (types : List HashType) (names : List Str) (i : Nat) :
    List Str :=
  match anonPrefix (names.getD i []), (types[i]?).bind HashType.fields with
  | some p, some fs => setTypeName fresh names i (p ++ Nat.toDigits 10 (hash (declText names fs)))
  | _, _ => names

/-- `StructHashGeneratorPass::run`, StructHashGeneratorPass.cpp 19-52: the names of types after the pass. Types are in the order in
which they are found. -/
def structHashPass (fresh : List Str → Str → Str) (hash : List Str → Nat) (types : List HashType) : List Str :=
  (List.range types.length).foldl (renameAnon fresh hash types) (types.map HashType.name)

end DK
