import Verif.Model.Macros
import Verif.Model.Text

/-!
Macros used on a source line and differences between them (`MacroDiffAnalysis`, diffkemp/simpll/SourceCodeUtils.cpp).
Composite macro names are left out (see C80), and so are the arguments of macros, which only matter for them and for the
search of arguments of calls. The hash map `StringMap` is modelled by an association list; its order is not claimed
anywhere.
-/

set_option autoImplicit false

namespace DK

/-- `MacroDef`, SourceCodeUtils.h 29-43, without parameters. -/
structure MDef where
  name : Str
  body : Str
  file : Str
  line : Nat
  deriving DecidableEq, Repr

/-- A definition in a file, SourceCodeUtils.cpp 355-369: parameters are removed from the name. -/
def mkDef (file : Str) (line : Nat) (fullName value : Str) : MDef :=
  { name := fullName.takeWhile (· ≠ '('), body := value, file := file, line := line }

/-- `macroDefs.insert`, 380: an existing entry is kept. -/
def insertDef (m : Dict Str MDef) (d : MDef) : Dict Str MDef := if (m.get? d.name).isSome then m else m.set d.name d

/-- One element of the file that is processed, 348-381. The stack holds files with their elements, its top first. The kind
of a `DIMacro` is not looked at: `#undef` is taken as a definition with an empty body. -/
def defStep (file : Str) (st : List (Str × List MNode) × Dict Str MDef) : MNode → List (Str × List MNode) × Dict Str MDef
  | .file n es => ((n, es) :: st.1, st.2)
  | .define line n v => (st.1, insertDef st.2 (mkDef file line n v))
  | .undef line n => (st.1, insertDef st.2 (mkDef file line n []))

/-- The loop over the stack, 343-382. `none`: not finished after the given number of files. -/
def defLoop : Nat → List (Str × List MNode) → Dict Str MDef → Option (Dict Str MDef)
  | _, [], m => some m
  | 0, _ :: _, _ => none
  | k + 1, (f, es) :: stack, m =>
    let st := es.foldl (defStep f) (stack, m)
    defLoop k st.1 st.2

mutual
/-- Number of files in a tree of macros. -/
def MNode.fileCount : MNode → Nat
  | .define _ _ _ => 0
  | .undef _ _ => 0
  | .file _ es => fileCounts es + 1
def fileCounts : List MNode → Nat
  | [] => 0
  | n :: ns => n.fileCount + fileCounts ns
end

/-- The files at the top, 334-337. -/
def topFile : MNode → Option (Str × List MNode)
  | .define _ _ _ => none
  | .undef _ _ => none
  | .file n es => some (n, es)

/-- `collectMacroDefs`, 324-386. -/
def collectDefs (nodes : List MNode) : Option (Dict Str MDef) :=
  defLoop (fileCounts nodes) (nodes.filterMap topFile).reverse []

/-- `isValidCharForIdentifierStart`, Utils.cpp 363-368. -/
def identStart (c : Char) : Bool := c.isAlpha || c = '_'

/-- The identifiers that are looked up, SourceCodeUtils.cpp 64-132: `cur` is `potentialMacroName`. -/
def scanIdents : Str → Str → List Str
  | _, [] => []
  | [], c :: cs => if identStart c then scanIdents [c] cs else scanIdents [] cs
  | x :: xs, c :: cs =>
    if !identChar c || cs.isEmpty then
      (if identChar c then x :: xs ++ [c] else x :: xs) :: scanIdents [] cs
    else scanIdents (x :: xs ++ [c]) cs

/-- `MacroUse`, SourceCodeUtils.h 46-55, without arguments; the parent is given by its name, which is its key. -/
structure MUse where
  dfn : MDef
  parent : Option Str
  file : Str
  line : Nat
  deriving DecidableEq, Repr

/-- Uses found so far and texts to explore with the macro they are the body of (`toExpand`, last element first). -/
abbrev UseSt := Dict Str MUse × List (Str × Option MDef)

/-- What is done with an identifier, 83-126. -/
def visitIdent (defs : Dict Str MDef) (file : Str) (line : Nat) (parent : Option MDef) (st : UseSt) (n : Str) : UseSt :=
  if (st.1.get? n).isSome then st
  else
    match defs.get? n with
    | none => st
    | some d =>
      (st.1.set n { dfn := d, parent := parent.map MDef.name,
                    file := (parent.map MDef.file).getD file, line := (parent.map MDef.line).getD line },
        (d.body, some d) :: st.2)

/-- The loop over `toExpand`, 50-134. `none`: not finished after the given number of texts. -/
def useLoop (defs : Dict Str MDef) (file : Str) (line : Nat) : Nat → UseSt → Option (Dict Str MUse)
  | _, (u, []) => some u
  | 0, (_, _ :: _) => none
  | k + 1, (u, (body, parent) :: stack) =>
    useLoop defs file line k ((scanIdents [] body).foldl (visitIdent defs file line parent) (u, stack))

/-- `collectMacroUsesAtLocation`, 27-135, for the text of the line (without text nothing is done); new uses are added to
the given ones. -/
def collectUses (defs : Dict Str MDef) (file : Str) (line : Nat) (text : Str) (u : Dict Str MUse) : Option (Dict Str MUse) :=
  if text = [] then some u else useLoop defs file line (defs.length + 1) (u, [(text, none)])

/-- The macros from the given one up to the one on the line, 270-279, with the places where they are used. -/
def useChain (u : Dict Str MUse) : Nat → Option Str → List MUse
  | 0, _ => []
  | _, none => []
  | k + 1, some n =>
    match u.get? n with
    | none => []
    | some m => m :: useChain u k m.parent

/-- `CallInfo` of the macros, with the suffix of the name. -/
def useInfo (m : MUse) : Str × Str × Nat := (m.dfn.name ++ str! " (macro)", m.file, m.line)

/-- `SyntaxDifference`, with name, bodies and call stacks. -/
structure MDiff where
  name : Str
  bodyL : Str
  bodyR : Str
  stackL : List (Str × Str × Nat)
  stackR : List (Str × Str × Nat)
  deriving DecidableEq, Repr

/-- The difference of two uses of one macro, 259-309. -/
def useDiff (uL uR : Dict Str MUse) (p : Str × MUse) : Option MDiff :=
  match uR.get? p.1 with
  | none => none
  | some r =>
    if p.2.dfn.body = r.dfn.body then none
    else some { name := p.2.dfn.name, bodyL := p.2.dfn.body, bodyR := r.dfn.body,
                stackL := ((useChain uL (uL.length + 1) (some p.1)).map useInfo).reverse,
                stackR := ((useChain uR (uR.length + 1) (some p.1)).map useInfo).reverse }

/-- The loop over the macros of the first location, 259-310. -/
def useDiffs (uL uR : Dict Str MUse) : List MDiff := uL.filterMap (useDiff uL uR)

/-- A location: file, line, the macros of its compile unit, the text of its line and that of the line before. -/
structure MLoc where
  file : Str
  line : Nat
  defs : Dict Str MDef
  text : Str
  before : Str

/-- `MacroUsesAtLocation` -/
abbrev UseCache := Dict Nat (Dict Str MUse)

/-- `getAllMacroUsesAtLocation`, 215-239, for offset 0 or -1 (`prev`), with the new cache. -/
def getUses (locs : Nat → MLoc) (prev : Bool) (c : UseCache) (l : Nat) : Option (Dict Str MUse × UseCache) :=
  match c.get? l, prev with
  | some u, false => some (u, c)
  | o, _ =>
    (collectUses (locs l).defs (locs l).file (locs l).line (if prev then (locs l).before else (locs l).text)
      (o.getD [])).map fun u => (u, c.set l u)

/-- `findMacroDifferences`, 246-320, for one offset. -/
def diffsAt (locs : Nat → MLoc) (prev : Bool) (c : UseCache) (l r : Nat) : Option (List MDiff × UseCache) :=
  match getUses locs prev c l with
  | none => none
  | some (_, c1) =>
    match getUses locs prev c1 r with
    | none => none
    | some (uR, c2) => some (useDiffs ((c2.get? l).getD []) uR, c2)

/-- `findMacroDifferences`, 246-320. The first result is used by reference, so that it includes what the second query
adds if both locations are the same. -/
def findMacroDiffs (locs : Nat → MLoc) (c : UseCache) (l r : Nat) : Option (List MDiff × UseCache) :=
  match diffsAt locs false c l r with
  | some ([], c') => diffsAt locs true c' l r
  | x => x

end DK
