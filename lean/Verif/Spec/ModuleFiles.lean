import Verif.Model.ModuleFiles
import Verif.Spec.Snapshot
import Verif.Spec.YamlOut

/-! Specification of the files of a snapshot and of the text of modules. -/

set_option autoImplicit false

namespace DK.Spec
open DK

/-- The line of a module that describes a source file, as LLVM prints it; nothing before it looks like such a
description. -/
def DescribesFile (line name dir : Str) : Prop :=
  '"' ∉ name ∧ '"' ∉ dir ∧ ∃ before after,
    line = before ++ str! "filename: \"" ++ name ++ str! "\", directory: \"" ++ dir ++ str! "\"" ++ after ∧
    ¬ Occurs (str! "filename:") (before ++ str! "filename")

/-- The name ends with the given text. -/
def EndsIn (name ext : Str) : Prop := ∃ a, name = a ++ ext

/-- A C source or a header described in the module. -/
def Includes (lines : List Str) (p : Str) : Prop :=
  ∃ line ∈ lines, ∃ name dir, DescribesFile line name dir ∧ (EndsIn name (str! ".c") ∨ EndsIn name (str! ".h")) ∧
    p = pathJoin dir name

/-- In a module printed by LLVM, the word `filename:` occurs in descriptions of source files only. -/
def PrintedFiles (lines : List Str) : Prop :=
  ∀ line ∈ lines, (∃ name dir, DescribesFile line name dir) ∨ ¬ Occurs (str! "filename:") line

/-- The file `rel` in directory `dst` is a copy of the file in directory `src`. -/
def Copied (cwd : List Str) (src dst : Str) (rel : List Str) (fs fs' : FileTree) : Prop :=
  fs' (absComps cwd dst ++ rel) = fs (absComps cwd src ++ rel)

/-- Only files in the directory differ. -/
def ChangedOnlyIn (cwd : List Str) (dst : Str) (fs fs' : FileTree) : Prop :=
  ∀ p, fs' p ≠ fs p → absComps cwd dst <+: p

/-- A name that LLVM prints without quotes. (A dollar is left out: its meaning in regular expressions is not modelled.) -/
def PlainName (n : Str) : Prop := n ≠ [] ∧ ∀ c ∈ n, c.isAlphanum = true ∨ c ∈ str! "-._"

/-- The definition of function `name`, as LLVM prints it: return type and attributes come before the name. -/
def DefinesFunction (line name : Str) : Prop :=
  ∃ before after, line = str! "define " ++ before ++ str! "@" ++ name ++ str! "(" ++ after ∧ '@' ∉ before ∧ '@' ∉ after

/-- Global variable `name` with the properties `rest`, as LLVM prints it. -/
def GlobalLine (line name rest : Str) : Prop := line = str! "@" ++ name ++ str! " = " ++ rest

/-- In a module printed by LLVM, the word `define` starts definitions of functions and `@` starts global variables. -/
def PrintedSymbols (lines : List Str) : Prop :=
  (∀ line ∈ lines, (str! "define") <+: line → ∃ n, PlainName n ∧ DefinesFunction line n) ∧
  ∀ line ∈ lines, (str! "@") <+: line → ∃ n rest, PlainName n ∧ GlobalLine line n rest

/-- A definition of a global variable: not a declaration of a variable defined elsewhere. -/
def DefinesGlobal (line name : Str) : Prop :=
  ∃ rest, GlobalLine line name rest ∧ ¬ (str! "external ") <+: rest

/-- The text in which each occurrence of the directory `'/' :: old` is replaced by `'/' :: new`; the text `old` does not
occur elsewhere. -/
inductive Moved (old new : Str) : Str → Str → Prop
  | rest {s : Str} : ¬ Occurs old s → Moved old new s s
  | path {before s s' : Str} : ¬ Occurs old (before ++ '/' :: old.dropLast) → Moved old new s s' →
      Moved old new (before ++ '/' :: old ++ s) (before ++ '/' :: new ++ s')

end DK.Spec
