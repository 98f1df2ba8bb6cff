import Verif.Model.KernelSearch

/-! Specification of the search in sources of kernels and of the names of kernel modules. -/

set_option autoImplicit false

namespace DK.Spec

/-- A name of a file or a directory: not empty, not special, without slashes. -/
def FileName (w : Str) : Prop := w ≠ [] ∧ w ≠ str! "." ∧ w ≠ str! ".." ∧ '/' ∉ w

/-- A tree of sources as it may be on a disk. -/
def KernelTree (k : KTree) : Prop :=
  (∀ w ∈ k.src, FileName w) ∧ ∀ d ∈ k.dirs, (∀ w ∈ d.1, FileName w) ∧ ∀ f ∈ d.2, FileName f.1

/-- A C source file (not a link) of a kernel, given by its directory and its name. -/
def SourceFile (k : KTree) (dir : List Str) (f : Str) : Prop :=
  (∃ files, (dir, files) ∈ k.dirs ∧ (f, false) ∈ files) ∧ ∃ base, f = base ++ str! ".c"

/-- Directories that are not searched on purpose. -/
def Excluded (dir : List Str) : Prop := ∃ w ∈ dir, w = str! "Documentation" ∨ w = str! "scripts" ∨ w = str! "tmp"

/-- The line of the output for an occurrence in a file. -/
def lineOf (dir : List Str) (f hit : Str) : Str := joinChar '/' (dir ++ [f]) ++ str! " " ++ hit

/-- All occurrences in C sources that are not excluded are in the answer. -/
def LinesAll (k : KTree) (hits : Str → Str × Bool → List Str) (q : Str × Bool) (r : List Str) : Prop :=
  ∀ dir f, SourceFile k dir f → ¬ Excluded dir → ∀ h ∈ hits (k.text (dir ++ [f])) q, lineOf dir f h ∈ r

/-- All lines of the answer are occurrences in C sources. -/
def LinesOnly (k : KTree) (hits : Str → Str × Bool → List Str) (q : Str × Bool) (r : List Str) : Prop :=
  ∀ l ∈ r, ∃ dir f h, SourceFile k dir f ∧ h ∈ hits (k.text (dir ++ [f])) q ∧ l = lineOf dir f h

/-- Names without white space. -/
def NoBlanks (k : KTree) : Prop :=
  ∀ d ∈ k.dirs, (∀ w ∈ d.1, ∀ c ∈ w, pySpace c = false) ∧ ∀ f ∈ d.2, ∀ c ∈ f.1, pySpace c = false

/-- Names of directories that are not searched because of their beginning, or because they are excluded. -/
def LooksExcluded (w : Str) : Prop := w = str! "Documentation" ∨ w = str! "scripts" ∨ ∃ t, w = str! "tmp" ++ t

/-- Two names of the same kernel module: dashes and underscores are not distinguished. -/
def SameModule (a b : Str) : Prop := replaceChar '-' '_' a = replaceChar '-' '_' b

/-- A command without the white space before it. -/
def TrimmedLeft (c d : Str) : Prop := ∃ w, c = w ++ d ∧ (∀ x ∈ w, pySpace x = true) ∧ ∀ x, d.head? = some x → pySpace x = false

/-- A command that starts with `gcc`. -/
def GccCommand (c : Str) : Prop := ∃ d, TrimmedLeft c d ∧ (str! "gcc") <+: d

/-- The commands of the lines of an output of make: a line has commands with semicolons between them. -/
def MakeLines (lines : List (List Str)) : Prop := ∀ l ∈ lines, l ≠ [] ∧ ∀ c ∈ l, ';' ∉ c

/-- `d` is the last command that starts with `gcc`. -/
def LastGcc (cs : List Str) (d : Str) : Prop :=
  ∃ before c after, cs = before ++ c :: after ∧ TrimmedLeft c d ∧ (str! "gcc") <+: d ∧ ∀ x ∈ after, ¬ GccCommand x

end DK.Spec
