import Verif.Model.Building
import Verif.Spec.Text

/-! Specification vocabulary for building (C32–C35, C37, C57, C81). -/

set_option autoImplicit false

namespace DK.Spec

/-! ### The compiler wrapper -/

/-- All variables needed by the wrapper are set. -/
structure EnvSet (env : WrapperEnv) (clang append drop link : Str) : Prop where
  db : env.db ≠ none
  clang : env.clang = some clang
  append : env.append = some append
  drop : env.drop = some drop
  link : env.llvmLink = some link

/-- Files that a compiler called with the arguments may write: the output given by `-o`, or else files with the suffix of
LLVM files. -/
def MayWrite (args : List Str) (cwd p : Str) : Prop :=
  (∃ a x b, args = a ++ (str! "-o") :: x :: b ∧ p = pathJoin cwd x) ∨
  (∃ x, x ≠ [] ∧ ((str! "-o") ++ x) ∈ args ∧ p = pathJoin cwd x) ∨
  ((∀ a ∈ args, ¬ ∃ x, a = (str! "-o") ++ x) ∧ ∃ x, p = x ++ str! ".ll")

/-- The program only changes files that it may write. -/
def WritesOutput (run : Programs) (prog : Str) : Prop :=
  ∀ args cwd files p, (run prog args cwd files).1 p ≠ files p → MayWrite args cwd p

/-- LLVM files have the suffix `.ll` or `.llw`. -/
def LlvmFile (p : Str) : Prop := ∃ x, p = x ++ (str! ".ll") ∨ p = x ++ (str! ".llw")

/-- No argument starts with `-o`. -/
def NoOutput (args : List Str) : Prop := ∀ a ∈ args, ¬ ∃ x, a = (str! "-o") ++ x

/-- The output of the command is given by at most one `-o` with a separate argument, and these are not among the dropped
arguments. -/
def SeparateOutput (drop args : List Str) : Prop :=
  NoOutput args ∨
  ∃ a o b, args = a ++ (str! "-o") :: o :: b ∧ NoOutput a ∧ NoOutput b ∧ (¬ ∃ x, o = (str! "-o") ++ x) ∧
    (str! "-o") ∉ drop ∧ o ∉ drop

/-- A command that compiles to the object file `base.o`. -/
def CompilesTo (drop args : List Str) (base : Str) : Prop :=
  (str! "-c") ∈ args ∧ ∃ a b, args = a ++ (str! "-o") :: (base ++ (str! ".o")) :: b ∧ NoOutput a ∧ NoOutput b ∧
    (¬ ∃ x, base = (str! "-o") ++ x) ∧ (str! "-o") ∉ drop ∧ (base ++ (str! ".o")) ∉ drop

/-- A command that compiles one source to the default object file `base.o`. -/
def CompilesDefault (args : List Str) (base : Str) : Prop :=
  args = [str! "-c", base ++ str! ".c"]

/-! ### Words of a line -/

/-- White space of the texts. -/
def Spaces (s : Str) : Prop := ∀ c ∈ s, pySpace c = true

/-- A word: not empty, without white space. -/
def Word (s : Str) : Prop := s ≠ [] ∧ ∀ c ∈ s, pySpace c = false

/-- The text is empty or starts with white space. -/
def SpaceFirst (s : Str) : Prop := s = [] ∨ ∃ c r, s = c :: r ∧ pySpace c = true

/-- `f` is the first word of the line. -/
def FirstWord (line f : Str) : Prop := ∃ a r, line = a ++ f ++ r ∧ Spaces a ∧ Word f ∧ SpaceFirst r

/-- `f` and `g` are the first two words of the line. -/
def FirstWords (line f g : Str) : Prop := ∃ a r, line = a ++ f ++ r ∧ Spaces a ∧ Word f ∧ SpaceFirst r ∧ FirstWord r g

/-! ### Candidate sources -/

/-- Classes of source files: files outside of `drivers` and `arch` first, then drivers, then x86, then other architectures. -/
def fileClass (f : Str) : Nat :=
  if startsWith f (str! "drivers/") then 1
  else if startsWith f (str! "arch/x86") then 2
  else if startsWith f (str! "arch/") then 3
  else 0

/-- Files that are searched for certain symbols in addition. -/
def SpecialFile (symbol f : Str) (tracepoints : List Str) : Prop :=
  ((∃ r, symbol = (str! "param_get_") ++ r ∨ symbol = (str! "param_set_") ++ r ∨ symbol = (str! "param_ops_") ++ r) ∧
    f = str! "kernel/params.c") ∨
  (∃ r, symbol = (str! "__tracepoint_") ++ r ∧ ∃ l ∈ tracepoints, (∃ x, l = x ++ (str! "(") ++ r ++ str! ");") ∧ FirstWord l f) ∨
  (symbol = (str! "rcu_barrier") ∧ f = str! "kernel/rcutree.c")

/-! ### Commands -/

/-- A word of a shell command and the argument it denotes: without quotes, or with one quoted part. -/
inductive ShellArg : Str → Str → Prop
  | plain (a : Str) : '\'' ∉ a → '"' ∉ a → ShellArg a a
  | single (a b c : Str) : '\'' ∉ a → '\'' ∉ b → '\'' ∉ c → '"' ∉ a → '"' ∉ c → ShellArg (a ++ '\'' :: b ++ '\'' :: c) (a ++ b ++ c)
  | double (a b c : Str) : '\'' ∉ a ++ b ++ c → '"' ∉ a ++ b ++ c → ShellArg (a ++ '"' :: b ++ '"' :: c) (a ++ b ++ c)

/-- Options that are not passed to clang: warnings (except `-Wp,-MD`), code generation, optimisation, debugging, outputs. -/
def Unsupported (p : Str) : Prop :=
  p = (str! "gcc") ∨ ((∃ x, p = (str! "-W") ++ x) ∧ ¬ Occurs (str! "-MD") p) ∨ (∃ x, p = (str! "-f") ++ x) ∨
  (∃ x, p = (str! "-m") ++ x) ∨ (∃ x, p = (str! "-O") ++ x) ∨ p = (str! "-DCC_HAVE_ASM_GOTO") ∨ p = (str! "-g") ∨
  p = (str! "-o") ∨ ∃ x, p = x ++ str! ".o"

/-- Debug hashes are replaced by 1: the argument for a word and the argument it denotes. -/
def withoutHash (w a : Str) : Str :=
  if (str! "-D\"DEBUG_HASH=").isPrefixOf w then str! "-DDEBUG_HASH=1"
  else if (str! "-D\"DEBUG_HASH2=").isPrefixOf w then str! "-DDEBUG_HASH2=1"
  else a

/-! ### Lookup of modules -/

/-- One lookup: of the module with a definition, or of the modules with uses. -/
inductive Lookup where
  | defines (finder : Option Finder) (times : Times) (symbol : Str) (before : Option Nat)
  | uses (finder : Option Finder) (times : Times) (symbol : Str)

/-- The modules returned by a lookup, with their files. -/
def lookup (t : Tree) : Lookup → List (Nat × Str) × Tree
  | .defines f times s b =>
    match t.forSymbol f times s b with
    | (.ok r, t') => ([r], t')
    | (.error _, t') => ([], t')
  | .uses f times s =>
    match t.usingSymbol f times s with
    | (.ok r, t') => (r, t')
    | (.error _, t') => ([], t')

/-- The modules returned by a sequence of lookups. -/
def lookups : Tree → List Lookup → List (Nat × Str) × Tree
  | t, [] => ([], t)
  | t, l :: ls =>
    let r := lookup t l
    let r' := lookups r.2 ls
    (r.1 ++ r'.1, r'.2)

/-- What the finder knows agrees with the names defined in the LLVM files: functions were read from the files, and built
modules were checked. -/
def Informed (dir : Str) (defs : Str → Option (List Str)) : Finder → Prop
  | .single _ _ => True
  | .built fs => ∃ files, functionsFrom defs files [] = .ok fs ∧ ∀ f ∈ files, ∃ r, f = '/' :: r
  | .kernel build _ => ∀ s, ∀ b, some b ∈ build s → b.defines = true → ∃ ns, defs (makeAbs dir b.llvm) = some ns ∧ s ∈ ns ∧ b.llvm ≠ []

/-! ### The solver -/

/-- The line is an answer of the solver. -/
def Answer (line : Str) (k : SolverKind) : Prop :=
  ∃ a b w, Spaces a ∧ Spaces b ∧ line = a ++ w ++ b ∧
    ((w = (str! "sat") ∧ k = .notEqual) ∨ (w = (str! "unsat") ∧ k = .equal) ∨ (w = (str! "unknown") ∧ k = .unknown))

/-- The last answer is `k`. -/
def LastAnswer (lines : List Str) (k : SolverKind) : Prop :=
  ∃ a l b, lines = a ++ l :: b ∧ Answer l k ∧ ∀ l' ∈ b, ∀ k', ¬ Answer l' k'

end DK.Spec
