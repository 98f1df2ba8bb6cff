import Verif.Model.YamlOut
import Verif.Spec.Compare

/-! Specification vocabulary for the YAML output (C56, C75–C77). -/

set_option autoImplicit false

namespace DK.Spec

/-! Entries of call stacks: a function is shown by its name, a macro and a type with a tag. Names contain no space. -/

def IsFun (entry n : Str) : Prop := ' ' ∉ n ∧ entry = n
def IsMacro (entry n : Str) : Prop := ' ' ∉ n ∧ entry = n ++ (str! " (macro)")
def IsType (entry n : Str) : Prop := ' ' ∉ n ∧ entry = n ++ (str! " (type)")

/-- An entry as the engine makes it. -/
def EntryOk (entry : Str) : Prop := ∃ n, IsFun entry n ∨ IsMacro entry n ∨ IsType entry n

/-- After the entries `before`, we are in the function `p`: the last function entry, or the compared function. -/
def InFunction (compared : Str) (before : List Call) (p : Str) : Prop :=
  (∃ l c r, before = l ++ c :: r ∧ IsFun c.name p ∧ ∀ e ∈ r, ∀ n, ¬ IsFun e.name n) ∨
  (p = compared ∧ ∀ e ∈ before, ∀ n, ¬ IsFun e.name n)

/-- The type `t` occurs in the stack, used in the function `p`. -/
def TypeUsed (compared : Str) (calls : List Call) (t p : Str) : Prop :=
  ∃ before c after, calls = before ++ c :: after ∧ IsType c.name t ∧ InFunction compared before p

/-- Types follow functions (or start the stack). -/
def TypesInFunctions (calls : List Call) : Prop :=
  ∀ before c d after t, calls = before ++ c :: d :: after → IsType d.name t → ∃ n, IsFun c.name n

/-- `s` contains `p`. -/
def Occurs (p s : Str) : Prop := ∃ a b, s = a ++ p ++ b

/-- A function listed in the output: its verdict is not-equal. -/
def ListedFun (r : Res) (f : Str) (x : Res) : Prop := Dict.get? r.inner f = some x ∧ x.kind = .notEqual

/-- `calls` is the call stack shown for a difference of the listed function `f` on the given side. -/
def ShownStack (r : Res) (s : Side) (f : Str) (calls : List Call) : Prop :=
  ∃ x, ListedFun r f x ∧ ∃ d ∈ x.inner.values, Shown d ∧
    (match s with | .left => d.first.callstack | .right => d.second.callstack) = some calls

/-- A function shown in the output on the given side. -/
def FunShown (r : Res) (s : Side) (n : Str) : Prop :=
  (∃ x, ListedFun r n x) ∨ ∃ f calls, ShownStack r s f calls ∧ ∃ c ∈ calls, IsFun c.name n

/-- A type shown in the output with the function it is used in (old side). -/
def TypeShown (r : Res) (t p : Str) : Prop := ∃ f calls, ShownStack r .left f calls ∧ TypeUsed f calls t p

/-- `i` gives the place of an object: line, path relative to the snapshot, and last line. -/
def Locates (env : YamlEnv) (kind : DefKind) (dir : Str) (line : Option Nat) (file : Option Str) (i : DefInfo) : Prop :=
  i.line = line ∧ ∃ f, file = some f ∧ relpath env.cwd f dir = .ok i.file ∧ env.endLine f line kind = .ok i.endLine

/-- The definition of the function `v`; the new name is given if it is another one. -/
def DefinesFun (env : YamlEnv) (v : Vertex) (d : Defn) : Prop :=
  d.kind = .function ∧ Locates env .function env.oldDir (v.lines .left) (v.files .left) d.old ∧
    Locates env .function env.newDir (v.lines .right) (v.files .right) d.new ∧
    (∀ n, d.new.name = some n ↔ n = v.names .right ∧ v.names .right ≠ v.names .left)

/-- The definition of the type `t` that differs in the function `v`. -/
def DefinesType (env : YamlEnv) (v : Vertex) (t : Str) (d : Defn) : Prop :=
  d.kind = .type ∧ ∃ p cs f l, NonFunDiff.type t p cs f l ∈ v.nonfunDiffs ∧
    Locates env .type env.oldDir (some (l .left)) (some (f .left)) d.old ∧
    Locates env .type env.newDir (some (l .right)) (some (f .right)) d.new

/-- The texts that end a definition. -/
def enders : DefKind → List Str
  | .function => [str! "}", str! ");"]
  | .type => [str! "};"]

/-- A line that ends a definition: nothing but a terminator and white space after it. -/
def Ends (kind : DefKind) (line : Str) : Prop :=
  ∃ t ∈ enders kind,
    ∃ w, line = t ++ w ∧ ∀ c ∈ w, c ∈ [' ', '\t', '\n', '\x0b', '\x0c', '\r', '\x1c', '\x1d', '\x1e', '\x1f']

/-- Line `n` (counted from 1) ends a definition. -/
def LineEnds (kind : DefKind) (lines : List Str) (n : Nat) : Prop :=
  ∃ i l, n = i + 1 ∧ lines[i]? = some l ∧ Ends kind l

/-- `res` is the first line from `start` on that ends a definition. -/
def FirstEnd (kind : DefKind) (lines : List Str) (start : Nat) (res : Option Nat) : Prop :=
  ∀ n, res = some n ↔ start ≤ n ∧ LineEnds kind lines n ∧ ∀ m, start ≤ m → m < n → ¬ LineEnds kind lines m

/-- `shown` is the entry `c` of a call stack, its file (if it is in `dir` and `dir` does not occur again) relative to `dir`. -/
def ShowsCall (dir : Str) (c shown : Call) : Prop :=
  shown.name = c.name ∧ shown.line = c.line ∧ (∀ rel, c.file = dir ++ rel → ¬ Occurs dir rel → shown.file = rel) ∧
    (¬ Occurs dir c.file → shown.file = c.file)

/-- The entry of the output for the difference `x`. -/
def ShowsDiff (oldDir newDir : Str) (x : Res) (d : YamlDiff) : Prop :=
  d.function = x.first.name ∧ List.Forall₂ (ShowsCall oldDir) (x.first.callstack.getD []) d.oldStack ∧
    List.Forall₂ (ShowsCall newDir) (x.second.callstack.getD []) d.newStack

/-- Conditions on the result that `compare` guarantees (the names of functions are keys) and on the iteration of sets. -/
structure YamlInput (env : YamlEnv) (r : Res) : Prop where
  keyed : (Dict.keys r.inner).Nodup
  wf : ∀ s f calls, ShownStack r s f calls → (∀ c ∈ calls, EntryOk c.name) ∧ TypesInFunctions calls
  enumF : ∀ l, (env.enumF l).Perm l
  enumT : ∀ l, (env.enumT l).Perm l

end DK.Spec
