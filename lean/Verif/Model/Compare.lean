import Verif.Model.Result
import Verif.Model.Snapshot
import Mathlib.Data.List.Sort

/-! Model of `compare`, `default_output_dir` and `print_syntax_diff` (diffkemp.py) and of `YamlOutput._create_results`
(output.py). `functions_diff` is arbitrary; FunctionsDiff.lean models it. -/

set_option autoImplicit false

namespace DK

/-- Python's `a <= b` for strings: lexicographic by code points. -/
def strLe : Str → Str → Bool
  | [], _ => true
  | _ :: _, [] => false
  | a :: as, b :: bs => if a = b then strLe as bs else decide (a.toNat < b.toNat)

/-- `sorted(d.items())` for a dictionary with string keys; keys are distinct, so that values are never compared. -/
def sortItems {β : Type} (d : Dict Str β) : List (Str × β) :=
  d.insertionSort (fun x y => strLe x.1 y.1 = true)

/-- `sorted(fun_groups.items())`: a single group is not compared with anything; otherwise the key `None` cannot be
compared with strings. -/
def sortGroups (s : FunGroups) : Except PyErr (List (Option Str × Dict Str FunDesc)) :=
  match s with
  | [] => .ok []
  | [g] => .ok [g]
  | gs =>
    match mapExcept (fun g : Option Str × Dict Str FunDesc =>
      match g.1 with | none => .error .typeError | some n => .ok (n, g.2)) gs with
    | .error e => .error e
    | .ok named => .ok ((sortItems named).map (fun g => (some g.1, g.2)))

/-- Everything `compare` asks others for; `σ` is the state of the outside world (modules, caches, objects, files). -/
structure CmpEnv (σ : Type) where
  /-- `functions_diff` for a function of a group with the two descriptions and `prev_result_graph`. -/
  diff : Option Str → Str → FunDesc → FunDesc → Option Graph → σ → σ × Except PyErr Res
  /-- New caches for a group, diffkemp.py 386-396. -/
  newGroup : σ → σ
  /-- `args.regex_filter`: whether the pattern occurs in a text. -/
  regex : Option (Str → Bool)
  /-- `config.full_diff` -/
  full : Bool
  /-- `config.show_diff` -/
  showDiff : Bool
  /-- whether an output directory is used (no `--stdout`) -/
  toDir : Bool

/-- One difference in the output of `print_syntax_diff`: name, call stacks and diff if it is shown. -/
structure Section where
  name : Str
  stackL : Option (List Call)
  stackR : Option (List Call)
  diff : Option Str
  deriving DecidableEq, Repr

/-- What `compare` outputs. -/
inductive Out where
  /-- the name of a group -/
  | groupName (g : Str)
  /-- `fun: kind` -/
  | status (f : Str) (k : Kind)
  /-- the differences of a function, in the file `<dir>/[<group>/]<f>.diff` or on standard output -/
  | diffs (group : Option Str) (f : Str) (sections : List Section)
  deriving DecidableEq, Repr

/-- The loop over the inner results in `print_syntax_diff`, diffkemp.py 560-603. Without a diff `.strip()` raises. -/
def sections (showDiff : Bool) : List (Str × Res) → Except PyErr (List Section)
  | [] => .ok []
  | (_, r) :: rs =>
    if r.diff = some [] ∧ r.first.covered = true then sections showDiff rs
    else
      match (if showDiff then (match r.diff with | none => .error .attributeError | some d => .ok (some d)) else .ok none :
          Except PyErr (Option Str)) with
      | .error e => .error e
      | .ok d =>
        match sections showDiff rs with
        | .error e => .error e
        | .ok ss => .ok (⟨r.first.name, r.first.callstack, r.second.callstack, d⟩ :: ss)

/-- `any([x.diff for x in fun_result.inner.values()])` -/
def anyDiff (r : Res) : Bool := r.inner.values.any (fun x => decide (x.diff ≠ none ∧ x.diff ≠ some []))

/-- `print_syntax_diff`, diffkemp.py 514-603. Inner results are stored under the name of their first entity, so that
sorting by it is sorting by keys. -/
def printSyntaxDiff (showDiff full : Bool) (group : Option Str) (f : Str) (r : Res) : Except PyErr (List Out) :=
  if r.kind = .notEqual ∨ (full = true ∧ anyDiff r = true) then
    match sections showDiff (sortItems r.inner) with
    | .error e => .error e
    | .ok ss => .ok [.diffs group f ss]
  else .ok []

/-- The loop over inner results in lines 434-440: whether some diff matches. `re.search(None)` raises. -/
def anyMatch (m : Str → Bool) : List Res → Except PyErr Bool
  | [] => .ok false
  | r :: rs =>
    match r.diff with
    | none => .error .typeError
    | some d => if m d then .ok true else anyMatch m rs

/-- The regex filter, lines 431-440. -/
def regexFilter (regex : Option (Str → Bool)) (r : Res) : Except PyErr Res :=
  match regex with
  | none => .ok r
  | some m =>
    match anyMatch m r.inner.values with
    | .error e => .error e
    | .ok true => .ok r
    | .ok false => .ok (r.setKind .equal)

/-- State of `compare`. `outs` is what has been printed and stored. -/
structure CmpState (σ : Type) where
  world : σ
  result : Res
  graph : Option Graph := none
  groupPrinted : Bool := false
  outs : List Out := []

/-- Print the name of the group unless it has been printed. -/
def CmpState.header {σ : Type} (st : CmpState σ) (group : Option Str) : CmpState σ :=
  match group with
  | none => st
  | some g => if st.groupPrinted then st else { st with groupPrinted := true, outs := st.outs ++ [.groupName g] }

/-- Printing of one result, lines 444-480. -/
def reportFun {σ : Type} (env : CmpEnv σ) (group : Option Str) (f : Str) (r : Res) (st : CmpState σ) :
    Except PyErr (CmpState σ) :=
  if r.kind = .notEqual ∨ r.kind = .unknown ∨ r.kind = .error ∨ env.full = true then
    if r.kind = .notEqual ∨ env.full = true then
      let st1 := if env.toDir then st else st.header group
      match printSyntaxDiff env.showDiff env.full group f r with
      | .error e => .error e
      | .ok os => .ok { st1 with outs := st1.outs ++ os }
    else
      let st1 := st.header group
      .ok { st1 with outs := st1.outs ++ [.status f r.kind] }
  else .ok st

/-- The body of the loop over functions, lines 397-486. -/
def compareFun {σ : Type} (env : CmpEnv σ) (second : FunGroups) (group : Option Str) (f : Str) (old : FunDesc)
    (st : CmpState σ) : Except PyErr (CmpState σ) :=
  match second.getByName f group with
  | none => .ok st
  | some new =>
    if old.mod = none ∨ new.mod = none then
      let st1 := CmpState.header { st with result := st.result.addInner (Res.new .unknown f f) } group
      .ok { st1 with outs := st1.outs ++ [.status f .unknown] }
    else
      let r := env.diff group f old new st.graph st.world
      match r.2 with
      | .error e => .error e
      | .ok res =>
        match regexFilter env.regex res with
        | .error e => .error e
        | .ok res' =>
          reportFun env group f res' { st with world := r.1, graph := res.graph, result := st.result.addInner res' }

/-- The loop over the functions of a group. -/
def compareFuns {σ : Type} (env : CmpEnv σ) (second : FunGroups) (group : Option Str) :
    List (Str × FunDesc) → CmpState σ → Except PyErr (CmpState σ)
  | [], st => .ok st
  | (f, old) :: fs, st =>
    match compareFun env second group f old st with
    | .error e => .error e
    | .ok st' => compareFuns env second group fs st'

/-- The loop over groups, lines 374-486. -/
def compareGroups {σ : Type} (env : CmpEnv σ) (second : FunGroups) :
    List (Option Str × Dict Str FunDesc) → CmpState σ → Except PyErr (CmpState σ)
  | [], st => .ok st
  | (g, fs) :: gs, st =>
    match compareFuns env second g (sortItems fs) { st with graph := none, groupPrinted := false, world := env.newGroup st.world } with
    | .error e => .error e
    | .ok st' => compareGroups env second gs st'

/-- `compare`, diffkemp.py 355-486 (comparison of all functions). `dir` is the name of the first snapshot. -/
def compareSnapshots {σ : Type} (env : CmpEnv σ) (dir : Str) (first second : FunGroups) (w : σ) :
    Except PyErr (CmpState σ) :=
  match sortGroups first with
  | .error e => .error e
  | .ok gs => compareGroups env second gs { world := w, result := Res.new .none dir dir }

/-! ### The YAML output -/

/-- An element of `results` in the YAML output: the function and its differences. -/
structure YamlResult where
  function : Str
  diffs : List Str
  deriving DecidableEq, Repr

/-- `_create_results`, output.py 36-75 (names only; call stacks are left out). -/
def yamlResults (r : Res) : List YamlResult :=
  r.inner.filterMap (fun p =>
    if p.2.kind ≠ .notEqual then none
    else some ⟨p.1, ((sortItems p.2.inner).filter (fun x => ¬ (x.2.diff = some [] ∧ x.2.first.covered = true))).map (fun x => x.2.first.name)⟩)

/-! ### The default output directory -/

/-- `"{}-{}".format(base, n)` -/
def withSuffix (base : Str) (n : Nat) : Str := base ++ '-' :: Nat.toDigits 10 n

/-- The loop of `default_output_dir`, diffkemp.py 508-511, at most `fuel` iterations. -/
def freshLoop (isdir : Str → Bool) (base : Str) : Nat → Str → Nat → Option Str
  | 0, _, _ => none
  | k + 1, dirname, suffix =>
    if isdir dirname then freshLoop isdir base k (withSuffix base suffix) (suffix + 1) else some dirname

/-- `default_output_dir`, diffkemp.py 500-512, for the given base name. -/
def defaultOutputDir (isdir : Str → Bool) (base : Str) (fuel : Nat) : Option Str :=
  if isdir base then freshLoop isdir base fuel base 0 else some base

end DK
