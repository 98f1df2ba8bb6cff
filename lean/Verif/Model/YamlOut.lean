import Verif.Model.Compare

/-! Model of `Callstack.get_symbol_names` and `to_output_yaml_with_rel_path` (result.py), of `YamlOutput` (output.py) and
of `get_end_line` (utils.py). -/

set_option autoImplicit false

namespace DK

/-! ### Symbol names -/

/-- The three sets returned by `get_symbol_names`; the order of the elements and repetitions mean nothing. -/
structure SymNames where
  funs : List Str := []
  macros : List Str := []
  types : List (Str × Str) := []
  deriving DecidableEq, Repr

/-- One entry of a call stack, result.py 98-115; `parent` is the name in the previous entry or the compared function.
Unpacking of a split into more or fewer than two parts raises `ValueError`. -/
def symbolOf (parent : Str) (name : Str) (s : SymNames) : Except PyErr SymNames :=
  if ' ' ∈ name then
    match splitChar ' ' name with
    | [n, kind] =>
      if kind = str! "function" then .ok { s with funs := s.funs ++ [n] }
      else if kind = str! "(macro)" then .ok { s with macros := s.macros ++ [n] }
      else if kind = str! "(type)" then .ok { s with types := s.types ++ [(n, parent)] }
      else .ok s
    | _ => .error .valueError
  else .ok { s with funs := s.funs ++ [name] }

/-- The loop over the calls. -/
def symbolLoop : Str → List Call → SymNames → Except PyErr SymNames
  | _, [], s => .ok s
  | parent, c :: cs, s =>
    match symbolOf parent c.name s with
    | .error e => .error e
    | .ok s' => symbolLoop c.name cs s'

/-- `get_symbol_names`, result.py 84-116. -/
def symbolNames (compared : Str) (calls : List Call) : Except PyErr SymNames := symbolLoop compared calls {}

/-! ### Paths in call stacks -/

/-- `s.replace(p, "")`: removes the occurrences of `p` from left to right, in at most `fuel` steps. -/
def removeFuel (p : Str) : Nat → Str → Str
  | 0, s => s
  | _ + 1, [] => []
  | n + 1, c :: cs =>
    if startsWith (c :: cs) p = true ∧ p ≠ [] then removeFuel p n ((c :: cs).drop p.length)
    else c :: removeFuel p n cs

/-- `s.replace(p, "")`; every step consumes a character. -/
def removeAll (p s : Str) : Str := removeFuel p s.length s

/-- `to_output_yaml_with_rel_path`, result.py 74-82, and the conditional expression in output.py 55-60. -/
def yamlStack (dir : Str) : Option (List Call) → List Call
  | none => []
  | some cs => cs.map (fun c => { c with file := removeAll dir c.file })

/-! ### Results with call stacks -/

/-- An element of `diffs`, output.py 50-60. -/
structure YamlDiff where
  function : Str
  oldStack : List Call
  newStack : List Call
  deriving DecidableEq, Repr

/-- The differences of a function that are output, sorted by name, output.py 45-49. -/
def shownDiffs (r : Res) : List Res :=
  ((sortItems r.inner).filter (fun x => ¬ (x.2.diff = some [] ∧ x.2.first.covered = true))).map Prod.snd

/-- `_create_results`, output.py 36-75: functions with their differences. -/
def yamlStacks (oldDir newDir : Str) (r : Res) : List (Str × List YamlDiff) :=
  r.inner.filterMap (fun p =>
    if p.2.kind ≠ .notEqual then none
    else some (p.1, (shownDiffs p.2).map (fun x =>
      ⟨x.first.name, yamlStack oldDir x.first.callstack, yamlStack newDir x.second.callstack⟩)))

/-- The symbols collected for one function, output.py 62-67. -/
def symbolsOfDiffs (compared : Str) : List Res → SymNames → Except PyErr SymNames
  | [], s => .ok s
  | x :: xs, s =>
    match x.first.callstack with
    | none => symbolsOfDiffs compared xs s
    | some cs =>
      match symbolNames compared cs with
      | .error e => .error e
      | .ok t => symbolsOfDiffs compared xs ⟨s.funs ++ t.funs, s.macros ++ t.macros, s.types ++ t.types⟩

/-- The symbols collected for all functions. -/
def yamlSymbols : List (Str × Res) → SymNames → Except PyErr SymNames
  | [], s => .ok s
  | (f, r) :: rs, s =>
    if r.kind ≠ .notEqual then yamlSymbols rs s
    else
      match symbolsOfDiffs f (shownDiffs r) { s with funs := s.funs ++ [f] } with
      | .error e => .error e
      | .ok s' => yamlSymbols rs s'

/-! ### Definitions -/

inductive DefKind where
  | function | type
  deriving DecidableEq, Repr

/-- The dictionary made by `_create_def_info`; `name` is set for functions with another name. -/
structure DefInfo where
  line : Option Nat
  file : Str
  endLine : Option Nat
  name : Option Str := none
  deriving DecidableEq, Repr

structure Defn where
  kind : DefKind
  old : DefInfo
  new : DefInfo
  deriving DecidableEq, Repr

/-- What the definitions depend on besides the result. `endLine` is `get_end_line` (`ok none` if one of the handled
exceptions is raised); sets are iterated in an unspecified order (`enumF`, `enumT`). -/
structure YamlEnv where
  heap : Heap
  cwd : List Str
  oldDir : Str
  newDir : Str
  endLine : Str → Option Nat → DefKind → Except PyErr (Option Nat)
  enumF : List Str → List Str
  enumT : List (Str × Str) → List (Str × Str)

/-- `_create_def_info`, output.py 135-145. `relpath(None)` raises `TypeError`. -/
def defInfo (env : YamlEnv) (line : Option Nat) (file : Option Str) (dir : Str) (kind : DefKind) : Except PyErr DefInfo :=
  match file with
  | none => .error .typeError
  | some f =>
    match relpath env.cwd f dir with
    | .error e => .error e
    | .ok rel =>
      match env.endLine f line kind with
      | .error e => .error e
      | .ok n => .ok { line := line, file := rel, endLine := n }

/-- Both sides of a definition. -/
def mkDefn (env : YamlEnv) (kind : DefKind) (lines : Side → Option Nat) (files : Side → Option Str) (newName : Option Str) :
    Except PyErr Defn :=
  match defInfo env (lines .left) (files .left) env.oldDir kind with
  | .error e => .error e
  | .ok a =>
    match defInfo env (lines .right) (files .right) env.newDir kind with
    | .error e => .error e
    | .ok b => .ok ⟨kind, a, { b with name := newName }⟩

/-- `_create_function_defs`, output.py 83-105. -/
def funDefs (env : YamlEnv) (g : Graph) : List Str → Dict Str Defn → Except PyErr (Dict Str Defn)
  | [], d => .ok d
  | n :: ns, d =>
    match g.vertices.get? n with
    | none => funDefs env g ns d
    | some v =>
      match mkDefn env .function (env.heap v).lines (env.heap v).files
          (if (env.heap v).names .right ≠ (env.heap v).names .left then some ((env.heap v).names .right) else none) with
      | .error e => .error e
      | .ok x => funDefs env g ns (d.set n x)

/-- The first type difference with the given name. -/
def findType (n : Str) : List NonFunDiff → Option ((Side → Str) × (Side → Nat))
  | [] => none
  | .syntax _ _ _ _ :: ds => findType n ds
  | .type m _ _ f l :: ds => if m = n then some (f, l) else findType n ds

/-- `_create_type_defs`, output.py 107-133. -/
def typeDefs (env : YamlEnv) (g : Graph) : List (Str × Str) → Dict Str Defn → Except PyErr (Dict Str Defn)
  | [], d => .ok d
  | (n, parent) :: ns, d =>
    match g.vertices.get? parent with
    | none => typeDefs env g ns d
    | some v =>
      match findType n (env.heap v).nonfunDiffs with
      | none => typeDefs env g ns d
      | some (f, l) =>
        match mkDefn env .type (fun s => some (l s)) (fun s => some (f s)) none with
        | .error e => .error e
        | .ok x => typeDefs env g ns (d.set n x)

/-- `d.update(e)` -/
def dictUpdate {β : Type} (d e : Dict Str β) : Dict Str β := e.foldl (fun d p => d.set p.1 p.2) d

/-- `_create_definitions`, output.py 77-81, for the symbols collected before. -/
def yamlDefinitions (env : YamlEnv) (r : Res) (s : SymNames) : Except PyErr (Dict Str Defn) :=
  match r.graph with
  | none => .ok []
  | some g =>
    match funDefs env g (env.enumF s.funs.dedup) [] with
    | .error e => .error e
    | .ok fs =>
      match typeDefs env g (env.enumT s.types.dedup) [] with
      | .error e => .error e
      | .ok ts => .ok (dictUpdate (dictUpdate [] fs) ts)

/-- `YamlOutput.__init__`, output.py 11-34: results and definitions. -/
def yamlOutput (env : YamlEnv) (r : Res) : Except PyErr (List (Str × List YamlDiff) × Dict Str Defn) :=
  match yamlSymbols r.inner {} with
  | .error e => .error e
  | .ok s =>
    match yamlDefinitions env r s with
    | .error e => .error e
    | .ok d => .ok (yamlStacks env.oldDir env.newDir r, d)

/-! ### End lines -/

/-- White space removed by `rstrip` (ASCII only). -/
def pySpace (c : Char) : Bool := c = ' ' ∨ (9 ≤ c.toNat ∧ c.toNat ≤ 13) ∨ (28 ≤ c.toNat ∧ c.toNat ≤ 31)

/-- `s.rstrip()` -/
def rstrip (s : Str) : Str := (s.reverse.dropWhile pySpace).reverse

/-- `terminator_list`, utils.py 61-64. -/
def terminators : DefKind → List Str
  | .function => [str! "}", str! ");"]
  | .type => [str! "};"]

/-- The loop in utils.py 73-79; the list contains the lines from line `n` on; `none` is `EndLineNotFound`. -/
def endLoop (kind : DefKind) : List Str → Nat → Option Nat
  | [], _ => none
  | l :: ls, n => if rstrip l ∈ terminators kind then some n else endLoop kind ls (n + 1)

/-- `get_end_line`, utils.py 55-81, for the lines of a file. `ok none` is `EndLineNotFound`. Line 0 is the last line. -/
def getEndLine (kind : DefKind) (lines : List Str) (start : Nat) : Except PyErr (Option Nat) :=
  match start with
  | 0 =>
    match lines.getLast? with
    | none => .error .indexError
    | some l => if rstrip l ∈ terminators kind then .ok (some 0) else .ok (endLoop kind lines 1)
  | n + 1 => if lines.length ≤ n then .error .indexError else .ok (endLoop kind (lines.drop n) (n + 1))

end DK
