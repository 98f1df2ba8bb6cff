import Verif.Model.Paths

/-! Model of `Snapshot` (snapshot.py) and of the functions that fill it (diffkemp.py 216-253). -/

set_option autoImplicit false

namespace DK

/-- `Snapshot.FunctionDesc`, snapshot.py 29-39. The module is represented by the path of its LLVM file. -/
structure FunDesc where
  mod : Option Str
  globVar : Option Str := none
  tag : Option Str := none
  deriving DecidableEq, Repr

/-- `Snapshot.fun_groups`, snapshot.py 41-48 and 55; the key `none` is Python's `None`. -/
abbrev FunGroups := Dict (Option Str) (Dict Str FunDesc)

namespace FunGroups

/-- `add_fun`, snapshot.py 133-147. -/
def addFun (s : FunGroups) (name : Str) (d : FunDesc) (group : Option Str) : FunGroups :=
  Dict.set s group (Dict.set ((Dict.get? s group).getD []) name d)

/-- `get_by_name`, snapshot.py 157-166. -/
def getByName (s : FunGroups) (name : Str) (group : Option Str) : Option FunDesc :=
  match Dict.get? s group with
  | none => none
  | some g => Dict.get? g name

/-- The dictionary comprehension of `filter`, snapshot.py 174-175. -/
def pick (g : Dict Str FunDesc) : List Str → Dict Str FunDesc → Except PyErr (Dict Str FunDesc)
  | [], acc => .ok acc
  | f :: fs, acc =>
    match Dict.get? g f with
    | none => .error .keyError
    | some d => pick g fs (Dict.set acc f d)

/-- `filter`, snapshot.py 168-175. An exception leaves the snapshot as it was. -/
def filter (s : FunGroups) (names : List Str) (group : Option Str) : Except PyErr FunGroups :=
  match Dict.get? s group with
  | none => .error .keyError
  | some g =>
    match pick g names [] with
    | .error e => .error e
    | .ok g' => .ok (Dict.set s group g')

end FunGroups

/-! ### YAML -/

/-- One function in the YAML file, snapshot.py 253-260. -/
structure FunYaml where
  name : Str
  llvm : Option Str
  globVar : Option Str
  tag : Option Str
  deriving DecidableEq, Repr

/-- An element of the list in the YAML file: a function or a group (a mapping with the keys `kind` and `functions`). -/
inductive YamlItem where
  | fn (f : FunYaml)
  | group (kind : Str) (name : Option Str) (fs : List FunYaml)
  deriving DecidableEq, Repr

/-- `list_kind` and `list` of the YAML file, snapshot.py 268-278. The other items and the conversion to and from text are
not modelled. -/
structure SnapYaml where
  kind : Str
  list : List YamlItem
  deriving DecidableEq, Repr

/-- The entry of a function, snapshot.py 253-260. -/
def funToYaml (cwd : List Str) (dir : Str) (name : Str) (d : FunDesc) : Except PyErr FunYaml :=
  match d.mod with
  | none => .ok ⟨name, none, d.globVar, d.tag⟩
  | some p =>
    match relpath cwd p dir with
    | .error e => .error e
    | .ok r => .ok ⟨name, some r, d.globVar, d.tag⟩

/-- List comprehension whose body may raise. -/
def mapExcept {α β : Type} (f : α → Except PyErr β) : List α → Except PyErr (List β)
  | [] => .ok []
  | a :: as =>
    match f a with
    | .error e => .error e
    | .ok b =>
      match mapExcept f as with
      | .error e => .error e
      | .ok bs => .ok (b :: bs)

/-- One group, snapshot.py 250-262. -/
def groupToYaml (cwd : List Str) (dir kind : Str) (g : Option Str × Dict Str FunDesc) : Except PyErr YamlItem :=
  match mapExcept (fun p => funToYaml cwd dir p.1 p.2) g.2 with
  | .error e => .error e
  | .ok fs => .ok (.group kind g.1 fs)

/-- `to_yaml`, snapshot.py 243-284. -/
def toYaml (cwd : List Str) (dir kind : Str) (s : FunGroups) : Except PyErr SnapYaml :=
  match mapExcept (groupToYaml cwd dir kind) s with
  | .error e => .error e
  | .ok gs =>
    match s, gs with
    | [(none, _)], [.group _ _ fs] => .ok ⟨kind, fs.map .fn⟩
    | _, _ => .ok ⟨kind, gs⟩

/-- `os.path.join(a, b)` -/
def pathJoin (a b : Str) : Str :=
  if b.head? = some '/' then b
  else if a = [] ∨ a.getLast? = some '/' then a ++ b
  else a ++ '/' :: b

/-- Lines 235-243 for one function. `f["llvm"]` is false for `None` and for the empty string. -/
def loadFun (cwd : List Str) (dir : Str) (group : Option Str) (s : FunGroups) (f : FunYaml) : Except PyErr FunGroups :=
  match f.llvm with
  | none => .ok (s.addFun f.name ⟨none, f.globVar, f.tag⟩ group)
  | some [] => .ok (s.addFun f.name ⟨none, f.globVar, f.tag⟩ group)
  | some p =>
    match relpath cwd dir (str! ".") with
    | .error e => .error e
    | .ok d => .ok (s.addFun f.name ⟨some (pathJoin d p), f.globVar, f.tag⟩ group)

/-- Loop over the functions of a group, lines 234-243. -/
def loadFuns (cwd : List Str) (dir : Str) (group : Option Str) : List FunYaml → FunGroups → Except PyErr FunGroups
  | [], s => .ok s
  | f :: fs, s =>
    match loadFun cwd dir group s f with
    | .error e => .error e
    | .ok s' => loadFuns cwd dir group fs s'

/-- Functions of a list without groups; an element that is a group has no item `name` (KeyError). -/
def loadItems (cwd : List Str) (dir : Str) : List YamlItem → FunGroups → Except PyErr FunGroups
  | [], s => .ok s
  | .group _ _ _ :: _, _ => .error .keyError
  | .fn f :: fs, s =>
    match loadFun cwd dir none s f with
    | .error e => .error e
    | .ok s' => loadItems cwd dir fs s'

/-- Loop over groups, lines 227-243. A mapping without the key `sysctl` is taken for a list of functions, so that its
keys, which are strings, are indexed by `"name"` (TypeError). -/
def loadGroups (cwd : List Str) (dir : Str) : List YamlItem → FunGroups → Except PyErr FunGroups
  | [], s => .ok s
  | .fn _ :: _, _ => .error .typeError
  | .group kind name fs :: gs, s =>
    if kind = str! "sysctl" then
      match loadFuns cwd dir name fs s with
      | .error e => .error e
      | .ok s' => loadGroups cwd dir gs s'
    else .error .typeError

/-- `_from_yaml`, snapshot.py 177-243, function list only. -/
def fromYaml (cwd : List Str) (dir : Str) (y : SnapYaml) : Except PyErr FunGroups :=
  if y.kind = str! "function" then loadItems cwd dir y.list []
  else loadGroups cwd dir y.list []

/-! ### Creating a snapshot -/

/-- `generate_from_function_list`, diffkemp.py 216-253. `lookup` is `get_module_for_symbol` (`none`: the source was not
found) together with `has_function`. -/
def generateFunctions (lookup : Str → Option (Str × Bool)) (syms : List Str) (s : FunGroups) : FunGroups :=
  syms.foldl (fun s sym =>
    match lookup sym with
    | some (path, true) => s.addFun sym ⟨some path, none, none⟩ none
    | some (_, false) => s.addFun sym ⟨none, none, none⟩ none
    | none => s.addFun sym ⟨none, none, none⟩ none) s

/-- The new path of a module, `move_to_other_root_dir`, llvm_module.py 149-170: unchanged if the path does not start with
the old root. The second component tells whether the file at the new path is written. -/
def moveToRoot (cwd : List Str) (oldRoot newRoot path : Str) : Except PyErr (Str × Bool) :=
  if startsWith path oldRoot then
    match relpath cwd path oldRoot with
    | .error e => .error e
    | .ok r => .ok (pathJoin newRoot r, true)
  else .ok (path, false)

end DK
