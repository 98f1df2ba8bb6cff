import Verif.Model.Snapshot

/-! Model of the configuration: `BuiltinPatterns` (config.py), the pattern options of the command line (cli.py), the two ways
the patterns are passed to the engine (simpll.py, SimpLL.cpp, FFI.cpp) and `CustomPatternConfig`
(custom_pattern_config.py). -/

set_option autoImplicit false

namespace DK

/-! ### Built-in patterns -/

/-- `BuiltinPatterns.settings` with the default arguments, config.py 13-61 before `resolve_dependencies`. -/
def defaultSettings : Dict Str Bool :=
  [(str! "struct-alignment", true), (str! "function-splits", true), (str! "unused-return-types", true),
   (str! "kernel-prints", true), (str! "dead-code", true), (str! "numerical-macros", true), (str! "relocations", true),
   (str! "type-casts", false), (str! "control-flow-only", false), (str! "inverse-conditions", true),
   (str! "reordered-bin-ops", true), (str! "group-vars", true)]

/-- `BUILTIN_PATTERNS`, cli.py 138-149: the names that `--enable-pattern` and `--disable-pattern` accept. -/
def cliPatterns : List Str :=
  [str! "struct-alignment", str! "function-splits", str! "unused-returns", str! "kernel-prints", str! "dead-code",
   str! "numerical-macros", str! "relocations", str! "type-casts", str! "control-flow-only", str! "inverse-conditions",
   str! "reordered-bin-ops", str! "group-vars"]

/-- `resolve_dependencies`, config.py 84-89. -/
def resolveDeps (s : Dict Str Bool) : Except PyErr (Dict Str Bool) :=
  match s.get? (str! "control-flow-only") with
  | none => .error .keyError
  | some true => .ok (s.set (str! "type-casts") true)
  | some false => .ok s

/-- Assignment of a value to all items: the loops in config.py 69-75. -/
def setAll (b : Bool) (s : Dict Str Bool) : Dict Str Bool := s.map (fun p => (p.1, b))

/-- The loop in config.py 77-81. -/
def setListed (enable disable : List Str) (s : Dict Str Bool) : Dict Str Bool :=
  s.map (fun p => (p.1, if p.1 ∈ disable then false else if p.1 ∈ enable then true else p.2))

/-- `update_from_args`, config.py 64-82. -/
def updateFromArgs (enable disable : List Str) (s : Dict Str Bool) : Except PyErr (Dict Str Bool) :=
  let s1 := if str! "all" ∈ enable then setAll true s else s
  let s2 := if str! "all" ∈ disable then setAll false s1 else s1
  resolveDeps (setListed enable disable s2)

/-- The configuration made from the command line, config.py 179-181. -/
def builtinPatterns (enable disable : List Str) : Except PyErr (Dict Str Bool) :=
  match resolveDeps defaultSettings with
  | .error e => .error e
  | .ok s => updateFromArgs enable disable s

/-- Parsing of the four options, cli.py 152-169: an option with a name that is not in `choices` ends the program.
`none` stands for `--enable-all-patterns` (`--disable-all-patterns`). -/
def parsePatternArgs (opts : List (Option Str)) : Except PyErr (List Str) :=
  mapExcept (fun o => match o with
    | none => .ok (str! "all")
    | some n => if n ∈ cliPatterns then .ok n else .error .exit) opts

/-! ### Passing the patterns to the engine -/

/-- The fields of `struct BuiltinPatterns`, Config.h 29-42. -/
structure EnginePatterns where
  structAlignment : Bool := false
  functionSplits : Bool := false
  unusedReturnTypes : Bool := false
  kernelPrints : Bool := false
  deadCode : Bool := false
  numericalMacros : Bool := false
  relocations : Bool := false
  typeCasts : Bool := false
  controlFlowOnly : Bool := false
  inverseConditions : Bool := false
  reorderedBinOps : Bool := false
  groupVars : Bool := false
  deriving DecidableEq, Repr

/-- `as_ffi_struct`, config.py 91-108, with `BuiltinPatternsFromC`, FFI.cpp 63-79. -/
def asFfiStruct (s : Dict Str Bool) : Except PyErr EnginePatterns := do
  let a ← s.getItem (str! "struct-alignment")
  let b ← s.getItem (str! "function-splits")
  let c ← s.getItem (str! "unused-return-types")
  let d ← s.getItem (str! "kernel-prints")
  let e ← s.getItem (str! "dead-code")
  let f ← s.getItem (str! "numerical-macros")
  let g ← s.getItem (str! "relocations")
  let h ← s.getItem (str! "type-casts")
  let i ← s.getItem (str! "control-flow-only")
  let j ← s.getItem (str! "inverse-conditions")
  let k ← s.getItem (str! "reordered-bin-ops")
  let l ← s.getItem (str! "group-vars")
  return { structAlignment := a, functionSplits := b, unusedReturnTypes := c, kernelPrints := d, deadCode := e,
           numericalMacros := f, relocations := g, typeCasts := h, controlFlowOnly := i, inverseConditions := j,
           reorderedBinOps := k, groupVars := l }

/-- Python `str(b)` -/
def pyBool : Bool → Str
  | true => str! "True"
  | false => str! "False"

/-- The pattern options on the command line of the engine, simpll.py 149-151. -/
def simpllOptions (s : Dict Str Bool) : List Str :=
  s.map (fun p => str! "--" ++ p.1 ++ '=' :: pyBool p.2)

/-- Value of a boolean option (`cl::parser<bool>`). -/
def clBool (v : Str) : Option Bool :=
  if v ∈ [[], str! "true", str! "TRUE", str! "True", str! "1"] then some true
  else if v ∈ [str! "false", str! "FALSE", str! "False", str! "0"] then some false
  else none

/-- Setting of the option with the given name, SimpLL.cpp 82-120 and 160-171. -/
def EnginePatterns.setOpt (p : EnginePatterns) (name : Str) (b : Bool) : Option EnginePatterns :=
  if name = str! "struct-alignment" then some { p with structAlignment := b }
  else if name = str! "function-splits" then some { p with functionSplits := b }
  else if name = str! "unused-return-types" then some { p with unusedReturnTypes := b }
  else if name = str! "kernel-prints" then some { p with kernelPrints := b }
  else if name = str! "dead-code" then some { p with deadCode := b }
  else if name = str! "numerical-macros" then some { p with numericalMacros := b }
  else if name = str! "relocations" then some { p with relocations := b }
  else if name = str! "type-casts" then some { p with typeCasts := b }
  else if name = str! "control-flow-only" then some { p with controlFlowOnly := b }
  else if name = str! "inverse-conditions" then some { p with inverseConditions := b }
  else if name = str! "reordered-bin-ops" then some { p with reorderedBinOps := b }
  else if name = str! "group-vars" then some { p with groupVars := b }
  else none

/-- `s.split('=')` at the first `=`. -/
def splitEq : Str → Str × Str
  | [] => ([], [])
  | c :: cs => if c = '=' then ([], cs) else (c :: (splitEq cs).1, (splitEq cs).2)

/-- `cl::ParseCommandLineOptions` for the pattern options (`none`: the program reports an error and ends; options that are
not given are false). -/
def parseOptions : List Str → EnginePatterns → Option EnginePatterns
  | [], p => some p
  | o :: os, p =>
    match o with
    | '-' :: '-' :: rest =>
      match clBool (splitEq rest).2 with
      | none => none
      | some b =>
        match p.setOpt (splitEq rest).1 b with
        | none => none
        | some p' => parseOptions os p'
    | _ => none

/-! ### Custom patterns -/

/-- `os.path.splitext(path)[1].lower()[1:]`, `get_extension`, custom_pattern_config.py 68-75 (ASCII letters only): what
follows the last dot of the last component, unless only dots precede it in the component. -/
def getExtension (path : Str) : Str :=
  let comp := (splitChar '/' path).getLast?.getD []
  let body := comp.dropWhile (· = '.')
  let parts := splitChar '.' body
  if parts.length ≤ 1 then [] else (parts.getLast?.getD []).map Char.toLower

/-- What loading depends on: readable files, files accepted by `opt -verify`, and the YAML content of files: the items
`on_parse_failure` and `patterns`. -/
structure PatEnv where
  readable : Str → Bool
  verifies : Str → Bool
  yaml : Str → Option Str × Option (List Str)

/-- `_on_parse_failure`, lines 134-142. -/
def onParseFailure (policy : Str) : Except PyErr Unit :=
  if policy = str! "ERROR" then .error .valueError else .ok ()

/-- `add_pattern` and `_add_llvm_pattern`, lines 77-98 and 116-132. `UnsupportedCustomPatternError` is a `ValueError`. -/
def addPattern (env : PatEnv) (dir : Option Str) (policy path : Str) (files : List Str) : Except PyErr (List Str) :=
  let full := match dir with | none => path | some [] => path | some d => pathJoin d path
  if env.readable full = false then .error .valueError
  else if getExtension full = str! "ll" then
    if env.verifies full then .ok (full :: files)
    else
      match onParseFailure policy with
      | .error e => .error e
      | .ok () => .ok (full :: files)
  else
    match onParseFailure policy with
    | .error e => .error e
    | .ok () => .ok files

/-- The loop in line 113. -/
def addPatterns (env : PatEnv) (dir : Option Str) (policy : Str) : List Str → List Str → Except PyErr (List Str)
  | [], files => .ok files
  | p :: ps, files =>
    match addPattern env dir policy p files with
    | .error e => .error e
    | .ok files' => addPatterns env dir policy ps files'

/-- `_load_yaml`, lines 100-114. -/
def loadPatternYaml (env : PatEnv) (dir : Option Str) (path : Str) : Except PyErr (List Str) :=
  match (env.yaml path).2 with
  | none => .ok []
  | some ps =>
    match (env.yaml path).1 with
    | none => addPatterns env dir (str! "ERROR") ps []
    | some policy =>
      if policy ∈ [str! "ERROR", str! "WARN"] then addPatterns env dir policy ps []
      else .error .valueError

/-- `create_from_file`, lines 39-56; the result is `pattern_files` (a set). The extension is searched in the string `"ll"`,
so that no extension and `l` are taken for LLVM files, too. -/
def createFromFile (env : PatEnv) (dir : Option Str) (path : Str) : Except PyErr (List Str) :=
  if env.readable path = false then .error .valueError
  else if getExtension path ∈ [[], str! "l", str! "ll"] then addPattern env dir (str! "ERROR") path []
  else loadPatternYaml env dir path

end DK
