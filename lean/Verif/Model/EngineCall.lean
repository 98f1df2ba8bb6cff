import Verif.Model.Config
import Verif.Model.SyntaxDiff

/-!
How the engine is called as a program and as a library (diffkemp/simpll/simpll.py, diffkemp/simpll/SimpLL.cpp,
diffkemp/simpll/library/FFI.cpp). Left out: the options of built-in patterns (simpll.py 149-151, see Config.lean), and how
texts are encoded for the library.
-/

set_option autoImplicit false

namespace DK

/-- What `run_simpll` (simpll.py 24-26) is called with: the parameters and the settings of `config` it uses. -/
structure Request where
  first : Str
  second : Str
  funFirst : Str
  funSecond : Str
  var : Option Str
  suffix : Option Str
  cacheDir : Option Str
  custom : Option Str
  outputIR : Bool
  asmDiffs : Bool
  extended : Bool
  verbosity : Nat
  deriving DecidableEq, Repr

/-- `s.rfind(c)`: the text before the last `c`, and the text from it on. -/
def splitLast (c : Char) : Str → Option (Str × Str)
  | [] => none
  | x :: xs =>
    match splitLast c xs with
    | some (a, b) => some (x :: a, b)
    | none => if x = c then some ([], x :: xs) else none

/-- What follows the last slash. -/
def lastPart (a : Str) : Str :=
  match splitLast '/' a with
  | some (_, r) => r.drop 1
  | none => a

/-- `os.path.splitext`: a dot counts if it is in the last component and something other than dots is before it there. -/
def splitExt (file : Str) : Str × Str :=
  match splitLast '.' file with
  | none => (file, [])
  | some (a, b) =>
    if '/' ∈ b then (file, [])
    else if (lastPart a).all (· = '.') then (file, [])
    else (a, b)

/-- `add_suffix`, simpll.py 18-21. -/
def addSuffixPy (file suffix : Str) : Str := (splitExt file).1 ++ '-' :: suffix ++ (splitExt file).2

/-- `addSuffix`, SimpLL.cpp 125-128; `none`: `substr(npos)` throws, so that the program crashes. -/
def addSuffixC (file suffix : Str) : Option Str :=
  (splitLast '.' file).map fun p => p.1 ++ '-' :: suffix ++ p.2

/-- `if suffix`: no suffix or the empty one. -/
def ifGiven (s : Option Str) : Option Str :=
  match s with
  | some [] => none
  | s => s

/-- `first_out_name` and `second_out_name`, simpll.py 36-37: the files that are read after the run (179-180). -/
def readFiles (q : Request) : Str × Str :=
  match ifGiven q.suffix with
  | some s => (addSuffixPy q.first s, addSuffixPy q.second s)
  | none => (q.first, q.second)

/-- What the engine works with (`Config`, Config.cpp 34-76). `written`: the files that are written, ModuleAnalysis.cpp
258-262. -/
structure EngineCfg where
  first : Str
  second : Str
  funFirst : Str
  funSecond : Str
  var : Str
  cacheDir : Str
  custom : Str
  written : Option (Str × Str)
  asmDiffs : Bool
  callStacks : Bool
  extended : Bool
  verbosity : Nat
  deriving DecidableEq, Repr

/-- The call of the library, simpll.py 54-86 and 109-112, FFI.cpp 240-260. -/
def libraryCfg (q : Request) : EngineCfg :=
  { first := q.first, second := q.second, funFirst := q.funFirst, funSecond := q.funSecond
    var := (ifGiven q.var).getD [], cacheDir := (ifGiven q.cacheDir).getD [], custom := q.custom.getD []
    written := if q.outputIR then some (readFiles q) else none
    asmDiffs := q.asmDiffs, callStacks := true, extended := q.extended, verbosity := q.verbosity }

/-- An option with a value that is given only if there is one. -/
def optArg (name : Str) : Option Str → List Str
  | some v => [name, v]
  | none => []

/-- A flag. -/
def flagArg (name : Str) (b : Bool) : List Str := if b then [name] else []

/-- The arguments of the program, simpll.py 126-165. -/
def command (q : Request) : List Str :=
  [q.first, q.second, str! "--print-callstacks", str! "--fun",
    if q.funFirst ≠ q.funSecond then q.funFirst ++ ',' :: q.funSecond else q.funFirst] ++
  (optArg (str! "--var") (ifGiven q.var) ++
  (optArg (str! "--suffix") (if q.outputIR then ifGiven q.suffix else none) ++
  (optArg (str! "--cache-dir") (ifGiven q.cacheDir) ++
  (optArg (str! "--custom-pattern-config") q.custom ++
  (flagArg (str! "--output-llvm-ir") q.outputIR ++
  (flagArg (str! "--print-asm-diffs") q.asmDiffs ++
  (flagArg (str! "--extended-stat") q.extended ++
  optArg (str! "--verbosity") (if q.verbosity > 0 then some (Nat.toDigits 10 q.verbosity) else none))))))))

/-- The options of the program that have a value, SimpLL.cpp 33-71. -/
def valueOpts : List Str :=
  [str! "fun", str! "var", str! "suffix", str! "cache-dir", str! "custom-pattern-config", str! "verbosity"]

/-- The flags of the program, SimpLL.cpp 43-78. -/
def flagOpts : List Str :=
  [str! "output-llvm-ir", str! "print-callstacks", str! "print-asm-diffs", str! "extended-stat"]

/-- An argument after its recognition. -/
inductive ClArg where
  | pos (s : Str)
  | opt (name value : Str)
  deriving DecidableEq, Repr

/-- The option of an argument without its one or two dashes; `none`: no option. -/
def optBody : Str → Option Str
  | ['-'] => none
  | '-' :: '-' :: s => some s
  | '-' :: s => some s
  | _ => none

/-- `cl::ParseCommandLineOptions`: a value is given after `=` or as the next argument, whatever this is; `none`: an error.
Left out: the argument `--` by itself. -/
def recognise : List Str → Option (List ClArg)
  | [] => some []
  | [a] =>
    match optBody a with
    | none => some [.pos a]
    | some s =>
      if '=' ∈ s then some [.opt (splitEq s).1 (splitEq s).2]
      else if s ∈ valueOpts then none
      else some [.opt s (str! "true")]
  | a :: b :: rest =>
    match optBody a with
    | none => (recognise (b :: rest)).map (.pos a :: ·)
    | some s =>
      if '=' ∈ s then (recognise (b :: rest)).map (.opt (splitEq s).1 (splitEq s).2 :: ·)
      else if s ∈ valueOpts then (recognise rest).map (.opt s b :: ·)
      else (recognise (b :: rest)).map (.opt s (str! "true") :: ·)

/-- The options with their values. -/
def optsOf (l : List ClArg) : List (Str × Str) :=
  l.filterMap fun
    | .opt n v => some (n, v)
    | .pos _ => none

/-- The positional arguments. -/
def posOf (l : List ClArg) : List Str :=
  l.filterMap fun
    | .pos s => some s
    | .opt _ _ => none

/-- The value of an option; those that are not given are empty. -/
def optVal (os : List (Str × Str)) (n : Str) : Str := (os.lookup n).getD []

/-- A flag: false if it is not given; `none`: an error. -/
def flagVal (os : List (Str × Str)) (n : Str) : Option Bool :=
  match os.lookup n with
  | none => some false
  | some v => clBool v

/-- An option with a number (0 if not given); `none`: an error. Only decimal numbers. -/
def numVal (os : List (Str × Str)) (n : Str) : Option Nat :=
  match os.lookup n with
  | none => some 0
  | some v => if v ≠ [] ∧ v.all (fun c => c.isDigit) = true then some (digitsVal v) else none

/-- `parseFunOption`, SimpLL.cpp 134-150. -/
def parseFun (s : Str) : Str × Str :=
  if ',' ∈ s then (s.takeWhile (· ≠ ','), (s.dropWhile (· ≠ ',')).drop 1) else (s, s)

/-- The names of the files for the modules, SimpLL.cpp 186-187. -/
def outFiles (suffix first second : Str) : Option (Str × Str) :=
  if suffix = [] then some ([], [])
  else
    match addSuffixC first suffix, addSuffixC second suffix with
    | some a, some b => some (a, b)
    | _, _ => none

/-- `main`, SimpLL.cpp 152-195: what the program works with; `none`: it ends with an error or crashes. Options must be known
and must not be repeated, and two files are required. -/
def programCfg (args : List Str) : Option EngineCfg :=
  match recognise args with
  | none => none
  | some l =>
    let os := optsOf l
    if (os.map Prod.fst).all (fun n => decide (n ∈ valueOpts ++ flagOpts)) && decide (os.map Prod.fst).Nodup then
      match posOf l, flagVal os (str! "output-llvm-ir"), flagVal os (str! "print-asm-diffs"),
          flagVal os (str! "print-callstacks"), flagVal os (str! "extended-stat"), numVal os (str! "verbosity") with
      | [f, s], some ir, some asm, some cs, some ext, some n =>
        match outFiles (optVal os (str! "suffix")) f s with
        | none => none
        | some out =>
          some { first := f, second := s
                 funFirst := (parseFun (optVal os (str! "fun"))).1, funSecond := (parseFun (optVal os (str! "fun"))).2
                 var := optVal os (str! "var"), cacheDir := optVal os (str! "cache-dir")
                 custom := optVal os (str! "custom-pattern-config")
                 written := if ir then some out else none
                 asmDiffs := asm, callStacks := cs, extended := ext, verbosity := n }
      | _, _, _, _, _, _ => none
    else none

end DK
