import Verif.Model.Snapshot
import Verif.Model.YamlOut

/-! Model of the functions of `LlvmModule` (llvm_module.py) that read and write the text of a module, and of the copying
of source files into a snapshot (source_tree.py 98-129). A file is the list of its lines. -/

set_option autoImplicit false

namespace DK

/-- Loop of `s.replace(p, q)` for a non-empty `p`; `skip` characters belong to the last occurrence. -/
def replaceFrom (p q : Str) : Nat → Str → Str
  | _, [] => []
  | skip + 1, _ :: cs => replaceFrom p q skip cs
  | 0, c :: cs =>
    if startsWith (c :: cs) p then q ++ replaceFrom p q (p.length - 1) cs
    else c :: replaceFrom p q 0 cs

/-- Python `s.replace(p, q)`; with an empty `p`, `q` is added around each character. -/
def pyReplace (p q s : Str) : Str :=
  if p = [] then q ++ s.flatMap (fun c => c :: q) else replaceFrom p q 0 s

/-- Python `s.strip("/")`. -/
def stripSlashes (s : Str) : Str :=
  ((s.dropWhile (· = '/')).reverse.dropWhile (· = '/')).reverse

/-- `p in s` for strings: some suffix of `s` starts with `p`. -/
def occursIn (p : Str) : Str → Bool
  | [] => startsWith [] p
  | c :: cs => startsWith (c :: cs) p || occursIn p cs

/-- A line of a moved module, `move_to_other_root_dir`, llvm_module.py 163-168. -/
def movedLine (oldRoot newRoot line : Str) : Str :=
  if occursIn (str! "constant") line then line
  else pyReplace (stripSlashes oldRoot) (stripSlashes newRoot) line

/-- The text of a moved module, llvm_module.py 161-168. -/
def movedText (oldRoot newRoot : Str) (lines : List Str) : List Str := lines.map (movedLine oldRoot newRoot)

/-- `\s*"([^"]*)"` at the beginning of the text: the string and the text after it. -/
def quotedString (s : Str) : Option (Str × Str) :=
  match s.dropWhile pySpace with
  | '"' :: r =>
    match r.dropWhile (· ≠ '"') with
    | '"' :: t => some (r.takeWhile (· ≠ '"'), t)
    | _ => none
  | _ => none

/-- The second part of the pattern in llvm_module.py 184-185, `, directory:\s*"([^"]*)"`. -/
def directoryPart (f : Str) (t : Str) : Option (Str × Str) :=
  if startsWith t (str! ", directory:") then (quotedString (t.drop 12)).map (fun d => (f, d.1)) else none

/-- The pattern in llvm_module.py 184-185 at the beginning of the text: name of the file and of the directory. -/
def fileHere (s : Str) : Option (Str × Str) :=
  if startsWith s (str! "filename:") then (quotedString (s.drop 9)).bind (fun r => directoryPart r.1 r.2) else none

/-- `pattern.search(line)`, llvm_module.py 189: the first match. -/
def fileOfLine : Str → Option (Str × Str)
  | [] => none
  | c :: cs => (fileHere (c :: cs)).orElse (fun _ => fileOfLine cs)

/-- Line 190-192: only names of C sources and headers are used. -/
def includedOfLine (line : Str) : Option Str :=
  (fileOfLine line).bind (fun r =>
    if endsWith r.1 (str! ".h") || endsWith r.1 (str! ".c") then some (pathJoin r.2 r.1) else none)

/-- `get_included_sources`, llvm_module.py 178-193; the result of the code is a set. -/
def includedSources (lines : List Str) : List Str := lines.filterMap includedOfLine

/-- Contents of files by the components of the absolute path. Directories, links and permissions are not modelled. -/
abbrev FileTree := List Str → Option Str

/-- A file is written. -/
def FileTree.write (fs : FileTree) (p : List Str) (c : Str) : FileTree := fun x => if x = p then some c else fs x

/-- `shutil.copyfile` of a file that does not exist raises an exception (`none`). -/
def FileTree.copy (fs : FileTree) (source dest : List Str) : Option FileTree := (fs source).map (fs.write dest)

/-- Lines 121-126 of source_tree.py for the path of the destination. -/
def copyMissing (fs : FileTree) (source dest : List Str) : Option FileTree :=
  if (fs dest).isSome then some fs else fs.copy source dest

/-- One included file, source_tree.py 118-126; `none` is an exception. -/
def copyIncluded (cwd : List Str) (src dst : Str) (fs : FileTree) (p : Str) : Option FileTree :=
  if startsWith p src then
    match relpath cwd p src with
    | .error _ => none
    | .ok r => copyMissing fs (absComps cwd p) (absComps cwd (pathJoin dst r))
  else some fs

/-- Loop over the included files, source_tree.py 117-126, in the order in which the set is traversed. -/
def copyAllIncluded (cwd : List Str) (src dst : Str) : List Str → FileTree → Option FileTree
  | [], fs => some fs
  | p :: ps, fs => (copyIncluded cwd src dst fs p).bind (copyAllIncluded cwd src dst ps)

/-- `name\(` at the beginning of the text, where a dot of the name is the pattern for any character (the name is put into
the regular expression as it is). Other characters with a meaning in regular expressions are not modelled. -/
def nameThen (stop : Str → Bool) : Str → Str → Bool
  | [], t => stop t
  | n :: ns, c :: cs => (decide (n = '.') || decide (n = c)) && nameThen stop ns cs
  | _ :: _, [] => false

/-- `.*@name\(` in the text after the keyword, llvm_module.py 117. -/
def mentionsFun (name : Str) : Str → Bool
  | [] => false
  | c :: cs => (decide (c = '@') && nameThen (fun t => startsWith t (str! "(")) name cs) || mentionsFun name cs

/-- The pattern of `has_function` for one line, llvm_module.py 117. -/
def definesFunLine (name line : Str) : Bool :=
  startsWith line (str! "define") && mentionsFun name (line.drop 6)

/-- `has_function`, llvm_module.py 115-119. -/
def hasFunction (name : Str) (lines : List Str) : Bool := lines.any (definesFunLine name)

/-- `\s*=` at the beginning of the text. -/
def spaceThenEq (t : Str) : Bool := startsWith (t.dropWhile pySpace) (str! "=")

/-- The pattern of `has_global` for one line, llvm_module.py 123. -/
def definesGlobalLine (name : Str) : Str → Bool
  | '@' :: cs => nameThen spaceThenEq name cs
  | _ => false

/-- `has_global`, llvm_module.py 121-125. -/
def hasGlobal (name : Str) (lines : List Str) : Bool := lines.any (definesGlobalLine name)

end DK
