import Verif.Model.Building

/-!
Model of repeated builds of kernel sources into LLVM IR
(diffkemp/llvm_ir/kernel_llvm_source_builder.py 381-410, 443-452, 479-487 and 560-635). Files have contents and times of
modification; clang, `llvm-link` and `opt` are programs that may fail.
-/

set_option autoImplicit false

namespace DK

/-- Contents of LLVM files: what was compiled (a version of the source and a version of the headers), linked, optimised. -/
inductive LlFile where
  | compiled (src hdr : Nat)
  | linked (xs : List LlFile)
  | opted (x : LlFile)

/-- The files of a kernel: sources and LLVM files with contents and times; the version of the headers. -/
structure KFiles where
  src : Str → Option (Nat × Nat)
  ll : Str → Option (LlFile × Nat)
  hdr : Nat

/-- A file is written. -/
def KFiles.setLl (fs : KFiles) (f : Str) (x : LlFile) (time : Nat) : KFiles :=
  { fs with ll := fun g => if g = f then some (x, time) else fs.ll g }

/-- A source is changed by the user. -/
def KFiles.edit (fs : KFiles) (f : Str) (c time : Nat) : KFiles :=
  { fs with src := fun g => if g = f then some (c, time) else fs.src g }

/-- The test of lines 569-570 and 619-620: the file does not exist or is older than the source. -/
def outdated (f : Option (LlFile × Nat)) (time : Nat) : Bool :=
  match f with
  | none => true
  | some p => decide (p.2 < time)

/-- `"{}.ll".format(source_file[:-2])`, line 568. -/
def llOf (s : Str) : Str := s.take (s.length - 2) ++ str! ".ll"

/-- `_build_source_to_llvm`, kernel_llvm_source_builder.py 560-594, at the given time. `clangOk`, `optOk`: whether the programs
end normally (if not, they write nothing). The result says whether the method returned. Simplified: the command of Kbuild is
always found. A source that does not exist raises an exception. -/
def buildSource (time : Nat) (s : Str) (clangOk optOk : Bool) (fs : KFiles) : KFiles × Bool :=
  match fs.src s with
  | none => (fs, false)
  | some (c, st) =>
    if outdated (fs.ll (llOf s)) st then
      if clangOk then
        let fs' := fs.setLl (llOf s) (.compiled c fs.hdr) time
        if optOk then (fs'.setLl (llOf s) (.opted (.compiled c fs.hdr)) time, true) else (fs', false)
      else (fs, false)
    else (fs, true)

/-- Commands for a kernel module: compilation of a source, linking of files. -/
inductive LlCmd where
  | clang (src obj : Str)
  | link (objs : List Str) (out : Str)

/-- The contents of files; `none` if one of them does not exist. -/
def KFiles.readAll (fs : KFiles) : List Str → Option (List LlFile)
  | [] => some []
  | f :: gs =>
    match fs.ll f, fs.readAll gs with
    | some p, some xs => some (p.1 :: xs)
    | _, _ => none

/-- The loop of `_build_kernel_mod_to_llvm`, kernel_llvm_source_builder.py 614-626. `os`: whether the programs that are run end
normally, in this order; when there is none left, the tool is interrupted. The result contains the remaining ones, `none` if
the method did not return. -/
def modLoop (time : Nat) : List LlCmd → KFiles → Bool → List Bool → KFiles × Option (List Bool)
  | [], fs, _, os => (fs, some os)
  | .clang s o :: cs, fs, built, os =>
    match fs.src s with
    | none => (fs, none)
    | some (c, st) =>
      if outdated (fs.ll o) st then
        match os with
        | true :: os' => modLoop time cs (fs.setLl o (.compiled c fs.hdr) time) true os'
        | _ => (fs, none)
      else modLoop time cs fs built os
  | .link is o :: cs, fs, built, os =>
    if (fs.ll o).isNone || built then
      match os, fs.readAll is with
      | true :: os', some xs => modLoop time cs (fs.setLl o (.linked xs) time) built os'
      | _, _ => (fs, none)
    else modLoop time cs fs built os

/-- `_build_kernel_mod_to_llvm`, kernel_llvm_source_builder.py 596-635: the commands are run if they are needed, then the file of
the module is optimised. -/
def buildModule (time : Nat) (cmds : List LlCmd) (file : Str) (os : List Bool) (fs : KFiles) : KFiles × Bool :=
  match modLoop time cmds fs false os with
  | (fs', none) => (fs', false)
  | (fs', some os') =>
    match os', fs'.ll file with
    | true :: _, some p => (fs'.setLl file (.opted p.1) time, true)
    | _, _ => (fs', false)

/-! ### Commands -/

/-- `_ld_to_llvm`, kernel_llvm_source_builder.py 381-395. -/
def ldToLlvm (command : Str) : List Str :=
  str! "llvm-link" :: str! "-S" :: (pySplit command).filterMap (fun w =>
    if endsWith w (str! ".o") then some (w.take (w.length - 2) ++ str! ".ll")
    else if w = str! "-o" then some w else none)

/-- `_extract_command`, kernel_llvm_source_builder.py 443-452. -/
def extractCommand (programs : List Str) (command : Str) : Option Str :=
  ((splitChar ';' command).map (·.dropWhile pySpace)).find? (fun c => programs.any (fun p => startsWith c p))

/-- `_extract_gcc_or_ld_command_list`, kernel_llvm_source_builder.py 461-477. -/
def extractCommands (lines : List Str) : List Str := lines.filterMap (extractCommand [str! "gcc", str! "ld"])

/-- `_kbuild_to_llvm_commands`, kernel_llvm_source_builder.py 397-410. -/
def kbuildToLlvm (name : Str) : List Str → Except PyErr (List (List Str))
  | [] => .ok []
  | c :: cs =>
    let command := c.dropWhile pySpace
    if startsWith command (str! "gcc") && !decide ((name ++ str! ".mod") <:+: command) then
      match gccToLlvm command with
      | .error e => .error e
      | .ok x =>
        match kbuildToLlvm name cs with
        | .error e => .error e
        | .ok xs => .ok (x :: xs)
    else if startsWith command (str! "ld") && !decide ((name ++ str! ".ko") <:+: command) then
      match kbuildToLlvm name cs with
      | .error e => .error e
      | .ok xs => .ok (ldToLlvm command :: xs)
    else kbuildToLlvm name cs

end DK
