import Verif.Model.YamlOut

/-! Model of the syntax diffs (function_syntax_diff.py). The program `diff` is arbitrary. -/

set_option autoImplicit false

namespace DK

/-- `str(n)` -/
def intStr : Int → Str
  | .ofNat n => Nat.toDigits 10 n
  | .negSucc n => '-' :: Nat.toDigits 10 (n + 1)

/-- `int(s)` for a string of digits. -/
def digitsVal (s : Str) : Nat := Nat.ofDigitChars 10 s 0

/-- The rest of a string after a prefix. -/
def dropPrefix (p s : Str) : Option Str := if startsWith s p then some (s.drop p.length) else none

/-- `((?:,\d+)?)` and the rest. -/
def optCount : Str → Str × Str
  | ',' :: r => if r.takeWhile Char.isDigit = [] then ([], ',' :: r)
    else (',' :: r.takeWhile Char.isDigit, r.dropWhile Char.isDigit)
  | s => ([], s)

/-- The groups of `UNIFIED_HUNK_HEAD_REGEX`, lines 15-20 (ASCII digits). -/
def parseHunk (line : Str) : Option (Str × Str × Str × Str) :=
  match dropPrefix (str! "@@ -") line with
  | none => none
  | some s1 =>
    let a := s1.takeWhile Char.isDigit
    let c := optCount (s1.dropWhile Char.isDigit)
    if a = [] then none
    else
      match dropPrefix (str! " +") c.2 with
      | none => none
      | some s2 =>
        let b := s2.takeWhile Char.isDigit
        let d := optCount (s2.dropWhile Char.isDigit)
        if b = [] then none
        else if d.2 = str! " @@" then some (a, c.1, b, d.1) else none

/-- One line in the loop of `unified_syntax_diff`, lines 146-151. -/
def fixUnified (first second : Nat) (line : Str) : Str :=
  match parseHunk line with
  | none => line
  | some (a, c, b, d) =>
    str! "@@ -" ++ intStr ((digitsVal a : Int) + first - 1) ++ c ++ str! " +" ++
      intStr ((digitsVal b : Int) + second - 1) ++ d ++ str! " @@"

/-- `lines[start - 1:end]`, `extract_code`, lines 116-129; index -1 is the last line. -/
def extractCode (lines : List Str) (start stop : Nat) : List Str :=
  if start = 0 then (lines.take stop).drop (lines.length - 1) else (lines.take stop).drop (start - 1)

/-- `s.isspace()` (ASCII). -/
def isSpace (s : Str) : Bool := decide (s ≠ []) && s.all pySpace

/-- `unified_syntax_diff`, lines 132-154. `tool` is `diff -U 1` for the contents of two files (lists of lines). -/
def unifiedSyntaxDiff (tool : List Str → List Str → Str) (lines1 lines2 : List Str) (first second end1 end2 : Nat) : Str :=
  let diff := tool (extractCode lines1 first end1) (extractCode lines2 second end2)
  if isSpace diff = true ∨ diff = [] then diff
  else joinChar '\n' ((splitChar '\n' diff).map (fixUnified first second))

/-- A character in `number_line_set`, lines 52-53. -/
def numberChar (c : Char) : Bool := decide (c ∈ [' ', '*', '-', ',']) || c.isDigit

/-- `int(x)` for what remains of a line of numbers: only the empty string is not a number. -/
def parseInt (x : Str) : Except PyErr Int := if x = [] then .error .valueError else .ok (digitsVal x)

/-- One line in the loop of `syntax_diff`, lines 41-68; `head` is the first line of the first function without white space
around it. -/
def fixContext (first second : Nat) (head : Str) (line0 : Str) : Except PyErr Str :=
  let line := if line0 ≠ [] ∧ ∀ c ∈ line0, c = '*' then line0 ++ ' ' :: head else line0
  if (line.all numberChar = false) ∨ line.any Char.isDigit = false then .ok line
  else
    let star := decide (1 < line.count '*')
    let text := line.filter (fun c => decide (c ∉ ['*', '-', ' ']))
    match mapExcept parseInt (splitChar ',' text) with
    | .error e => .error e
    | .ok ns =>
      let p := List.replicate 3 (if star then '*' else '-')
      .ok (p ++ ' ' :: joinChar ',' (ns.map (fun n => intStr (n + (if star then first else second) - 1))) ++ ' ' :: p)

/-- `s.strip()` (ASCII) -/
def strip (s : Str) : Str := rstrip (s.dropWhile pySpace)

/-- `DIFF_NOT_OBTAINED_MESSAGE`, line 14. -/
def notObtained : Str := str! "  [could not obtain diff]\n"

/-- `syntax_diff`, lines 23-72. A file is the list of its lines (`none`: it cannot be decoded); missing files are not
modelled. `tool` is `diff -C 1`. -/
def contextSyntaxDiff (tool : List Str → List Str → Str) (kind : DefKind) (file1 file2 : Option (List Str))
    (first second : Nat) : Except PyErr Str :=
  match file1 with
  | none => .ok notObtained
  | some lines1 =>
    match getEndLine kind lines1 first with
    | .error e => .error e
    | .ok none => .ok notObtained
    | .ok (some end1) =>
      match file2 with
      | none => .ok notObtained
      | some lines2 =>
        match getEndLine kind lines2 second with
        | .error e => .error e
        | .ok none => .ok notObtained
        | .ok (some end2) =>
          let frag1 := extractCode lines1 first end1
          let diff := tool frag1 (extractCode lines2 second end2)
          if isSpace diff = true ∨ diff = [] then .ok diff
          else
            match mapExcept (fixContext first second (strip (frag1.head?.getD []))) ((splitChar '\n' diff).drop 2) with
            | .error e => .error e
            | .ok ls => .ok (joinChar '\n' ls)

end DK
