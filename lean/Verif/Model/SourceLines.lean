import Verif.Model.Text

/-!
Model of `extractLineFromLocation`, `convertInlineAsmToLLVMFormat` and `findInlineAssemblySourceArguments`
(diffkemp/simpll/SourceCodeUtils.cpp): source text of a place, and operands of inline assembly in it.
-/

set_option autoImplicit false

namespace DK

/-- What LLVM's `line_iterator` goes over: lines that are not empty, with their numbers from the given one on. -/
def fileLines : Nat → List Str → List (Nat × Str)
  | _, [] => []
  | k, s :: ss => if s = [] then fileLines (k + 1) ss else (k, s) :: fileLines (k + 1) ss

/-- `*it`: behind the last line there is an empty text. -/
def curLine : List (Nat × Str) → Str
  | [] => []
  | x :: _ => x.2

/-- The first loop of `extractLineFromLocation`, SourceCodeUtils.cpp 177-188, from a place of the file on and
with the text so far. -/
def seekLine (n : Nat) : List (Nat × Str) → Str → List (Nat × Str) × Str
  | [], line => ([], line)
  | (k, s) :: rest, line =>
    if k = n then ((k, s) :: rest, line)
    else
      seekLine n rest
        (if (curLine rest).count '(' < (curLine rest).count ')' then line ++ curLine rest else curLine rest)

/-- The loops 192-196 and 206-209: lines are appended while the text is unfinished. `none`: the iterator is
advanced although it is at the end (undefined). -/
def appendLines (unfinished : Str → Bool) : List (Nat × Str) → Str → Option (List (Nat × Str) × Str)
  | [], _ => none
  | _ :: rest, line =>
    match rest with
    | [] => some ([], line)
    | y :: rest' =>
      if unfinished (line ++ y.2) then appendLines unfinished (y :: rest') (line ++ y.2)
      else some (y :: rest', line ++ y.2)

/-- Are there unclosed brackets? Lines 191 and 195. -/
def openBrackets (s : Str) : Bool := decide (s.count ')' < s.count '(')

/-- Is there no semicolon? Lines 205 and 209. -/
def noSemicolon (s : Str) : Bool := decide (';' ∉ s)

/-- Is the text a `return`, lines 200-204? -/
def isReturn (s : Str) : Bool :=
  startsWith (s.filter (fun c => decide (c ≠ ' ') && decide (c ≠ '\t'))) (str! "return")

/-- Completion of brackets, lines 191-197. -/
def closeBrackets (x : List (Nat × Str) × Str) : Option (List (Nat × Str) × Str) :=
  if openBrackets x.2 then appendLines openBrackets x.1 x.2 else some x

/-- Completion of `return`, lines 199-210. -/
def closeReturn (x : List (Nat × Str) × Str) : Option Str :=
  if isReturn x.2 && noSemicolon x.2 then (appendLines noSemicolon x.1 x.2).map Prod.snd else some x.2

/-- `extractLineFromLocation`, lines 155-213, for the lines of a file and the number of the line (with the
offset). `none`: undefined behaviour. Locations and files that are missing (156-170) are left out, the result
is empty for them. -/
def extractLine (file : List Str) (n : Nat) : Option Str :=
  (closeBrackets (seekLine n (fileLines 1 file) [])).bind closeReturn

/-! ### Inline assembly -/

/-- `s.find(c)`, as the parts before and after the character. -/
def splitAtChar (c : Char) : Str → Option (Str × Str)
  | [] => none
  | x :: xs => if x = c then some ([], xs) else (splitAtChar c xs).map fun p => (x :: p.1, p.2)

/-- Does a string come before the next colon? Lines 453-455. -/
def stringFirst : Str → Bool
  | [] => false
  | c :: cs => if c = '"' then true else if c = ':' then false else stringFirst cs

/-- The loop that joins strings, lines 453-461: the strings before the first colon outside of them, and the text
after the last of them. The first number is the fuel; every step consumes two characters. -/
def joinStrings : Nat → Str → Str × Str
  | 0, s => ([], s)
  | k + 1, s =>
    if stringFirst s then
      match splitAtChar '"' s with
      | none => ([], s)
      | some (_, s') =>
        match splitAtChar '"' s' with
        | none => ([], s)
        | some (t, s'') => (t ++ (joinStrings k s'').1, (joinStrings k s'').2)
    else ([], s)

/-- The replacement of `%c0` to `%c19`, lines 463-468, from the given number on. -/
def convertOperands : Nat → Nat → Str → Str
  | 0, _, s => s
  | k + 1, i, s =>
    convertOperands k (i + 1)
      ((findAndReplace (str! "%c" ++ (toString i).toList) (str! "${" ++ (toString i).toList ++ str! ":c}") s).getD s)

/-- The conversion of the joined strings, lines 463-471. -/
def convertTemplate (s : Str) : Str :=
  let a := convertOperands 20 0 s
  let b := (findAndReplace (str! "\\t") ['\t'] a).getD a
  (findAndReplace (str! "\\n") ['\n'] b).getD b

/-- The conversion of the text in brackets, lines 440-480. -/
def asmBody (e : Str) : Str × Str :=
  if e.count '"' % 2 = 1 then ([], [])
  else
    let x := joinStrings e.length e
    (convertTemplate x.1, (splitAtChar ':' x.2).elim [] fun p => ':' :: p.2)

/-- `convertInlineAsmToLLVMFormat`, lines 414-481. -/
def asmParts (input : Str) : Str × Str :=
  match findSub (str! "asm") input with
  | none => ([], [])
  | some i =>
    match findSub (str! "(") (input.drop i) with
    | none => ([], [])
    | some k =>
      let b := toMatchingBracket input (i + k)
      if b = [] then ([], []) else asmBody ((b.drop 1).dropLast)

/-- Is the candidate kept, lines 524-528? `none`: behind the terminating zero of a string (undefined). Strings do
not contain zeros. -/
def keepCand (pos : Nat) (asm : Str) (c : Str × Str) : Option Bool :=
  if c.1.length < pos || asm.length < pos then none
  else some (decide (c.1[pos]? = asm[pos]?) && decide (c.1 ≠ []))

/-- One step of the loop over positions. -/
def filterCands (pos : Nat) (asm : Str) : List (Str × Str) → Option (List (Str × Str))
  | [] => some []
  | c :: cs => (keepCand pos asm c).bind fun b => (filterCands pos asm cs).map fun r => if b then c :: r else r

/-- The loop over positions, lines 518-533. `none`: undefined behaviour; the first number is the fuel, of which
nothing is left only after it. -/
def chooseCands (asm : Str) : Nat → Nat → List (Str × Str) → Option (List (Str × Str))
  | 0, _, _ => none
  | k + 1, pos, cs => if cs.length ≤ 1 then some cs else (filterCands pos asm cs).bind (chooseCands asm k (pos + 1))

/-- The loop that parses the arguments, lines 546-562: the text from `position + 1` on. The first number is the
fuel. Lines 553-557 cannot apply because the text in brackets is not empty. -/
def parseAsmArgs : Nat → Str → List Str
  | 0, _ => []
  | k + 1, s =>
    match splitAtChar '(' s with
    | none => []
    | some (_, s') =>
      let b := bracketLoop ('(' :: s') 0
      (b.drop 1).dropLast :: parseAsmArgs k (('(' :: s').drop (b.length + 1))

/-- The operands of the candidate that is left, lines 536-564. -/
def candArgs : List (Str × Str) → List Str
  | [] => []
  | c :: _ => parseAsmArgs (c.2.length + 1) c.2

/-- `findInlineAssemblySourceArguments`, lines 485-565: `inputs` are the text of the line and the bodies of its
macros. `none`: undefined behaviour. -/
def asmSourceArgs (inputs : List Str) (asm : Str) : Option (List Str) :=
  match inputs with
  | [] => some []
  | line :: _ =>
    if asm = [] || line = [] then some []
    else
      (chooseCands asm (asm.length + 2) 0 ((inputs.map asmParts).filter fun c => decide (c ≠ ([], [])))).map candArgs

end DK
