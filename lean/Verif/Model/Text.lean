import Verif.Model.Paths

/-! Model of text processing: `findAndReplace`, `hasSuffix`, `dropSuffix` and `namesMatch` (simpll/Utils.cpp), splitting of
argument lists and expansion of composite macro names (simpll/SourceCodeUtils.cpp), matching of sysctl names
(llvm_sysctl_module.py, simpll/library/SysctlTable.cpp) and the changes of kernel headers by `sed`
(kernel_llvm_source_builder.py). -/

set_option autoImplicit false

namespace DK

/-! ### Replacement -/

/-- `s.find(p)`: position of the first occurrence. -/
def findSub (p : Str) : Str → Option Nat
  | [] => if p = [] then some 0 else none
  | c :: cs => if startsWith (c :: cs) p then some 0 else (findSub p cs).map (· + 1)

/-- The loop of `findAndReplace`, Utils.cpp 376-380, on the text from `position` on, at most `fuel` iterations. -/
def replaceLoop (p q : Str) : Nat → Str → Option Str
  | 0, _ => none
  | n + 1, s =>
    match findSub p s with
    | none => some s
    | some i => (replaceLoop p q n (s.drop (i + p.length))).map (fun t => s.take i ++ q ++ t)

/-- `findAndReplace`, Utils.cpp 372-381; also `s/p/q/g` of `sed` for a text `p` without special characters. C60 proves that
the number of iterations suffices. -/
def findAndReplace (p q s : Str) : Option Str := if p = [] then some s else replaceLoop p q (s.length + 1) s

/-! ### Kernel headers -/

/-- `asm goto(x)` -/
def asmGoto : Str := str! "asm goto(x)"
/-- `asm ("goto(" #x ")")` -/
def asmText : Str := str! "asm (\"goto(\" #x \")\")"
/-- The line that is searched. -/
def ifdefInline : Str := str! "#ifdef CONFIG_CC_HAS_ASM_INLINE"
/-- The line that is inserted. -/
def undefInline : Str := str! "#undef CONFIG_CC_HAS_ASM_INLINE // DiffKemp generated"

/-- The text occurs in the line (`sed` address without special characters). -/
def hasText (p s : Str) : Bool := (findSub p s).isSome

/-- `s/p/q/g` on one line. -/
def sedReplace (p q s : Str) : Str := (findAndReplace p q s).getD s

/-- `_disable_asm_features`, kernel_llvm_source_builder.py 116-141, for the lines of one header. -/
def disableAsm (h : List Str) : List Str :=
  (h.map (sedReplace asmGoto asmText)).flatMap (fun l => if hasText ifdefInline l then [undefInline, l] else [l])

/-- `_enable_asm_features`, kernel_llvm_source_builder.py 143-163. -/
def enableAsm (h : List Str) : List Str :=
  (h.map (sedReplace asmText asmGoto)).filter (fun l => !hasText undefInline l)

/-! ### Names -/

/-- Position of the last dot: the text before and after it. -/
def splitLastDot (s : Str) : Option (Str × Str) :=
  let suf := (s.reverse.takeWhile (· ≠ '.')).reverse
  if s.length = suf.length then none else some (s.take (s.length - suf.length - 1), suf)

/-- `hasSuffix`, Utils.cpp 145-150: the last character that is neither a digit nor a dot exists and is before the last
dot, or the text from the dot on is `.void`. -/
def hasSuffix (s : Str) : Bool :=
  match splitLastDot s with
  | none => false
  | some (pre, suf) =>
    (suf.all Char.isDigit && pre.any (fun c => !(c.isDigit || c = '.'))) || decide (suf = str! "void")

/-- `dropSuffix`, Utils.cpp 154-156. -/
def dropSuffix (s : Str) : Str :=
  match splitLastDot s with
  | none => s
  | some (pre, _) => pre

/-- `DefaultPrefix`, `PrefixL` and `PrefixR`, CustomPatternSet.cpp 55-59. -/
def defaultPrefix : Str := str! "diffkemp."
def sidePrefix (isLeft : Bool) : Str := if isLeft then str! "old." else str! "new."

/-- `hasSuffix(L) ? dropSuffix(L) : L` -/
def stem (s : Str) : Str := if hasSuffix s then dropSuffix s else s

/-- `namesMatch`, Utils.cpp 780-805. -/
def namesMatch (l r : Str) (isLeft : Bool) : Bool :=
  if stem l = stem r then true
  else if startsWith (stem r) defaultPrefix = false then false
  else
    let real := (stem r).drop defaultPrefix.length
    let real := if startsWith real (sidePrefix isLeft) then real.drop (sidePrefix isLeft).length else real
    decide (stem l = real)

/-! ### Sysctl patterns -/

/-- Pieces read by `std::getline` with a delimiter: as `split`, without an empty last piece. -/
def getlines (c : Char) (s : Str) : List Str :=
  let ps := splitChar c s
  if ps.getLast? = some [] then ps.dropLast else ps

/-- `pattern[1:-1]` -/
def inner (s : Str) : Str := (s.drop 1).dropLast

/-- `matches`, llvm_sysctl_module.py 11-17. -/
def pyMatches (name pattern : Str) : Bool :=
  if pattern = str! "*" then true
  else if startsWith pattern (str! "{") = true ∧ endsWith pattern (str! "}") = true then
    decide (name ∈ splitChar '|' (inner pattern))
  else decide (name = pattern)

/-- `matches`, SysctlTable.cpp 19-37. -/
def cMatches (name pattern : Str) : Bool :=
  if pattern = str! "*" then true
  else if startsWith pattern (str! "{") = true ∧ endsWith pattern (str! "}") = true then
    decide (name ∈ getlines '|' (inner pattern))
  else decide (name = pattern)

/-- `parseSysctls`, SysctlTable.cpp 57-128, for a table with the given entry names. `none`: a pattern without components
(undefined behaviour in the code). -/
def parseSysctls (table : List Str) (pattern : Str) : Option (List Str) :=
  match (getlines '.' pattern).getLast? with
  | none => none
  | some last =>
    some ((table.filter (fun n => cMatches n last)).filterMap (fun n => findAndReplace last n pattern))

/-! ### Source code -/

/-- The loop of `getSubstringToMatchingBracket`, SourceCodeUtils.cpp 396-402, from the current position on. The text is not
at its end when an iteration starts. -/
def bracketLoop : Str → Int → Str
  | [], _ => []
  | c :: cs, n =>
    let n' := if c = '(' then n + 1 else if c = ')' then n - 1 else n
    if cs = [] ∨ n' = 0 then [c] else c :: bracketLoop cs n'

/-- `getSubstringToMatchingBracket`, SourceCodeUtils.cpp 390-408, for a position inside the text. -/
def toMatchingBracket (s : Str) (pos : Nat) : Str := bracketLoop (s.drop pos) 0

/-- The loop of `splitArgumentsList`, SourceCodeUtils.cpp 573-587, from the current position on. -/
def splitArgsLoop : Str → Int → Str → List Str
  | [], _, _ => []
  | c :: cs, n, cur =>
    let n' := if c = '(' then n + 1 else if c = ')' then n - 1 else n
    if (n' = 0 ∧ c = ',') ∨ n' = -1 then cur :: splitArgsLoop cs n' [] else splitArgsLoop cs n' (cur ++ [c])

/-- Removal of spaces around an argument, SourceCodeUtils.cpp 590-599: an argument of spaces only is left as it is. -/
def stripSpaces (s : Str) : Str :=
  if s.all (· = ' ') then s else ((s.dropWhile (· = ' ')).reverse.dropWhile (· = ' ')).reverse

/-- `splitArgumentsList`, SourceCodeUtils.cpp 567-602. -/
def splitArguments (s : Str) : List Str := (splitArgsLoop (s.drop 1) 0 []).map stripSpaces

/-- `isValidCharForIdentifier`, Utils.cpp 353-359. -/
def identChar (c : Char) : Bool := c.isAlpha || c.isDigit || c = '_'

/-- The loop over the occurrences of one parameter in `expandCompositeMacroNames`, SourceCodeUtils.cpp 142-151, at most
`fuel` iterations (`none`: it has not ended). `before` is the text before `position`. After a replacement, `position` is
advanced by the length of the argument and two; a position beyond the end finds nothing. -/
def expandLoop (param arg : Str) : Nat → Str → Str → Option Str
  | 0, _, _ => none
  | n + 1, before, s =>
    match findSub (param ++ str! "##") s with
    | none => some (before ++ s)
    | some i =>
      let pre := before ++ s.take i
      if pre.getLast?.any identChar then expandLoop param arg n pre (s.drop i)
      else
        let rest := s.drop (i + param.length + 2)
        expandLoop param arg n (pre ++ arg ++ rest.take 2) (rest.drop 2)

end DK
