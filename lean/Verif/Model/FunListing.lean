import Verif.Model.Text

/-! Functions of a compiled C file (diffkemp/utils.py 5 and 79-98, diffkemp/llvm_ir/single_c_builder.py 39-42). -/

set_option autoImplicit false

namespace DK

/-- `.*@(\w+)\(` from here on (`LLVM_FUNCTION_REGEX`, utils.py 5): as `.*` takes as much as possible, the last place counts.
Letters and digits besides those of ASCII are left out. -/
def lastMention : Str → Option Str
  | [] => none
  | c :: cs =>
    match lastMention cs with
    | some n => some n
    | none =>
      if c = '@' && !(cs.takeWhile identChar).isEmpty && (cs.dropWhile identChar).head? = some '(' then
        some (cs.takeWhile identChar)
      else none

/-- The pattern for one line. -/
def functionOfLine (line : Str) : Option Str :=
  if startsWith line (str! "define") then lastMention (line.drop 6) else none

/-- `functions[match] = llvm_filename`, utils.py 96-97, for the keys in the order of their first insertion. -/
def addFunKey (keys : List Str) (n : Str) : List Str := if keys.contains n then keys else keys ++ [n]

/-- `get_function_list`, single_c_builder.py 39-42, with `get_functions_from_llvm`, utils.py 79-98, for the lines of the
LLVM file that was written by the compiler. -/
def functionListing (lines : List Str) : List Str := (lines.filterMap functionOfLine).foldl addFunKey []

end DK
