import Verif.Model.Py

/-! Model of the functions of Python's `os.path` (POSIX) that the cache uses. -/

set_option autoImplicit false

namespace DK

/-- Python `s.split(c)` for a single character. -/
def splitChar (c : Char) : Str → List Str
  | [] => [[]]
  | x :: xs =>
    if x = c then [] :: splitChar c xs
    else match splitChar c xs with
      | [] => [[x]]
      | w :: ws => (x :: w) :: ws

/-- Python `sep.join(l)` for a single character. -/
def joinChar (c : Char) : List Str → Str
  | [] => []
  | [w] => w
  | w :: w' :: ws => w ++ c :: joinChar c (w' :: ws)

/-- One component in `os.path.normpath` of an absolute path: empty components and `.` are dropped, `..` removes the
last component. -/
def normStep (acc : List Str) (c : Str) : List Str :=
  if c = [] ∨ c = str! "." then acc
  else if c = str! ".." then acc.dropLast
  else acc ++ [c]

/-- The non-empty components of `os.path.abspath(p)`; `cwd` are the components of the working directory. (A path that
starts with exactly two slashes keeps both in Python; this makes no difference for the components.) -/
def absComps (cwd : List Str) (p : Str) : List Str :=
  (splitChar '/' p).foldl normStep (if p.head? = some '/' then [] else cwd)

/-- Length of the common prefix of two lists. -/
def commonLen {α : Type} [DecidableEq α] : List α → List α → Nat
  | a :: as, b :: bs => if a = b then commonLen as bs + 1 else 0
  | _, _ => 0

/-- `os.path.commonprefix([l, r])`: the longest common prefix of the strings, character by character. -/
def commonPrefix (l r : Str) : Str := l.take (commonLen l r)

/-- `os.path.relpath(p, start)`: raises `ValueError` for an empty path. -/
def relpath (cwd : List Str) (p start : Str) : Except PyErr Str :=
  if p = [] then .error .valueError
  else
    let sl := absComps cwd start
    let pl := absComps cwd p
    let i := commonLen sl pl
    let rel := List.replicate (sl.length - i) (str! "..") ++ pl.drop i
    .ok (if rel = [] then str! "." else joinChar '/' rel)

/-- `s.replace(a, b)` for single characters. -/
def replaceChar (a b : Char) (s : Str) : Str := s.map (fun c => if c = a then b else c)

end DK
