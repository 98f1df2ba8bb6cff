import Mathlib.Data.List.Dedup
import Mathlib.Data.Finset.Card
import Mathlib.Data.Finset.Dedup

/-!
Python primitives used by the model: strings as lists of characters and
insertion-ordered dictionaries.
-/

namespace DK

/-- Python `str` as a list of characters. -/
abbrev Str := List Char

/-- `str! "abc"` is the list of characters of a literal (it reduces in the kernel). -/
macro "str!" s:str : term => do
  let cs := s.getString.toList
  let es ← cs.toArray.mapM (fun c => `($(Lean.Syntax.mkCharLit c)))
  `(([$es,*] : List Char))

/-- Python `s.endswith(t)`. -/
def endsWith (s t : Str) : Bool := t.isSuffixOf s

/-- Python `s.startswith(t)`. -/
def startsWith (s t : Str) : Bool := t.isPrefixOf s

/-- Python exceptions that the modelled code can raise. -/
inductive PyErr where
  | keyError | attributeError | valueError | typeError | indexError | simpll | exit
  deriving DecidableEq, Repr

/-- Python `dict`: insertion-ordered association list. -/
abbrev Dict (α β : Type) := List (α × β)

namespace Dict
variable {α β : Type} [DecidableEq α]

/-- `d.get(k)` -/
def get? : Dict α β → α → Option β
  | [], _ => none
  | (k, v) :: d, a => if k = a then some v else get? d a

/-- `d[k] = v`: an existing key keeps its position, a new key goes to the end. -/
def set : Dict α β → α → β → Dict α β
  | [], a, b => [(a, b)]
  | (k, v) :: d, a, b => if k = a then (a, b) :: d else (k, v) :: set d a b

/-- `del d[k]` (the caller checks for the `KeyError`). -/
def erase : Dict α β → α → Dict α β
  | [], _ => []
  | (k, v) :: d, a => if k = a then d else (k, v) :: erase d a

/-- `d.keys()` -/
def keys (d : Dict α β) : List α := d.map Prod.fst

/-- `d.values()` -/
def values (d : Dict α β) : List β := d.map Prod.snd

/-- `k in d` -/
def contains (d : Dict α β) (a : α) : Bool := (get? d a).isSome

/-- `d[k]`, raising `KeyError`. -/
def getItem (d : Dict α β) (a : α) : Except PyErr β :=
  match get? d a with
  | some v => .ok v
  | none => .error .keyError

end Dict
end DK
