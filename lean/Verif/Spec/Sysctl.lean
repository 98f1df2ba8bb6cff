import Verif.Model.Sysctl
import Verif.Spec.Text

/-! Specification of sysctl tables and of snapshots of sysctl options. -/

set_option autoImplicit false

namespace DK.Spec

/-- The constant inside another one that is reached by the indices. -/
inductive Inside : KConst → List Nat → KConst → Prop
  | here (c : KConst) : Inside c [] c
  | struct (ops : List KConst) (i : Nat) (c d : KConst) (is : List Nat) :
      ops[i]? = some c → Inside c is d → Inside (.struct ops) (i :: is) d
  | array (ops : List KConst) (i : Nat) (c d : KConst) (is : List Nat) :
      ops[i]? = some c → Inside c is d → Inside (.array ops) (i :: is) d

/-- The elements of the table that is at the indices `path` of the variable `root`. -/
def TableAt (M : KMod) (root : Str) (path : List Nat) (elems : List KConst) : Prop :=
  ∃ c d, (root, some c) ∈ M ∧ Inside c path d ∧ (d = .array elems ∨ d = .struct elems)

/-- The element is an entry for the option `n`: its first member is a string variable containing the name, which ends
with zeros. -/
def EntryName (M : KMod) (c : KConst) (n : Str) : Prop :=
  ∃ g rest k, c = .struct (.glob g :: rest) ∧ (g, some (.text (n ++ List.replicate k (Char.ofNat 0)))) ∈ M ∧
    n.getLast? ≠ some (Char.ofNat 0)

/-- The table contains the entry `c` for the option `n`. -/
def TableEntry (M : KMod) (root : Str) (path : List Nat) (n : Str) (c : KConst) : Prop :=
  ∃ elems, TableAt M root path elems ∧ c ∈ elems ∧ EntryName M c n

/-- Address of an object inside a variable. -/
inductive Address : KConst → Str → List Nat → Prop
  | var (v : Str) : Address (.glob v) v []
  | cast (c : KConst) (v : Str) (is : List Nat) : Address c v is → Address (.cast c) v is
  | gep (c : KConst) (v : Str) (is : List Nat) : Address c v [] → Address (.gep c (is.map .int)) v is

/-- The member of an entry. -/
def Member (c : KConst) (i : Nat) (d : KConst) : Prop := ∃ ms, c = .struct ms ∧ ms[i]? = some d

/-- The handler of an entry is the sixth member. -/
def Handler (c : KConst) (f : Str) : Prop := Member c 5 (.func f)

/-- The data of an entry is the second member. -/
def EntryData (c : KConst) (v : Str) (is : List Nat) : Prop := ∃ d, Member c 1 d ∧ Address d v is

/-- The child table of an entry is the fifth member. -/
def EntryChild (c : KConst) (v : Str) (is : List Nat) : Prop := ∃ d, Member c 4 d ∧ Address d v is

/-- The table where the search for an option starts and the names that remain. -/
inductive StartTable : List Str → Str → List Nat → List Str → Prop
  | base (e : Str) (es : List Str) : e ∈ [str! "kernel", str! "vm", str! "fs", str! "debug", str! "dev"] →
      StartTable (e :: es) (str! "sysctl_base_table") [] (e :: es)
  | conf (dev : Str) (es : List Str) :
      StartTable (str! "net" :: str! "ipv4" :: str! "conf" :: dev :: es) (str! "devinet_sysctl") [1] es
  | ipv4 (e : Str) (es : List Str) : e ≠ str! "conf" →
      StartTable (str! "net" :: str! "ipv4" :: e :: es) (str! "ipv4_table") [] (e :: es)
  | core (es : List Str) : StartTable (str! "net" :: str! "core" :: es) (str! "net_core_table") [] es

/-- Following the names from a table leads to the table `root`, `path` in the file `p`, where the last name is looked up:
every other name is the name of an entry whose child table is at the beginning of a variable. -/
inductive LeadsTo (E : SysEnv) : Str → List Nat → List Str → Str → Str → List Nat → Prop
  | last (root : Str) (path : List Nat) (e p : Str) : E.modFor root = some p → LeadsTo E root path [e] p root path
  | step (root : Str) (path : List Nat) (e e' : Str) (es : List Str) (q : Str) (c : KConst) (v : Str) (is : List Nat)
      (p root' : Str) (path' : List Nat) : E.modFor root = some q → TableEntry (E.content q) root path e c →
      EntryChild c v is → (∀ i ∈ is, i = 0) → LeadsTo E v [] (e' :: es) p root' path' →
      LeadsTo E root path (e :: e' :: es) p root' path'

/-- The table of an option. -/
def TableFor (E : SysEnv) (es : List Str) (p root : Str) (path : List Nat) : Prop :=
  ∃ root0 path0 es0, StartTable es root0 path0 es0 ∧ LeadsTo E root0 path0 es0 p root path

/-- How a table inside a variable is written. -/
def tableText (root : Str) (path : List Nat) : Str := root ++ path.flatMap (fun i => '.' :: Nat.toDigits 10 i)

/-- The snapshot of the options `syms` (names or patterns) contains the function `f` with the description `d` in the group
`g`: there is an option `g` that matches one of `syms`, and `f` is its handler, for which there is source code, or `f` is
another function that uses the data of the option. -/
def InSnapshot (E : SysEnv) (syms : List Str) (g f : Str) (d : FunDesc) : Prop :=
  ∃ es last p root path n c, joinChar '.' (es ++ [last]) ∈ syms ∧ (∀ e ∈ es ++ [last], '.' ∉ e) ∧
    TableFor E (es ++ [last]) p root path ∧ TableEntry (E.content p) root path n c ∧ SysctlMatch n last ∧
    g = joinChar '.' (es ++ [n]) ∧
    ((∃ m, Handler c f ∧ E.modFor f = some m ∧ d = ⟨some m, none, some (str! "proc handler function")⟩) ∨
     (∃ v is ms m, EntryData c v is ∧ E.modsUsing v = some ms ∧ m ∈ ms ∧ f ∈ E.funsUsing m (v, is) ∧ ¬ Handler c f ∧
       d = ⟨some m, some v, some (str! "using data variable \"" ++ v ++ str! "\"")⟩))

/-- Addresses that occur in entries: the address of a variable or of a member of a variable, without a cast of the address
of a member. -/
def PlainAddress (d : KConst) : Prop :=
  (∃ v, d = .glob v ∨ d = .cast (.glob v)) ∨ ∃ v is, d = .gep (.glob v) is ∨ d = .gep (.cast (.glob v)) is

/-- Assumptions about the tables of a module: a variable is defined once, variables that are the first members of elements of
tables are defined, the names of the entries of a table differ, they are not empty and are not written as lists, addresses
are plain, child tables are at the beginning of variables whose names do not contain dots. -/
structure TidyModule (M : KMod) : Prop where
  once : (M.map Prod.fst).Nodup
  defined : ∀ root path elems g rest, TableAt M root path elems → .struct (.glob g :: rest) ∈ elems → ∃ d, (g, some d) ∈ M
  distinct : ∀ root path elems, TableAt M root path elems →
    elems.Pairwise (fun a b => ∀ n, EntryName M a n → ¬ EntryName M b n)
  names : ∀ root path n c, TableEntry M root path n c → n ≠ [] ∧ ¬ ∃ s, n = '{' :: s ++ ['}']
  plain : ∀ root path n c d, TableEntry M root path n c → (Member c 1 d ∨ Member c 4 d) → (∃ v is, Address d v is) →
    PlainAddress d
  children : ∀ root path n c v is, TableEntry M root path n c → EntryChild c v is →
    v ≠ [] ∧ '.' ∉ v ∧ ∀ i ∈ is, i = 0

/-- Assumption about a pattern: its last component is not empty and occurs only at the end. -/
def TidyPattern (sym : Str) : Prop :=
  ∀ es last, sym = joinChar '.' (es ++ [last]) → (∀ e ∈ es ++ [last], '.' ∉ e) →
    last ≠ [] ∧ ¬ Occurs last (joinChar '.' (es ++ [[]]) ++ last.dropLast)

end DK.Spec
