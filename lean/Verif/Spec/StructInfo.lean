import Verif.Model.StructInfo
import Verif.Spec.Text

/-!
Specification of reports of differences between structures.
-/

set_option autoImplicit false

namespace DK.Spec

open DK

/-- Node `n` mentions node `m`: as its base type or as one of its elements. -/
def DieMentions (d : DieMod) (n m : Nat) : Prop :=
  d.nodes[n]? = some (.derived (some m)) ∨
    ∃ s c name es f l, d.nodes[n]? = some (.composite s c name es f l) ∧ m ∈ es

/-- Nodes that are found from the retained types and the types of global variables. -/
inductive Found (d : DieMod) : Nat → Prop where
  | root {u n} : u ∈ d.units → (n ∈ u.1 ∨ n ∈ u.2) → Found d n
  | step {n m} : Found d n → DieMentions d n m → Found d m

/-- Node `n` describes a structure called `name`, in file `f` at line `l`. -/
def Describes (d : DieMod) (n : Nat) (name f : Str) (l : Nat) : Prop :=
  name ≠ [] ∧ ∃ c es, d.nodes[n]? = some (.composite true c name es f l)

/-- Node `n` is the definition of the structure, not a forward declaration. -/
def Defines (d : DieMod) (n : Nat) (name f : Str) (l : Nat) : Prop :=
  name ≠ [] ∧ ∃ es, d.nodes[n]? = some (.composite true false name es f l)

/-- A field access goes through types `tl` and `tr`; at some place both are the structure called `name` (in LLVM,
`struct.name`, maybe with a suffix), and the two differ. -/
def Clash (differ : Str → Str → Bool) (tl tr : List (Option Str)) (name : Str) : Prop :=
  ∃ (i : Nat) (l r : Str), tl[i]? = some (some l) ∧ tr[i]? = some (some r) ∧ Stem l (str! "struct." ++ name) ∧ Stem r (str! "struct." ++ name) ∧
    differ l r = true

/-- Instruction `i` takes the pointer of instruction `j` further: it is a GEP or a cast of its result. -/
def TakesFurther (i j : FaInst) : Prop := i.kind ≠ .other ∧ i.op = some j.id

/-- `w` are instructions of code `b`, each of which takes the pointer of the one before it further. -/
def AccessWay (b w : List FaInst) : Prop := w.Sublist b ∧ w.IsChain (fun j i => TakesFurther i j)

/-- A GEP `i` goes through type `t`. -/
def GoesThrough (i : FaInst) (t : Option Str) : Prop := ∃ inner, i.kind = .gep t inner

end DK.Spec
