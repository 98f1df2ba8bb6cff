import Verif.Model.FunPairs

/-! Model of `Result` (result.py). -/

set_option autoImplicit false

namespace DK

/-- `Result.Kind(n)`, result.py 12-23 (values above 6 do not occur: the argument is always the value of a kind). -/
def Kind.ofInt : Nat → Kind
  | 0 => .none | 1 => .equal | 2 => .assumedEqual | 3 => .notEqual
  | 4 => .unknown | 5 => .timeout | _ => .error

/-- `Result`, result.py 142-152 (times and `macro_diff`, which is never used, are left out). -/
inductive Res where
  | mk (kind : Kind) (first second : Entity) (diff : Option Str) (graph : Option Graph) (inner : List (Str × Res))

namespace Res
def kind : Res → Kind | .mk k _ _ _ _ _ => k
def first : Res → Entity | .mk _ a _ _ _ _ => a
def second : Res → Entity | .mk _ _ b _ _ _ => b
def diff : Res → Option Str | .mk _ _ _ d _ _ => d
def graph : Res → Option Graph | .mk _ _ _ _ g _ => g
def inner : Res → Dict Str Res | .mk _ _ _ _ _ i => i

/-- `Result(kind, first_name, second_name)`, result.py 142-152. -/
def new (k : Kind) (n1 n2 : Str) : Res := .mk k { name := n1 } { name := n2 } none none []

/-- Assignment to the attribute `kind`. -/
def setKind (r : Res) (k : Kind) : Res := .mk k r.first r.second r.diff r.graph r.inner
/-- Assignment to the attribute `graph`. -/
def setGraph (r : Res) (g : Option Graph) : Res := .mk r.kind r.first r.second r.diff g r.inner

/-- `add_inner`, result.py 157-169. -/
def addInner (r x : Res) : Res :=
  .mk (Kind.ofInt (max r.kind.toNat x.kind.toNat)) r.first r.second r.diff x.graph (Dict.set r.inner x.first.name x)

end Res

/-- The numbers printed by `report_symbol_stat`, result.py 177-188. -/
structure SymbolStat where
  total : Nat
  equal : Nat
  notEqual : Nat
  unknown : Nat
  errors : Nat
  emptyDiff : Nat
  deriving DecidableEq, Repr

/-- `report_symbol_stat`, result.py 171-199 (percentages and the list of failed functions are left out). -/
def symbolStat (r : Res) : SymbolStat :=
  let vals := r.inner.values
  { total := r.inner.length
    equal := (vals.filter (fun x => x.kind = .equal)).length
    notEqual := (vals.filter (fun x => x.kind = .notEqual)).length
    unknown := (vals.filter (fun x => x.kind = .unknown)).length
    errors := (vals.filter (fun x => x.kind = .error ∨ x.kind = .timeout)).length
    emptyDiff := (vals.filter (fun x => (x.inner.values.all (fun y => y.diff = some [])) = true ∧ x.kind = .notEqual)).length }

end DK
