import Verif.Model.Viewer

/-! Specification for the viewer. -/

set_option autoImplicit false

namespace DK.Spec

/-- The file has the difference `x` in function `d` for the compared function `c`. -/
def HasDiff (f : ViewFile) (c d : Str) (x : YamlDiff) : Prop := ∃ ds, (c, ds) ∈ f ∧ x ∈ ds ∧ x.function = d

/-- No compared function occurs twice, and no differing function twice for one compared function. -/
structure ViewNames (f : ViewFile) : Prop where
  comp : (f.map Prod.fst).Nodup
  diffs : ∀ r ∈ f, (r.2.map YamlDiff.function).Nodup

/-- Following `next` from a name visits exactly the names of the list, in this order, and then ends. -/
inductive Follows (next : Str → Option Str) : Str → List Str → Prop
  | stop {x : Str} : next x = none → Follows next x [x]
  | step {x y : Str} {l : List Str} : next x = some y → Follows next y l → Follows next x (x :: l)

/-- The order of names is a total preorder. -/
structure NameOrder (le : Str → Str → Bool) : Prop where
  total : ∀ a b, le a b = true ∨ le b a = true
  trans : ∀ a b c, le a b = true → le b c = true → le a c = true

/-- All old calls of a displayed call stack from top to bottom. -/
def oldCalls (l : List StackItem) : List Str :=
  l.flatMap fun x => match x with | .pair o _ => [o] | .group os _ => os

/-- All new calls. -/
def newCalls (l : List StackItem) : List Str :=
  l.flatMap fun x => match x with | .pair _ n => [n] | .group _ ns => ns

/-- The functions of the buttons of a listing. -/
def buttons (l : List ListRow) : List Str := l.filterMap fun r => match r with | .button f => some f | .label _ => none

/-- States that can be reached by clicking. -/
inductive NavReach (v : ViewResult) : NavState → Prop
  | start : NavReach v ⟨none, none⟩
  | click {s s' : NavState} (e : NavEvent) : NavReach v s → navStep v s e = some s' → NavReach v s'

/-- `caller` calls a function at `line` according to the call stack `l` of `compared`: the stack lists the calls
from the compared function on, each with the line of its caller. -/
def CallsAt (compared : Str) (l : List (Str × Int)) (caller : Str) (line : Int) : Prop :=
  ∃ k : Nat, (compared :: l.map Prod.fst)[k]? = some caller ∧ (l.map Prod.snd)[k]? = some line

end DK.Spec
