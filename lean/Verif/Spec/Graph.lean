import Verif.Model.Graph

/-! Specification vocabulary for the dependency search (C04-C08). It mentions only the data of the graph
(successor lists, files, names), not the search. -/

namespace DK.Spec

/-- Function `u` calls `v` through the recorded call `e` on `side`, and the call stays within the comparison
boundary of a search started in a function of file `orig`: `v` is not in a `.c` file different from `orig`. -/
structure Calls (h : Heap) (g : Graph) (side : Side) (orig : Option Str) (u : Vid) (e : Edge) (v : Vid) : Prop where
  recorded : e ∈ (h u).succs side
  target : g.vertices.get? e.target = some v
  boundary : ∃ f, (h v).files side = some f ∧ ((str! ".c") <:+ f → orig = some f)

/-- `CallPath … s p v`: `p` is a chain of calls (caller, call) leading from `s` to `v`. -/
inductive CallPath (h : Heap) (g : Graph) (side : Side) (orig : Option Str) (s : Vid) :
    List (Vid × Edge) → Vid → Prop
  | nil : CallPath h g side orig s [] s
  | snoc {p u e v} : CallPath h g side orig s p u → Calls h g side orig u e v →
      CallPath h g side orig s (p ++ [(u, e)]) v

/-- `v` is reachable from `s` by calls within the boundary. -/
def Reachable (h : Heap) (g : Graph) (side : Side) (orig : Option Str) (s v : Vid) : Prop :=
  ∃ p, CallPath h g side orig s p v

/-- `v` is reachable from `s` and the last call is a strong dependency. -/
def StronglyReachable (h : Heap) (g : Graph) (side : Side) (orig : Option Str) (s v : Vid) : Prop :=
  ∃ u e, Reachable h g side orig s u ∧ Calls h g side orig u e v ∧ e.weak = false

end DK.Spec
