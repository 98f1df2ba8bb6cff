import Verif.Model.GraphOps

/-! Specification vocabulary for merging, normalisation and cachability (C09-C13). -/

set_option autoImplicit false

namespace DK.Spec

/-- When merging, the new result `new` takes the place of the known result `old` iff: `old` is assumed-equal or unknown;
or `old` is not-equal for functions in different files and `new` is equal; or `new` has more calls on some side. -/
def Replaces (old new : Vertex) : Prop :=
  (old.result = .assumedEqual ∨ old.result = .unknown) ∨
  (old.files .left ≠ old.files .right ∧ old.result = .notEqual ∧ new.result = .equal) ∨
  ∃ s, (old.succs s).length < (new.succs s).length

/-- A verdict that says something definite. -/
def Definite (k : Kind) : Prop := k = .equal ∨ k = .notEqual

/-- Two object contents that differ at most in the `cachable` flag. -/
def SameButCachable (a b : Vertex) : Prop := { a with cachable := b.cachable } = b

/-- A name of a variant function (its return value was removed). -/
def IsVariant (n : Str) : Prop := (str! ".void") <:+ n

/-- `b` is `n` without the suffix of a variant function. -/
def BaseOf (n b : Str) : Prop := n = b ++ (str! ".void") ∨ (¬ IsVariant n ∧ b = n)

/-- Engine outputs for which normalisation works: the results have different keys, calls are recorded for both functions
of a pair or for none, every called variant function has a result and no name carries the suffix twice. -/
structure WellFormedOutput (rs : List FunResult) : Prop where
  keys : (rs.map FunResult.key).Nodup
  paired : ∀ r ∈ rs, (r.first.calls = none ↔ r.second.calls = none)
  called : ∀ r ∈ rs, ∀ cs, (r.first.calls = some cs ∨ r.second.calls = some cs) → ∀ e ∈ cs, IsVariant e.target →
    e.target ∈ rs.map FunResult.key
  single : ∀ r ∈ rs, ∀ n, r.key ≠ n ++ (str! ".void.void")

/-- The function `v` is defined in a header file (of the left project). -/
def InHeader (h : Heap) (v : Vid) : Prop := ∃ f, (h v).files .left = some f ∧ (str! ".h") <:+ f

/-- `ReachesThroughHeaders h g a u`: `u` is defined in a header and calls `a` directly or through functions that are all
defined in headers (calls of the left project, between functions of the graph). -/
inductive ReachesThroughHeaders (h : Heap) (g : Graph) (a : Vid) : Vid → Prop
  | direct {n u e} : g.vertices.get? n = some u → InHeader h u → e ∈ (h u).succs .left →
      g.vertices.get? e.target = some a → ReachesThroughHeaders h g a u
  | step {n u e w} : g.vertices.get? n = some u → InHeader h u → e ∈ (h u).succs .left →
      g.vertices.get? e.target = some w → ReachesThroughHeaders h g a w → ReachesThroughHeaders h g a u

/-- `u` depends through headers on a function of the graph that is assumed equal and not defined in a header. -/
def BlockedByAssumption (h : Heap) (g : Graph) (u : Vid) : Prop :=
  ∃ n a, g.vertices.get? n = some a ∧ (h a).result = .assumedEqual ∧ ¬ InHeader h a ∧ ReachesThroughHeaders h g a u

end DK.Spec
