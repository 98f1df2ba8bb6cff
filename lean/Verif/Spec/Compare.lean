import Verif.Model.Compare
import Verif.Model.FunctionsDiff

/-! Specification vocabulary for the comparison of snapshots (C03, C21–C24, C55, C71, C72). -/

set_option autoImplicit false

namespace DK.Spec

/-- The function occurs in the same group of both snapshots. -/
def InBoth (first second : FunGroups) (g : Option Str) (f : Str) : Prop :=
  (first.getByName f g).isSome ∧ (second.getByName f g).isSome

/-- The function occurs in both snapshots with the given descriptions, and both have a module. -/
def Comparable (first second : FunGroups) (g : Option Str) (f : Str) (old new : FunDesc) : Prop :=
  first.getByName f g = some old ∧ second.getByName f g = some new ∧ old.mod ≠ none ∧ new.mod ≠ none

/-- The regex filter keeps a result or, if no diff matches, reports it as equal. -/
def Filtered (regex : Option (Str → Bool)) (res res' : Res) : Prop :=
  match regex with
  | none => res' = res
  | some m =>
    ((∃ x ∈ res.inner.values, ∃ d, x.diff = some d ∧ m d = true) ∧ res' = res) ∨
    ((∀ x ∈ res.inner.values, ∀ d, x.diff = some d → m d = false) ∧ res' = res.setKind .equal)

/-- Functions are compared by `functions_diff` (with any engine, lookups and state). -/
def RunsFunctionsDiff {σ : Type} (env : CmpEnv σ) : Prop :=
  ∀ g f old new prev w res, (env.diff g f old new prev w).2 = .ok res →
    ∃ fenv fuel st st', fenv.full = env.full ∧ functionsDiff fenv f f prev fuel st = some (st', .ok res)

/-- Dictionaries have distinct keys. -/
def ProperGroups (s : FunGroups) : Prop := (Dict.keys s).Nodup ∧ ∀ a ∈ s, (Dict.keys a.2).Nodup

/-- A record of one comparison: the function, its two descriptions, the graph passed in and the graph of the result. -/
structure Compared where
  group : Option Str
  name : Str
  old : FunDesc
  new : FunDesc
  prev : Option Graph
  out : Except PyErr Res

/-- The environment with a log of the comparisons. -/
def logged {σ : Type} (env : CmpEnv σ) : CmpEnv (σ × List Compared) where
  diff g f old new prev w :=
    let r := env.diff g f old new prev w.1
    ((r.1, w.2 ++ [⟨g, f, old, new, prev, r.2⟩]), r.2)
  newGroup w := (env.newGroup w.1, w.2)
  regex := env.regex
  full := env.full
  showDiff := env.showDiff
  toDir := env.toDir

/-- The graph known after the comparisons `l` when a function of group `g` is to be compared. -/
def knownGraph (l : List Compared) (g : Option Str) : Option Graph :=
  match l.getLast? with
  | none => none
  | some c => if c.group = g then c.out.toOption.bind Res.graph else none

/-- `r` is the function's own result, given the log of a comparison: unknown if a module is missing, otherwise the
(filtered) result of comparing the two functions. -/
def OwnResult (log : List Compared) (regex : Option (Str → Bool)) (first second : FunGroups) (g : Option Str) (f : Str)
    (r : Res) : Prop :=
  ∃ old new, first.getByName f g = some old ∧ second.getByName f g = some new ∧
    ((old.mod = none ∨ new.mod = none) ∧ r = Res.new .unknown f f ∨
     (old.mod ≠ none ∧ new.mod ≠ none ∧ ∃ prev res, ⟨g, f, old, new, prev, .ok res⟩ ∈ log ∧ Filtered regex res r))

/-- Strict lexicographic order of strings by code points. -/
inductive StrLt : Str → Str → Prop
  | nil {b : Char} {bs : Str} : StrLt [] (b :: bs)
  | head {a b : Char} {as bs : Str} : a.toNat < b.toNat → StrLt (a :: as) (b :: bs)
  | tail {a : Char} {as bs : Str} : StrLt as bs → StrLt (a :: as) (a :: bs)

/-- Order of functions: by group, then by name. -/
def Before (x y : Option Str × Str) : Prop :=
  (∃ a b, x.1 = some a ∧ y.1 = some b ∧ StrLt a b) ∨ (x.1 = y.1 ∧ StrLt x.2 y.2)

/-- The inner results that are shown: all but those with an empty diff that are covered by another difference. -/
def Shown (r : Res) : Prop := ¬ (r.diff = some [] ∧ r.first.covered = true)

end DK.Spec

namespace DK.Spec

/-- A section shows the inner result `x`. -/
def Shows (showDiff : Bool) (s : Section) (x : Res) : Prop :=
  s.name = x.first.name ∧ s.stackL = x.first.callstack ∧ s.stackR = x.second.callstack ∧
    s.diff = if showDiff then x.diff else none

/-- The sections are exactly those of the shown inner results, sorted by name. -/
def Lists (showDiff : Bool) (r : Res) (ss : List Section) : Prop :=
  (ss.map Section.name).Pairwise StrLt ∧ ∀ s, s ∈ ss ↔ ∃ x ∈ r.inner.values, Shown x ∧ Shows showDiff s x

end DK.Spec
