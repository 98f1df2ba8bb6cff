import Verif.Model.FunctionsDiff
import Verif.Spec.Result
import Mathlib.Data.Finset.Card

/-! Specification vocabulary for the comparison of two functions (C14, C17–C20, C62, C64–C66). -/

set_option autoImplicit false

namespace DK.Spec

/-- All modules found for missing symbols belong to `L`. -/
def FindsOnly (env : FDEnv) (L : Side → Finset ModId) : Prop :=
  (∀ s n sym m, env.snapLookup s n sym = some m → m ∈ L s) ∧
  (∀ s look, env.srcLookup s = some look → ∀ n sym m, look n sym = some m → m ∈ L s)

/-- The original LLVM file of a module. -/
def originalFile (m : LMod) : Str := m.unlinked.getD m.llvm

/-- A module without linked modules, referring to the LLVM file `f`. -/
def Unlinked (m : LMod) (f : Str) : Prop := m.llvm = f ∧ m.unlinked = none ∧ m.linked = []

/-- A module as it can be before a comparison: either it remembers its original file or nothing is linked to it. -/
def WellLinked (m : LMod) : Prop := m.unlinked = none → m.linked = []

/-- The function `v` is found from `f1` on the left side and from `f2` on the right side. -/
def FoundOnBothSides (h : Heap) (g : Graph) (f1 f2 : Str) (v : Vid) : Prop :=
  ∃ rl btL rr btR, reachableFrom h g .left f1 = .ok (rl, btL) ∧ reachableFrom h g .right f2 = .ok (rr, btR) ∧
    v ∈ rl ∧ v ∈ rr

/-- A settled verdict. -/
def Settled (k : Kind) : Prop := k ≠ .unknown ∧ k ≠ .assumedEqual

/-- A run of the tool with a cache of compared functions: any number of comparisons one after another, with arbitrary
engine, lookups and diffs. Each comparison may start from other modules and another state of the objects; the cache is
kept. `seen` are the result graphs, with the state of the objects at the end of the comparison. -/
inductive Session (dir : Str) (cwd : List Str) : List (Heap × Graph) → Cache → Prop
  | start : Session dir cwd [] (Cache.new dir cwd)
  | step {seen c env f1 f2 prev fuel st st' out c'} : Session dir cwd seen c → st.cache = some c →
      functionsDiff env f1 f2 prev fuel st = some (st', out) → st'.cache = some c' →
      Session dir cwd (seen ++ (st'.curr.map (fun g => (st'.heap, g))).toList) c'

end DK.Spec

namespace DK.Spec

/-- The text shown for a syntactic difference with the two given bodies. -/
def syntaxText (body : Side → Str) : Str := (str! "  ") ++ body .left ++ (str! "\n\n  ") ++ body .right ++ (str! "\n")

/-- `e` is an entry for the differing function `v`. -/
def IsFunctionEntry (h : Heap) (v : Vid) (e : Res) : Prop :=
  e.kind = .notEqual ∧ e.first.kind = .function ∧ e.first.name = (h v).names .left ∧ e.second.name = (h v).names .right

/-- `e` is an entry for the non-function difference `d`; for a syntactic one the text consists of its own bodies. -/
def IsDifferenceEntry (d : NonFunDiff) (e : Res) : Prop :=
  e.kind = .notEqual ∧ e.first.name = d.name ∧
    match d with
    | .syntax _ _ _ body => e.first.kind = .syntactic ∧ e.diff = some (syntaxText body)
    | .type _ _ _ _ _ => e.first.kind = .type

/-- The name of a function and the names of its non-function differences. -/
def objectNames (h : Heap) (v : Vid) : List Str := (h v).names .left :: (h v).nonfunDiffs.map NonFunDiff.name

/-- No two differing objects found in a comparison have the same name. -/
def DistinctNames (h : Heap) (g : Graph) (f1 f2 : Str) : Prop :=
  (∀ v, FoundOnBothSides h g f1 f2 v → (objectNames h v).Nodup) ∧
  ∀ v w, FoundOnBothSides h g f1 f2 v → FoundOnBothSides h g f1 f2 w → v ≠ w →
    List.Disjoint (objectNames h v) (objectNames h w)

end DK.Spec

namespace DK.Spec

/-- The module found for a symbol at a given time: the snapshot is asked first, then the source tree if there is one. -/
def foundModule (env : FDEnv) (s : Side) (time : Nat) (sym : Str) : Option ModId :=
  (env.snapLookup s time sym).or ((env.srcLookup s).bind (fun look => look time sym))

/-- The symbol of the given side in a pair of missing definitions. -/
def ofSide (s : Side) (p : Option Str × Option Str) : Option Str :=
  match s with
  | .left => p.1
  | .right => p.2

/-- Some run of the engine reported a symbol missing on side `s`, and the module `m` was found for it on that side. -/
def Demanded (env : FDEnv) (s : Side) (m : ModId) : Prop :=
  ∃ n l r h out p sym time, env.engine n l r h = .ok out ∧ p ∈ out.2.2 ∧ ofSide s p = some sym ∧
    foundModule env s time sym = some m

/-- Nothing more can be linked for the missing definitions `ms` to modules with the given linked modules: every missing
symbol is not found, found in a module that is linked already, or the linker fails. -/
def Exhausted (env : FDEnv) (mods : Side → LMod) (ms : MissingDefs) : Prop :=
  ∀ p ∈ ms, ∀ s sym, ofSide s p = some sym → ∃ time,
    foundModule env s time sym = none ∨ (∃ m, foundModule env s time sym = some m ∧
      (m ∈ (mods s).linked ∨ env.linkOk time = false))

end DK.Spec
