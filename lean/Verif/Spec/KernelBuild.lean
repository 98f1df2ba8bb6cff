import Verif.Model.KernelBuild
import Verif.Spec.Building

/-! Specification of repeated builds. -/

set_option autoImplicit false

namespace DK.Spec

/-- Histories of the files of a kernel: at first there are no LLVM files; then, at later and later times, sources are edited,
headers are edited (if `headers` holds), and builds change files by `step`. -/
inductive BuildHistory (headers : Prop) (step : Nat → KFiles → KFiles → Prop) : Nat → KFiles → Prop
  | start (t : Nat) (fs : KFiles) : (∀ f, fs.ll f = none) → (∀ s c st, fs.src s = some (c, st) → st ≤ t) →
      BuildHistory headers step t fs
  | edit (t t' : Nat) (fs : KFiles) (s : Str) (c : Nat) : BuildHistory headers step t fs → t < t' →
      BuildHistory headers step t' (fs.edit s c t')
  | header (t t' : Nat) (fs : KFiles) (h : Nat) : headers → BuildHistory headers step t fs → t < t' →
      BuildHistory headers step t' { fs with hdr := h }
  | build (t t' : Nat) (fs fs' : KFiles) : BuildHistory headers step t fs → t < t' → step t' fs fs' →
      BuildHistory headers step t' fs'

/-- The file is what the current source and headers compile to, optimised. -/
def CurrentSource (fs : KFiles) (s : Str) : Prop :=
  ∃ c st time, fs.src s = some (c, st) ∧ fs.ll (llOf s) = some (.opted (.compiled c fs.hdr), time)

/-- The file of a module is what the current sources and headers compile to, linked and optimised (at least once). -/
def CurrentModule (fs : KFiles) (srcs : List (Str × Str)) (out : Str) : Prop :=
  ∃ (xs : List LlFile) (n time : Nat), fs.ll out = some ((LlFile.opted)^[n + 1] (.linked xs), time) ∧
    List.Forall₂ (fun p x => ∃ c st, fs.src p.1 = some (c, st) ∧ x = LlFile.compiled c fs.hdr) srcs xs

/-- The commands for a module: its sources are compiled and then linked. -/
def moduleCommands (srcs : List (Str × Str)) (out : Str) : List LlCmd :=
  srcs.map (fun p => .clang p.1 p.2) ++ [.link (srcs.map Prod.snd) out]

/-- A command line of the linker: the word after `-o` is the output, the other words ending with the suffix are the inputs. -/
structure LinkLine (suffix : Str) (ws : List Str) (out : Str) (ins : List Str) : Prop where
  ex : ∃ before after, ws = before ++ str! "-o" :: out :: after ∧ str! "-o" ∉ before ∧ str! "-o" ∉ after ∧
    ins = (before ++ after).filter (fun w => endsWith w suffix)

/-- The shell command runs gcc or the linker. -/
def RunsTool (c : Str) : Prop := (∃ r, c = (str! "gcc") ++ r) ∨ ∃ r, c = (str! "ld") ++ r

/-- What a line printed by make runs: its commands are separated by semicolons, and the first one that runs gcc or the
linker, if there is one, counts. -/
inductive LineRuns : Str → Option Str → Prop
  | runs (before : List Str) (sp c : Str) (after : List Str) :
      (∀ b ∈ before, ';' ∉ b ∧ ∀ a x, b = a ++ x → Spaces a → ¬ RunsTool x) → Spaces sp → RunsTool c → ';' ∉ c → (∀ b ∈ after, ';' ∉ b) →
      LineRuns (joinChar ';' (before ++ (sp ++ c) :: after)) (some c)
  | nothing (cs : List Str) : cs ≠ [] → (∀ b ∈ cs, ';' ∉ b ∧ ∀ a x, b = a ++ x → Spaces a → ¬ RunsTool x) →
      LineRuns (joinChar ';' cs) none

/-- The commands of LLVM for a command of Kbuild, given what it does with commands naming the files generated for the module. -/
inductive Wanted (name : Str) : Str → Option (List Str) → Prop
  | compile (r : Str) (x : List Str) : ¬ (name ++ str! ".mod") <:+: (str! "gcc") ++ r → gccToLlvm ((str! "gcc") ++ r) = .ok x →
      Wanted name ((str! "gcc") ++ r) (some x)
  | generated (r : Str) : (name ++ str! ".mod") <:+: (str! "gcc") ++ r → Wanted name ((str! "gcc") ++ r) none
  | link (r : Str) : ¬ (name ++ str! ".ko") <:+: (str! "ld") ++ r → Wanted name ((str! "ld") ++ r) (some (ldToLlvm ((str! "ld") ++ r)))
  | final (r : Str) : (name ++ str! ".ko") <:+: (str! "ld") ++ r → Wanted name ((str! "ld") ++ r) none

end DK.Spec
