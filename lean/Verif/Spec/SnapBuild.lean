import Verif.Model.SnapBuild

/-! Specification of snapshots that may be interrupted while they are made. -/

set_option autoImplicit false

namespace DK.Spec
open DK

/-- The directory can be loaded and contains all listed LLVM files completely: `files` are the names and texts. -/
def WholeSnapshot (parse : Str → Option (List Str)) (files : List (Str × Str)) (d : OutDir) : Prop :=
  ∃ ms dir, loadOut parse d = some ms ∧ d = some dir ∧ ∀ m ∈ ms, ∃ c, Dict.get? dir m = some c ∧ (m, c) ∈ files

/-- The directory cannot be loaded. -/
def NoSnapshot (parse : Str → Option (List Str)) (d : OutDir) : Prop := loadOut parse d = none

/-- What a run writes is consistent: names of copied files are different, none is the name of the description, and the
listed files are copied. The reader of descriptions rejects an incomplete description, or finds the same files in it. -/
def ConsistentContent (parse : Str → Option (List Str)) (b : SnapRun) : Prop :=
  ∀ syms files yaml, b.content syms = some (files, yaml) →
    (files.map Prod.fst).Nodup ∧ (∀ f ∈ files, f.1 ≠ str! "snapshot.yaml") ∧
    (∀ ms, parse yaml = some ms → ∀ m ∈ ms, m ∈ files.map Prod.fst) ∧
    (∀ n, parse (yaml.take n) = none ∨ parse (yaml.take n) = parse yaml)

/-- The run succeeds: the list can be read, is not empty if it must not be, and the files are `files`, the description `yaml`. -/
def Succeeds (b : SnapRun) (files : List (Str × Str)) (yaml : Str) : Prop :=
  ∃ ls, b.lines = some ls ∧ (b.needsSymbols = true → readSymbols ls ≠ []) ∧ b.content (readSymbols ls) = some (files, yaml)

/-- The header contains neither of the generated texts. -/
def CleanHeader (h : List Str) : Prop :=
  ∀ l ∈ h, hasText (str! "#undef CONFIG_CC_HAS_ASM_INLINE // DiffKemp generated") l = false ∧
    hasText (str! "asm (\"goto(\" #x \")\")") l = false

end DK.Spec
