import Verif.Model.ViewPrep
import Verif.Spec.ModuleFiles

/-! Specification of what the viewer shows. -/

set_option autoImplicit false

namespace DK.Spec
open DK

/-- A path to a file inside of a directory. -/
def InsidePath (f : Str) : Prop := ∃ ws : List Str, ws ≠ [] ∧ (∀ w ∈ ws, NormalComp w) ∧ f = joinChar '/' ws

/-- Characters without a special meaning in addresses. -/
def UrlSafe (s : Str) : Prop := '?' ∉ s ∧ '#' ∉ s ∧ '%' ∉ s

/-- The file in the old snapshot. -/
def oldFile (env : ViewEnv) (d : Defn) : List Str := absComps env.oldDir d.old.file

/-- The file in the new snapshot. -/
def newFile (env : ViewEnv) (d : Defn) : List Str := absComps env.newDir d.new.file

/-- The definition is available: its files exist, can be decoded, are no data of the viewer, and the lines are known. -/
def Available (env : ViewEnv) (fs : FileTree) (d : Defn) : Prop :=
  (∃ c l, fs (oldFile env d) = some c ∧ env.text c = some l) ∧ (∃ c l, fs (newFile env d) = some c ∧ env.text c = some l) ∧
  d.old.line.isSome ∧ d.new.line.isSome ∧ ¬ env.data <+: oldFile env d ∧ ¬ env.data <+: newFile env d

/-- `t` is the diff of the two versions of the definition, empty if they do not differ. -/
def DiffOf (env : ViewEnv) (fs : FileTree) (d : Defn) (end1 end2 : Nat) (t : Str) : Prop :=
  ∃ c1 c2 l1 l2 n1 n2, fs (oldFile env d) = some c1 ∧ fs (newFile env d) = some c2 ∧ env.text c1 = some l1 ∧
    env.text c2 = some l2 ∧ d.old.line = some n1 ∧ d.new.line = some n2 ∧
    ((∀ c ∈ unifiedSyntaxDiff env.tool l1 l2 n1 n2 end1 end2, pySpace c = true) → t = []) ∧
    ((∃ c ∈ unifiedSyntaxDiff env.tool l1 l2 n1 n2 end1 end2, pySpace c = false) →
      t = unifiedSyntaxDiff env.tool l1 l2 n1 n2 end1 end2)

/-- The viewer shows the definition from the old source file and the diff. -/
def ShowsDefinition (env : ViewEnv) (fs fs' : FileTree) (flags : List (Str × Bool)) (name : Str) (d : Defn) : Prop :=
  ∃ flag, flags.lookup name = some flag ∧
    ∀ e1 e2, d.old.endLine = some e1 → d.new.endLine = some e2 →
      ∃ t, DiffOf env fs d e1 e2 t ∧ viewShown env fs' name d flag = some (fs (oldFile env d), some t)

end DK.Spec
