import Verif.Model.SliceKeep
import Verif.Spec.VarSlicer

/-! Specification of the second phase of slicing. -/

set_option autoImplicit false

namespace DK.Spec
open DK

/-- A block is reached from another one. -/
def Reached (succ : Nat → List Nat) (a b : Nat) : Prop := Relation.ReflTransGen (Edge succ) a b

/-- A function as LLVM has it: edges between its blocks, one or two successors for a branch, dependent instructions in it. -/
structure SlWellFormed (f : SlFun) (dep : List Nat) : Prop where
  graph : GraphOn f.succ f.blocks
  branches : ∀ b ∈ f.blocks, f.branch b = true → (f.succ b).length = 1 ∨ (f.succ b).length = 2
  dep : ∀ i ∈ dep, ∃ b ∈ f.blocks, i ∈ f.insts b

/-- There is no loop. -/
def NoLoop (f : SlFun) : Prop := ∃ rank : Nat → Nat, ∀ a b, b ∈ f.succ a → rank b < rank a

/-- The instructions that are needed: dependent ones, branches that were not replaced, and what they use. -/
inductive SliceWanted (f : SlFun) (dep replaced : List Nat) : Nat → Prop where
  | dep (i : Nat) : i ∈ dep → SliceWanted f dep replaced i
  | branch (b : Nat) : b ∈ f.blocks → f.branch b = true → b ∉ replaced → SliceWanted f dep replaced (f.term b)
  | op (i o : Nat) : SliceWanted f dep replaced i → o ∈ f.ops i → SliceWanted f dep replaced o
  | store (i a s : Nat) : SliceWanted f dep replaced i → a ∈ f.ops i → f.alloca a = true → s ∈ f.stores a i →
      SliceWanted f dep replaced s

end DK.Spec
