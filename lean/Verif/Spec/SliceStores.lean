import Verif.Model.SliceStores
import Mathlib.Logic.Relation

/-! Specification of the stores that a use of a local variable may see. -/

set_option autoImplicit false

namespace DK.Spec
open DK

/-- One instruction may be executed after another one. -/
def FlowTo (g : AccFun) (a b : Nat) : Prop := Relation.ReflTransGen (fun x y => y ∈ g.flow x) a b

/-- The same without a switch on the way and without coming to `p` or `use` after the first instruction. -/
def FlowAvoiding (g : AccFun) (p use a b : Nat) : Prop :=
  Relation.ReflTransGen (fun x y => y ∈ g.flow x ∧ g.ends x = false ∧ y ≠ p ∧ y ≠ use) a b

/-- A store to the pointer, or to one that is derived from it, comes after it on a way without switches and uses. -/
inductive StoreBefore (g : AccFun) (start : Nat → Nat) (use : Nat) : Nat → Nat → Prop where
  | direct (p s : Nat) : FlowAvoiding g p use (start p) s → g.touches s p = true → StoreBefore g start use p s
  | derived (p d s : Nat) : FlowAvoiding g p use (start p) d → g.derives d p = true → StoreBefore g start use d s →
      StoreBefore g start use p s

/-- A function as LLVM has it: what comes next is in the function; a pointer that is used is followed by the next instruction of its
block. -/
structure AccOk (g : AccFun) (start : Nat → Nat) : Prop where
  flow : ∀ i ∈ g.insts, ∀ j ∈ g.flow i, j ∈ g.insts
  inside : ∀ i ∈ g.insts, g.ends i = false → start i ∈ g.insts
  pointer : ∀ p i, g.touches i p = true ∨ g.derives i p = true → g.flow p = [start p]

end DK.Spec
