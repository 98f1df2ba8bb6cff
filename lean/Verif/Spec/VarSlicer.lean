import Verif.Model.VarSlicer
import Mathlib.Logic.Relation

/-! What slicing with respect to a variable should compute (C52, C59, C84, C85). -/

set_option autoImplicit false

namespace DK.Spec

/-! ### C59 -/

/-- An edge of the control-flow graph. -/
def Edge (succ : Nat → List Nat) (a b : Nat) : Prop := b ∈ succ a

/-- An edge when the branch at the end of `src` can go to `s` only. -/
def EdgeVia (succ : Nat → List Nat) (src s a b : Nat) : Prop :=
  if a = src then b = s else b ∈ succ a

/-- A block is reached through the successor `s` of `src`. -/
def Through (succ : Nat → List Nat) (src s b : Nat) : Prop :=
  Relation.ReflTransGen (EdgeVia succ src s) s b

/-- Whether the block `b` is reached depends on the branch of `src`. -/
def ReachDepends (succ : Nat → List Nat) (src b : Nat) : Prop :=
  (∃ s ∈ succ src, Through succ src s b) ∧ ∃ s ∈ succ src, ¬ Through succ src s b

/-- The graph is on the given blocks. -/
def GraphOn (succ : Nat → List Nat) (blocks : List Nat) : Prop := ∀ b ∈ blocks, ∀ c ∈ succ b, c ∈ blocks

/-! ### C85 -/

/-- The instructions of a function in order, with their blocks. -/
def vinsts (f : VFun) : List (Nat × VInst) := f.blocks.flatMap fun B => B.2.map fun i => (B.1, i)

/-- An instruction uses the variable, directly or in a constant expression. -/
def UsesVar (i : VInst) : Prop := ∃ n, VOp.const true n ∈ i.ops

/-- The instruction with the given number in the function depends on the variable: it uses it; or an
operand depends on it; or it is in a block whose execution depends on a branch that depends on it; or it
uses a pointer to which a dependent value may have been stored before. -/
inductive Depends (f : VFun) : Nat → Prop where
  | uses (n : Nat) (x : Nat × VInst) : (vinsts f)[n]? = some x → UsesVar x.2 → Depends f n
  | operand (m n : Nat) (y x : Nat × VInst) : (vinsts f)[m]? = some y → (vinsts f)[n]? = some x →
      VOp.inst y.2.id ∈ x.2.ops → Depends f m → Depends f n
  | control (m n : Nat) (y x : Nat × VInst) : (vinsts f)[m]? = some y → (vinsts f)[n]? = some x →
      y.2.kind = .branch → ReachDepends f.succ y.1 x.1 → x.1 ≠ y.1 → Depends f m → Depends f n
  | memory (m n : Nat) (y x : Nat × VInst) (p : Nat) : (vinsts f)[m]? = some y →
      (vinsts f)[n]? = some x → y.2.kind = .store (.inst p) → m < n →
      Relation.ReflTransGen (Edge f.succ) y.1 x.1 → VOp.inst p ∈ x.2.ops → Depends f m → Depends f n

/-- The instruction depends on the variable through operands that come before their users in the order
of the blocks. -/
inductive DependsForward (f : VFun) : Nat → Prop where
  | uses (n : Nat) (x : Nat × VInst) : (vinsts f)[n]? = some x → UsesVar x.2 → DependsForward f n
  | operand (m n : Nat) (y x : Nat × VInst) : m < n → (vinsts f)[m]? = some y →
      (vinsts f)[n]? = some x → VOp.inst y.2.id ∈ x.2.ops → DependsForward f m → DependsForward f n

mutual
/-- The instruction with the given identifier may depend on the variable: it uses it; an operand may depend on it; it is in a
block affected by a branch that may depend on it; it is the pointer of a store that may depend on it; or it is a phi with
different values for two blocks that may depend on it. -/
inductive MayDepend (f : VFun) : Nat → Prop where
  | uses (x : Nat × VInst) : x ∈ vinsts f → UsesVar x.2 → MayDepend f x.2.id
  | operand (m : Nat) (x : Nat × VInst) : x ∈ vinsts f → VOp.inst m ∈ x.2.ops → MayDepend f m → MayDepend f x.2.id
  | control (x : Nat × VInst) : x ∈ vinsts f → BlockAffected f x.1 → MayDepend f x.2.id
  | pointer (p : Nat) (y : Nat × VInst) : y ∈ vinsts f → y.2.kind = .store (.inst p) → MayDepend f y.2.id → MayDepend f p
  | phi (x : Nat × VInst) (bs : List Nat) (b c : Nat) (v w : VOp) : x ∈ vinsts f → x.2.kind = .phi bs →
      (b, v) ∈ bs.zip x.2.ops → (c, w) ∈ bs.zip x.2.ops → v ≠ w → BlockMayDepend f b → BlockMayDepend f c → MayDepend f x.2.id

/-- A block affected by a branch that may depend on the variable. -/
inductive BlockAffected (f : VFun) : Nat → Prop where
  | branch (b : Nat) (y : Nat × VInst) : y ∈ vinsts f → y.2.kind = .branch → MayDepend f y.2.id →
      b ∈ affectedBlocks f.succ (f.blocks.map (·.1)) y.1 → BlockAffected f b

/-- A block that is affected, or that has an instruction that may depend on the variable. -/
inductive BlockMayDepend (f : VFun) : Nat → Prop where
  | affected (b : Nat) : BlockAffected f b → BlockMayDepend f b
  | inst (y : Nat × VInst) : y ∈ vinsts f → MayDepend f y.2.id → BlockMayDepend f y.1
end

/-! ### C52 -/

/-- The constant indices of an access agree with the indices of the field as far as both are given. -/
def SameField (gep : List (Option Nat)) (indices : List Nat) : Prop :=
  ∀ (k v w : Nat), gep[k]? = some (some v) → indices[k]? = some w → v = w

/-- A use of the variable may access the field, in the given function. -/
def UsesFieldIn (indices : List Nat) (f : Nat) : PUse → Prop
  | .inst g gep => f = g ∧ ∀ l, gep = some l → SameField l indices
  | .expr gs gep => f ∈ gs ∧ ∀ l, gep = some l → SameField l indices
  | .other => False

/-- The indices of a use. -/
def useIndices : PUse → Option (List (Option Nat))
  | .inst _ gep => gep
  | .expr _ gep => gep
  | .other => none

/-- The uses have at most as many indices as the field. -/
def ShortUses (indices : List Nat) (uses : List PUse) : Prop :=
  ∀ u ∈ uses, ∀ l, useIndices u = some l → l.length ≤ indices.length

/-- The innermost variable of a description of a parameter: variables that are only wrappers (their
names contain one of the two marks) and expressions are passed through. -/
inductive ParamVar : PVal → Str → Prop where
  | var (name : Str) (last : Option PVal) : ¬ str! "__param_arr" <:+: name →
      ¬ str! "__param_string" <:+: name → ParamVar (.gvar name last) name
  | wrapper (name : Str) (v : PVal) (n : Str) :
      str! "__param_arr" <:+: name ∨ str! "__param_string" <:+: name → ParamVar v n →
      ParamVar (.gvar name (some v)) n
  | expr (v : PVal) (n : Str) : ParamVar v n → ParamVar (.expr v) n

/-- The variable of the parameter: the variable `__param_` with the name of the parameter is a structure whose last element
describes it. -/
def ParamDescribed (globals : List (Str × Option (List PElem))) (param : Str) (v : PVal) : Prop :=
  ∃ before, (str! "__param_" ++ param, some (before ++ [PElem.struct [v]])) ∈ globals

end DK.Spec
