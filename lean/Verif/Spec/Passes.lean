import Verif.Model.Passes
import Mathlib.Logic.Relation

/-! What the analyses and passes over modules should compute (C47, C48, C49). -/

set_option autoImplicit false

namespace DK.Spec

/-! ### C48 -/

/-- A value mentions a function: it is the function, a cast or alias of a value mentioning it, a
constant global variable with such an initialiser, or a constant with such an operand. -/
inductive Mentions (m : CMod) : Nat → Nat → Prop where
  | fn (v f : Nat) : m.val v = .fn f → Mentions m v f
  | bitcast (v o f : Nat) : m.val v = .bitcast o → Mentions m o f → Mentions m v f
  | aliasOf (v a f : Nat) : m.val v = .aliasOf a → Mentions m a f → Mentions m v f
  | init (v i f : Nat) : m.val v = .gvar true (some i) → Mentions m i f → Mentions m v f
  | const (v o f : Nat) (ops : List Nat) : m.val v = .const ops → o ∈ ops → Mentions m o f →
      Mentions m v f

/-- An operand of an instruction of the first function mentions the second one. -/
def UsesFun (m : CMod) (f g : Nat) : Prop := ∃ i ∈ m.body f, ∃ o ∈ i.ops, Mentions m o g

/-- A function is potentially called from `main`. -/
def PotentiallyCalled (m : CMod) (main f : Nat) : Prop := Relation.ReflTransGen (UsesFun m) main f

/-- The called operand of a call is one of its operands. -/
def CallsWf (m : CMod) : Prop := ∀ f, ∀ i ∈ m.body f, ∀ c, i.call = some c → c ∈ i.ops

/-- The functions and values reached from the functions `F` are in the lists `F` and `V`. -/
def FiniteMod (m : CMod) (F V : List Nat) : Prop :=
  (∀ f ∈ F, ∀ i ∈ m.body f, ∀ o ∈ i.ops, o ∈ V) ∧
  ∀ v ∈ V, (∀ f, m.val v = .fn f → f ∈ F) ∧ (∀ o, m.val v = .bitcast o → o ∈ V) ∧
    (∀ a, m.val v = .aliasOf a → a ∈ V) ∧ (∀ b i, m.val v = .gvar b (some i) → i ∈ V) ∧
    (∀ ops, m.val v = .const ops → ∀ o ∈ ops, o ∈ V)

/-! ### C49 -/

/-- What can be observed of a step of a program: an instruction is executed, a function without a
(known) body is called, a function returns. -/
inductive Act where
  | exec (i : EInst)
  | unknown (f : Nat)
  | ret

/-- The function that an instruction calls directly. -/
def EInst.callee : EInst → Option Nat
  | .call f => f
  | .invoke f => f
  | _ => none

/-- A step with a stack of active functions. The instructions of a function may be executed in any
order and any number of times, so that all executions for all values are among these. The debugging
intrinsics do nothing. -/
inductive Step (m : Nat → EFun) : List Nat → Act → List Nat → Prop where
  | exec (f : Nat) (st : List Nat) (is : List EInst) (i : EInst) : m f = .body is → i ∈ is →
      EInst.callee i = none → Step m (f :: st) (.exec i) (f :: st)
  | call (f g : Nat) (st : List Nat) (is : List EInst) (i : EInst) : m f = .body is → i ∈ is →
      EInst.callee i = some g → Step m (f :: st) (.exec i) (g :: f :: st)
  | ret (f : Nat) (st : List Nat) (is : List EInst) : m f = .body is → Step m (f :: st) .ret st
  | harmless (f : Nat) (st : List Nat) : m f = .decl true → Step m (f :: st) .ret st
  | unknown (f : Nat) (st : List Nat) : m f = .decl false → Step m (f :: st) (.unknown f) st

/-- Stacks that occur in the executions of a function. -/
inductive Arises (m : Nat → EFun) (f : Nat) : List Nat → Prop where
  | start : Arises m f [f]
  | step (st : List Nat) (a : Act) (st' : List Nat) : Arises m f st → Step m st a st' → Arises m f st'

/-- The execution writes to memory, calls an unknown function, or calls through a pointer. -/
def Act.Effect : Act → Prop
  | .exec .store => True
  | .exec .rmw => True
  | .exec (.call none) => True
  | .exec (.invoke none) => True
  | .unknown _ => True
  | _ => False

/-- No execution of the function has an effect. -/
def NoEffect (m : Nat → EFun) (f : Nat) : Prop :=
  ∀ st a st', Arises m f st → Step m st a st' → ¬ Act.Effect a

/-- The functions that can be called from the functions in `U` are in `U`. -/
def FiniteCalls (m : Nat → EFun) (U : List Nat) : Prop :=
  ∀ f ∈ U, ∀ is, m f = .body is → ∀ i ∈ is, ∀ g, EInst.callee i = some g → g ∈ U

/-! ### C47 -/

/-- A call that may be removed: without side effects, and its result is used, but only in stores. -/
def OnlyStored (f : SFun) (i : SInst) : Prop :=
  (∃ a, i.kind = .call true a) ∧ (∃ u ∈ f.insts, SOp.inst i.id ∈ u.ops) ∧
    ∀ u ∈ f.insts, SOp.inst i.id ∈ u.ops → u.kind = .store

/-- Instructions that must be kept. -/
def Essential (f : SFun) (i : SInst) : Prop :=
  i.kind = .term ∨ ((∃ p a, i.kind = .call p a) ∧ ¬ OnlyStored f i)

/-- A slice of a function: block by block, instructions were removed, the others are unchanged (also
their operands) and in their order, all operands are still there, and essential instructions are kept. -/
def IsSlice (f : SFun) (bs : List (List SInst)) : Prop :=
  List.Forall₂ (fun b' b => b'.Sublist b) bs f.blocks ∧
  (∀ i ∈ bs.flatten, ∀ j, SOp.inst j ∈ i.ops → (∃ x ∈ f.insts, x.id = j) → ∃ x ∈ bs.flatten, x.id = j) ∧
  ∀ i ∈ f.insts, Essential f i → i ∈ bs.flatten

/-- Instructions that are a reason to keep others: essential ones, those with a function among their
operands when there are calls through pointers, casts that follow an allocation and their users. -/
def SliceRoot (f : SFun) (r : Nat) : Prop :=
  (∃ i ∈ f.insts, i.id = r ∧ (Essential f i ∨ (SOp.fn ∈ i.ops ∧ f.indirect = true))) ∨
  ∃ b ∈ f.blocks, ∃ pre i x post, b = pre ++ i :: x :: post ∧ (∃ p, i.kind = .call p true) ∧
    x.kind = .bitcast ∧ (x.id = r ∨ ∃ u ∈ f.insts, u.id = r ∧ SOp.inst x.id ∈ u.ops)

/-- An instruction uses another one. -/
def UsesInst (f : SFun) (a b : Nat) : Prop := ∃ i ∈ f.insts, i.id = a ∧ SOp.inst b ∈ i.ops

/-- Different instructions have different numbers. -/
def DistinctIds (f : SFun) : Prop := (f.insts.map (·.id)).Nodup

end DK.Spec
