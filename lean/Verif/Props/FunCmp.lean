import Verif.Lemmas.FunCopy

/-!
C43: functions that the basic comparator finds equal behave equally; C44: the comparator finds a
function equal to itself and to its renamed copies.
-/

set_option autoImplicit false

namespace DK
open Spec

/-! ### A concrete machine and concrete functions -/

namespace FunCmpEx

/-- Values of constants: integers, addresses of globals, and sums and differences. -/
def constVal : Const → Int
  | .int _ v => v
  | .global g => 1000 + g
  | .expr 13 _ [.int _ a, .int _ b] => a + b
  | .expr 15 _ [.int _ a, .int _ b] => a - b
  | _ => 0

/-- Addition (13), subtraction (15), comparison of equality (53), output (56). -/
def opVal (i : Info) (vs : List Int) (mem : Unit) : Option (Option Int × Unit × List Int) :=
  match i.opcode, vs with
  | 13, [a, b] => some (some (a + b), mem, [])
  | 15, [a, b] => some (some (a - b), mem, [])
  | 53, [a, b] => some (some (if a = b then 1 else 0), mem, [])
  | 56, [a, _] => some (none, mem, [a])
  | _, _ => none

/-- Return (1) and branches (2). -/
def termVal (i : Info) (vs : List Int) (mem : Unit) : Option (Exit Int × Unit × List Int) :=
  match i.opcode, vs with
  | 1, [v] => some (.ret (some v), mem, [])
  | 2, [] => some (.goto 0 none, mem, [])
  | 2, [c] => some (.goto (if c = 0 then 1 else 0) none, mem, [])
  | _, _ => none

/-- The machine: integers, no memory, events are the numbers printed. -/
def machine : Machine where
  Val := Int
  Mem := Unit
  Ev := Int
  const := constVal
  asm := fun _ => 0
  self := 999
  gep := fun _ a vs => a + 8 * vs.sum
  addBytes := fun a k => a + k
  op := opVal
  term := termVal

/-- Offsets of single constant indices into arrays of words. -/
def layout : Layout where
  ptrBits := 64
  offset := fun _ cs => match cs with | [.int _ k] => some (8 * k) | _ => none

theorem layout_correct : LayoutCorrect layout machine := by
  intro src cs k ptr h
  match cs, h with
  | [.int w v], h =>
    simp only [layout, Option.some.injEq] at h
    subst h
    have e : machine.const (normConst layout.ptrBits (.int w v)) = (v : Int) := by
      simp only [normConst]
      split
      · rename_i hv; subst hv; rfl
      · rfl
    simp only [List.map_cons, List.map_nil, e]
    show (id ptr : Int) + 8 * ([(v : Int)].sum) = (id ptr : Int) + ((8 * v : Nat) : Int)
    simp

def i64 : Ty := .int 64
def v (n : Nat) : Opnd × Ty := (.ref (.val n), i64)
def b (n : Nat) : Opnd × Ty := (.ref (.blk n), .prim 8)
def c (n : Nat) : Opnd × Ty := (.const (.int 64 n), i64)
def callS : Special := .call 0 [] [] 0 none
/-- function printing a number -/
def out : Opnd × Ty := (.const (.global 7), .ptr 0)

/-- `for (i = n, s = 0; ; i--) { print(s); s += i; if (i - 1 == 0) return s; }`, after a computation of
an address. -/
def sumL : Fn where
  attrs := []
  gc := none
  sect := none
  vararg := false
  cc := 0
  ret := i64
  args := [(0, i64)]
  entry := ⟨0, [⟨10, 34, .ptr 0, 0, [(.const (.global 1), .ptr 0), c 2], .gep i64⟩],
    ⟨11, 2, .prim 7, 0, [b 1], .none⟩⟩
  rest := [
    ⟨1, [⟨1, 55, i64, 0, [v 0, v 4], .phi [0, 1]⟩, ⟨2, 55, i64, 0, [c 0, v 3], .phi [0, 1]⟩,
        ⟨6, 56, .prim 7, 0, [v 2, out], callS⟩,
        ⟨3, 13, i64, 0, [v 2, v 1], .none⟩, ⟨4, 15, i64, 0, [v 1, c 1], .none⟩,
        ⟨5, 53, .int 1, 0, [v 4, c 0], .cmp 32⟩],
      ⟨7, 2, .prim 7, 0, [v 5, b 1, b 2], .none⟩⟩,
    ⟨2, [], ⟨8, 1, .prim 7, 0, [v 3], .none⟩⟩]

/-- The same with other names, with the exit before the loop, and with the address computed through
an array of half-words (the same offset in the layout). -/
def sumR : Fn where
  attrs := []
  gc := none
  sect := none
  vararg := false
  cc := 0
  ret := i64
  args := [(20, i64)]
  entry := ⟨5, [⟨30, 34, .ptr 0, 0, [(.const (.global 1), .ptr 0), c 2], .gep (.int 32)⟩],
    ⟨31, 2, .prim 7, 0, [b 4], .none⟩⟩
  rest := [
    ⟨3, [], ⟨28, 1, .prim 7, 0, [v 23], .none⟩⟩,
    ⟨4, [⟨21, 55, i64, 0, [v 20, v 24], .phi [5, 4]⟩, ⟨22, 55, i64, 0, [c 0, v 23], .phi [5, 4]⟩,
        ⟨26, 56, .prim 7, 0, [v 22, out], callS⟩,
        ⟨23, 13, i64, 0, [v 22, v 21], .none⟩, ⟨24, 15, i64, 0, [v 21, c 1], .none⟩,
        ⟨25, 53, .int 1, 0, [v 24, c 0], .cmp 32⟩],
      ⟨27, 2, .prim 7, 0, [v 25, b 4, b 3], .none⟩⟩]

/-- A function that returns a constant expression. -/
def retExpr (op : Nat) : Fn where
  attrs := []
  gc := none
  sect := none
  vararg := false
  cc := 0
  ret := i64
  args := []
  entry := ⟨0, [], ⟨1, 1, .prim 7, 0, [(.const (.expr op i64 [.int 64 5, .int 64 3]), i64)], .none⟩⟩
  rest := []

theorem sum_equal : compareFns layout sumL sumR = some 0 := by decide +kernel

end FunCmpEx

/-! ### C43 -/

/-- C43: functions the comparator finds equal show the same at every moment of their execution. -/
def C43_statement : Prop :=
  ∀ (lay : Layout) (M : Machine) (f g : Fn), LayoutCorrect lay M →
    compareFns lay f g = some 0 → SameBehaviour lay M f g

/-- C43 does not hold: the operators of constant expressions are not compared (FunctionComparator.cpp,
lines 357-370), so a function returning `5 + 3` is found equal to one returning `5 - 3`. -/
theorem C43_fails : ¬ C43_statement := by
  intro h
  have e := h FunCmpEx.layout FunCmpEx.machine (FunCmpEx.retExpr 13) (FunCmpEx.retExpr 15)
    FunCmpEx.layout_correct (by decide +kernel) [] () 1
  have e1 : obs (runFn FunCmpEx.machine FunCmpEx.layout.ptrBits (FunCmpEx.retExpr 13) [] () 1) =
      .done (some (8 : Int)) () [] := rfl
  have e2 : obs (runFn FunCmpEx.machine FunCmpEx.layout.ptrBits (FunCmpEx.retExpr 15) [] () 1) =
      .done (some (2 : Int)) () [] := rfl
  rw [e1, e2] at e
  injection e with e
  injection e with e
  exact absurd (show (8 : Int) = 2 from e) (by decide)

/-- C43 for functions without constant expressions (in one of the two functions): on every machine
whose address computation agrees with the data layout they show the same at every moment: memory,
events, depth of the recursion, result. Missing: constant expressions (`C43_fails`). -/
theorem C43_equal_partial (lay : Layout) (M : Machine) (f g : Fn) (hM : LayoutCorrect lay M)
    (hn : FnNoExpr f) (h : compareFns lay f g = some 0) : SameBehaviour lay M f g := by
  obtain ⟨st, D, m⟩ := compareFns_matched hn h
  intro args mem n
  exact obs_rel (run_rel hM m args mem n)

/-- In particular they return the same results with the same memory and events, fail on the same
arguments after the same events, and run forever on the same arguments. -/
theorem C43_outcome_partial (lay : Layout) (M : Machine) (f g : Fn) (hM : LayoutCorrect lay M)
    (hn : FnNoExpr f) (h : compareFns lay f g = some 0) (args : List M.Val) (mem : M.Mem) :
    (∀ v mem' tr, (∃ n, runFn M lay.ptrBits f args mem n = .done v mem' tr) ↔
      ∃ n, runFn M lay.ptrBits g args mem n = .done v mem' tr) ∧
    (∀ tr, (∃ n, runFn M lay.ptrBits f args mem n = .stuck tr) ↔
      ∃ n, runFn M lay.ptrBits g args mem n = .stuck tr) ∧
    ((∀ n, ∃ fr cs mem' tr, runFn M lay.ptrBits f args mem n = .run fr cs mem' tr) ↔
      ∀ n, ∃ fr cs mem' tr, runFn M lay.ptrBits g args mem n = .run fr cs mem' tr) := by
  have hs := C43_equal_partial lay M f g hM hn h args mem
  refine ⟨fun v mem' tr => exists_congr fun n => ?_, fun tr => exists_congr fun n => ?_,
    forall_congr' fun n => ?_⟩
  all_goals
    have e := hs n
    cases h1 : runFn M lay.ptrBits f args mem n <;>
      cases h2 : runFn M lay.ptrBits g args mem n <;> rw [h1, h2] at e <;> simp_all [obs]

/-- The hypotheses are met by a loop with phis, output and address computations, compared with a
renamed and reordered variant that computes the address through another type. -/
example : LayoutCorrect FunCmpEx.layout FunCmpEx.machine ∧ FnNoExpr FunCmpEx.sumL ∧
    compareFns FunCmpEx.layout FunCmpEx.sumL FunCmpEx.sumR = some 0 := by
  refine ⟨FunCmpEx.layout_correct, ?_, FunCmpEx.sum_equal⟩
  intro B hB i hi o ho c hc
  simp only [Fn.blocks, FunCmpEx.sumL, List.mem_cons, List.not_mem_nil, or_false] at hB
  rcases hB with rfl | rfl | rfl <;>
    simp only [Block.code, List.cons_append, List.nil_append, List.mem_cons, List.not_mem_nil,
      or_false] at hi <;>
    rcases hi with rfl | rfl | rfl | rfl | rfl | rfl | rfl <;>
    simp only [FunCmpEx.b, FunCmpEx.v, FunCmpEx.c, FunCmpEx.out, List.mem_cons, List.not_mem_nil,
      or_false] at ho <;>
    (first
      | (rcases ho with rfl | rfl | rfl <;> simp at hc <;> subst hc <;> trivial)
      | (rcases ho with rfl | rfl <;> simp at hc <;> subst hc <;> trivial)
      | (subst ho; simp at hc))

/-- They print 0, 3, 5 (last first) and return 6 for 3. -/
example : obs (runFn FunCmpEx.machine 64 FunCmpEx.sumR [(3 : Int)] () 18) =
    .done (some (6 : Int)) () [(5 : Int), (3 : Int), (0 : Int)] := rfl

/-! ### C44 -/

/-- C44: a function is equal to every copy with injectively renamed values and blocks and with the
blocks after the entry in any order (in particular the comparison terminates). -/
theorem C44_copy (lay : Layout) (σ τ : Nat → Nat) (hσ : Function.Injective σ)
    (hτ : Function.Injective τ) (f g : Fn) (hf : WellFormed f) (hc : CopyOf σ τ f g) :
    compareFns lay f g = some 0 :=
  compareFns_copy hσ hτ lay hf hc

theorem renameKey_id (k : Key) : renameKey id id k = k := by cases k <;> rfl

theorem renameOpnd_id (o : Opnd) : renameOpnd id id o = o := by
  cases o <;> simp [renameOpnd, renameKey_id]

theorem renameInst_id (i : Inst) : renameInst id id i = i := by
  cases i with
  | mk a b c d ops s => cases s <;> simp [renameInst, renameOpnd_id, renameSpecial]

theorem renameBlock_id (B : Block) : renameBlock id id B = B := by
  cases B with
  | mk a is t =>
    have : renameInst id id = id := funext renameInst_id
    simp [renameBlock, this]

/-- C44: the comparator is reflexive. -/
theorem C44_refl (lay : Layout) (f : Fn) (hf : WellFormed f) : compareFns lay f f = some 0 := by
  refine C44_copy lay id id Function.injective_id Function.injective_id f f hf ?_
  have : renameBlock id id = id := funext renameBlock_id
  exact ⟨rfl, rfl, rfl, rfl, rfl, rfl, by simp, (renameBlock_id _).symm, by simp [this]⟩

theorem FunCmpEx.sumL_wf : WellFormed FunCmpEx.sumL := by
  refine ⟨by decide, ?_, ?_⟩
  · intro B hB t ht
    simp only [Fn.blocks, FunCmpEx.sumL, List.mem_cons, List.not_mem_nil, or_false] at hB
    rcases hB with rfl | rfl | rfl <;> revert t <;> decide
  · intro B hB i hi src hs
    simp only [Fn.blocks, FunCmpEx.sumL, List.mem_cons, List.not_mem_nil, or_false] at hB
    rcases hB with rfl | rfl | rfl <;>
      simp only [Block.code, List.cons_append, List.nil_append, List.mem_cons, List.not_mem_nil,
        or_false] at hi <;>
      rcases hi with rfl | rfl | rfl | rfl | rfl | rfl | rfl <;> simp

/-- The hypotheses are met: the loop above, its copy with all names increased by 20 and the last two
blocks exchanged. -/
example : WellFormed FunCmpEx.sumL ∧ CopyOf (· + 20) (· + 20) FunCmpEx.sumL
    { FunCmpEx.sumL with
        args := [(20, FunCmpEx.i64)]
        entry := renameBlock (· + 20) (· + 20) FunCmpEx.sumL.entry
        rest := (FunCmpEx.sumL.rest.map (renameBlock (· + 20) (· + 20))).reverse } :=
  ⟨FunCmpEx.sumL_wf, ⟨rfl, rfl, rfl, rfl, rfl, rfl, rfl, rfl, List.reverse_perm _⟩⟩

end DK
