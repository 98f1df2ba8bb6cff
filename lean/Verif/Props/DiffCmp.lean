import Verif.Lemmas.DiffFuns
import Verif.Lemmas.DiffCheck

/-!
Properties of the comparison of functions with patterns (C41, C42, C87, C88).
-/

set_option autoImplicit false

namespace DK
open Spec

/-! ### Runs are unique -/

theorem runBlocks_succ {Mem : Type} (M : DMach Mem) (f : DFun) : ∀ (n : Nat) (from_ : Option Nat) (b : Nat)
    (env : DEnv) (mem : Mem) {res : List (Option Int) × Mem}, runBlocks M f n from_ b env mem = some res →
    runBlocks M f (n + 1) from_ b env mem = some res
  | 0, _, _, _, _, _, h => by cases h
  | n + 1, from_, b, env, mem, res, h => by
    unfold runBlocks at h ⊢
    cases hf : f.find b with
    | none => rw [hf] at h; cases h
    | some B =>
      rw [hf] at h
      simp only at h ⊢
      cases he : execBlock M B.code (enterBlock from_ B.code env) mem with
      | done v m => rw [he] at h; exact h
      | goto c e m => rw [he] at h; exact runBlocks_succ M f n _ _ _ _ h
      | stuck => rw [he] at h; cases h

theorem runFun_le {Mem : Type} (M : DMach Mem) (f : DFun) {n m : Nat} (h : n ≤ m) (vals : List Int) (mem : Mem)
    {res : List (Option Int) × Mem} (hr : runFun M f n vals mem = some res) : runFun M f m vals mem = some res := by
  induction h with
  | refl => exact hr
  | step _ ih =>
    unfold runFun at ih ⊢
    cases hb : f.blocks with
    | nil => rw [hb] at ih; cases ih
    | cons B Bs => rw [hb] at ih; exact runBlocks_succ M f _ _ _ _ _ ih

/-- A function returns at most one result. -/
theorem run_unique {Mem : Type} (M : DMach Mem) (f : DFun) {n m : Nat} {vals : List Int} {mem : Mem}
    {a b : List (Option Int) × Mem} (h : runFun M f n vals mem = some a) (h' : runFun M f m vals mem = some b) :
    a = b := by
  have h1 := runFun_le M f (Nat.le_max_left n m) vals mem h
  have h2 := runFun_le M f (Nat.le_max_right n m) vals mem h'
  rw [h1] at h2
  exact Option.some.inj h2

theorem not_same {Mem : Type} (M : DMach Mem) {l r : DFun} {n : Nat} {vals : List Int} {mem : Mem}
    {a b : List (Option Int) × Mem} (h : runFun M l n vals mem = some a) (h' : runFun M r n vals mem = some b)
    (hne : a ≠ b) : ¬ SameResults l r := by
  intro hs
  obtain ⟨m, hm⟩ := (hs Mem M vals mem a).mp ⟨n, h⟩
  exact hne (run_unique M r hm h')

/-! ### Programs for examples -/

def c32 (v : Int) : DOp := .const 32 v
def r32 (i : Nat) : DOp := .ref i 32
def r1 (i : Nat) : DOp := .ref i 1

/-- Calls and stores are recorded in the memory, the newest first; a load has the value stored last, the
first call has the value true, the others have the value false. -/
def testMach : DMach (List (Nat × List (Option Int))) where
  fcmp _ _ := .eq
  pur _ _ _ := none
  load _ mem _ := match mem.find? (fun e => e.1 == 0) with
    | some (_, some v :: _) => some v
    | _ => some 0
  eff c _ vals mem := match c with
    | .call f => (some (if mem.isEmpty then -1 else 0), (f, vals.map Prod.snd) :: mem)
    | .store => (none, (0, vals.map Prod.snd) :: mem)
    | _ => (none, mem)

/-- Which patterns are on. -/
def cfgNone : DCfg := ⟨false, false, false, false⟩
def cfgReorder : DCfg := ⟨true, false, false, false⟩
def cfgInverse : DCfg := ⟨false, true, false, false⟩

/-- `do { i += s; f(i); } while (i < n); return i;` -/
def loopStep (s : Int) : DFun := ⟨[(0, 32)],
  [⟨0, [⟨100, .jump, 0, [.blk 1], []⟩]⟩,
   ⟨1, [⟨1, .phi, 32, [c32 0, r32 2], [0, 1]⟩, ⟨2, .bin .add, 32, [r32 1, c32 s], []⟩,
        ⟨5, .call 7, 0, [r32 2], []⟩, ⟨3, .cmp .slt, 1, [r32 2, r32 0], []⟩,
        ⟨4, .branch, 0, [r1 3, .blk 2, .blk 1], []⟩]⟩,
   ⟨2, [⟨101, .ret, 0, [r32 2], []⟩]⟩]⟩

/-- `return (a + b) + c;` and `return a + (c + b);` -/
def sumL : DFun := ⟨[(0, 32), (1, 32), (2, 32)],
  [⟨0, [⟨10, .bin .add, 32, [r32 0, r32 1], []⟩, ⟨11, .bin .add, 32, [r32 10, r32 2], []⟩,
        ⟨6, .ret, 0, [r32 11], []⟩]⟩]⟩
def sumR : DFun := ⟨[(0, 32), (1, 32), (2, 32)],
  [⟨0, [⟨10, .bin .add, 32, [r32 2, r32 1], []⟩, ⟨11, .bin .add, 32, [r32 0, r32 10], []⟩,
        ⟨6, .ret, 0, [r32 11], []⟩]⟩]⟩

/-- `if (x p 0) return 1; else return 2;`, with the blocks for false and true as given. -/
def invF (p : Pred) (f t : Nat) : DFun := ⟨[(0, 32)],
  [⟨0, [⟨1, .cmp p, 1, [r32 0, c32 0], []⟩, ⟨5, .branch, 0, [r1 1, .blk f, .blk t], []⟩]⟩,
   ⟨1, [⟨6, .ret, 0, [c32 1], []⟩]⟩, ⟨2, [⟨7, .ret, 0, [c32 2], []⟩]⟩]⟩

/-- `c = (x == 0); d = !c; f(); if (!d) return 1; else return 2;` -/
def negL : DFun := ⟨[(0, 32)],
  [⟨0, [⟨1, .cmp .eq, 1, [r32 0, c32 0], []⟩, ⟨2, .bin .xor, 1, [r1 1, .const 1 (-1)], []⟩,
        ⟨3, .call 1, 0, [], []⟩, ⟨4, .bin .xor, 1, [r1 2, .const 1 (-1)], []⟩,
        ⟨5, .branch, 0, [r1 4, .blk 2, .blk 1], []⟩]⟩,
   ⟨1, [⟨6, .ret, 0, [c32 1], []⟩]⟩, ⟨2, [⟨7, .ret, 0, [c32 2], []⟩]⟩]⟩
/-- `c = (x == 0); f(); if (!c) return 1; else return 2;` -/
def negR : DFun := ⟨[(0, 32)],
  [⟨0, [⟨1, .cmp .eq, 1, [r32 0, c32 0], []⟩, ⟨3, .call 1, 0, [], []⟩,
        ⟨4, .bin .xor, 1, [r1 1, .const 1 (-1)], []⟩, ⟨5, .branch, 0, [r1 4, .blk 2, .blk 1], []⟩]⟩,
   ⟨1, [⟨6, .ret, 0, [c32 1], []⟩]⟩, ⟨2, [⟨7, .ret, 0, [c32 2], []⟩]⟩]⟩

/-- `while (f()) ; return;` -/
def again : DFun := ⟨[],
  [⟨0, [⟨100, .jump, 0, [.blk 1], []⟩]⟩,
   ⟨1, [⟨1, .call 7, 1, [], []⟩, ⟨2, .branch, 0, [r1 1, .blk 2, .blk 1], []⟩]⟩,
   ⟨2, [⟨101, .ret, 0, [], []⟩]⟩]⟩
/-- `if (f()) g(); return;` -/
def once : DFun := ⟨[],
  [⟨0, [⟨100, .jump, 0, [.blk 1], []⟩]⟩,
   ⟨1, [⟨1, .call 7, 1, [], []⟩, ⟨2, .branch, 0, [r1 1, .blk 2, .blk 3], []⟩]⟩,
   ⟨2, [⟨101, .ret, 0, [], []⟩]⟩, ⟨3, [⟨3, .call 8, 0, [], []⟩, ⟨102, .ret, 0, [], []⟩]⟩]⟩

/-- `return (long) x;`, signed or unsigned. -/
def ext (k : CastOp) : DFun := ⟨[(0, 32)],
  [⟨0, [⟨1, .cast k, 64, [r32 0], []⟩, ⟨6, .ret, 0, [.ref 1 64], []⟩]⟩]⟩

/-! ### C41 -/

/-- No casts. -/
def NoCasts (f : DFun) : Prop := ∀ i ∈ f.all, ∀ k, i.code ≠ .cast k

/-- **C41** (fails): functions with the same control flow and without casts that are found equal with
the pattern for reordered binary operations return the same, with the same effects. -/
def C41_statement : Prop :=
  ∀ (l r : DFun) (φ : Nat → Nat) (steps : Nat) (sw : List Nat), DWellFormed l → DWellFormed r →
    Dominated l → Dominated r → NoCasts l → NoCasts r → SameFlow l r φ →
    compareD cfgReorder steps l r [] = some (true, sw) → SameResults l r

theorem noCasts_of {f : DFun} (h : (f.all.all fun i => match i.code with | .cast _ => false | _ => true) = true) :
    NoCasts f := by
  intro i hi k e
  have := List.all_eq_true.mp h i hi
  rw [e] at this
  simp at this

/-- A loop that counts by one is found equal to a loop that counts by two. -/
theorem C41_fails : ¬ C41_statement := by
  intro h
  have := h (loopStep 1) (loopStep 2) id 50 [] (wfB_ok (by decide +kernel)) (wfB_ok (by decide +kernel))
    (domB_ok (fun b => if b = 1 then [0] else if b = 2 then [0, 1] else []) (by decide +kernel))
    (domB_ok (fun b => if b = 1 then [0] else if b = 2 then [0, 1] else []) (by decide +kernel))
    (noCasts_of (by decide +kernel)) (noCasts_of (by decide +kernel)) (flowB_ok (by decide +kernel)) (by decide +kernel)
  exact not_same testMach (n := 5) (vals := [0]) (mem := []) (a := ([some 1], [(7, [some 1])]))
    (b := ([some 2], [(7, [some 2])])) (by decide +kernel) (by decide +kernel) (by decide) this

/-- Without the pattern they are different. -/
example : compareD cfgNone 50 (loopStep 1) (loopStep 2) [] = some (false, []) := by decide +kernel

/-- **C41** (partial): it holds for functions without phis, without negations of conditions, where no
reorderable operation has only constants, and where operations on results of the same operation are in the
same block; for all widths of integers, also together with the pattern for inverse conditions. Missing: functions with phis, and chains over several blocks. -/
theorem C41_reorder_partial (cfg : DCfg) (hc : cfg.reloc = false) (l r : DFun) (φ : Nat → Nat) (steps : Nat) (sw : List Nat) (wl : DWellFormed l)
    (wr : DWellFormed r) (dl : Dominated l) (dr : Dominated r) (pl : Plain l) (pr : Plain r) (fl : Folded l)
    (fr : Folded r) (tl : LocalTrees l) (tr : LocalTrees r) (hf : SameFlow l r φ)
    (h : compareD cfg steps l r [] = some (true, sw)) : SameResults l r :=
  diff_sound ⟨wl, wr, pl, pr, fun _ => fl, fun _ => fr, fun _ => tl, fun _ => tr, hf⟩ dl dr hc steps sw h

/-- The theorem applies to a sum of three arguments in another order, which is found equal. -/
example : SameResults sumL sumR :=
  C41_reorder_partial cfgReorder rfl sumL sumR id 50 [] (wfB_ok (by decide +kernel)) (wfB_ok (by decide +kernel))
    (domB_ok (fun _ => []) (by decide +kernel)) (domB_ok (fun _ => []) (by decide +kernel))
    (plainB_ok (by decide +kernel)) (plainB_ok (by decide +kernel)) (treesB_ok (by decide +kernel)).1
    (treesB_ok (by decide +kernel)).1 (treesB_ok (by decide +kernel)).2 (treesB_ok (by decide +kernel)).2
    (flowB_ok (by decide +kernel)) (by decide +kernel)

/-- Reordering matters: without the pattern they are different. -/
example : compareD cfgNone 50 sumL sumR [] = some (false, []) := by decide +kernel

/-! ### C42 -/

/-- **C42** (fails): functions without casts that are found equal with the pattern for inverse
conditions return the same, with the same effects. Targets of branches on opposite comparisons
correspond in the opposite order. -/
def C42_statement : Prop :=
  ∀ (l r : DFun) (φ : Nat → Nat) (steps : Nat) (sw : List Nat), DWellFormed l → DWellFormed r →
    Dominated l → Dominated r → NoCasts l → NoCasts r → SameFlow l r φ →
    compareD cfgInverse steps l r [] = some (true, sw) → SameResults l r

/-- The negation of a negated condition is found equal to the negation of the condition. -/
theorem C42_fails : ¬ C42_statement := by
  intro h
  have := h negL negR id 50 [] (wfB_ok (by decide +kernel)) (wfB_ok (by decide +kernel))
    (domB_ok (fun _ => []) (by decide +kernel)) (domB_ok (fun _ => []) (by decide +kernel))
    (noCasts_of (by decide +kernel)) (noCasts_of (by decide +kernel)) (flowB_ok (by decide +kernel)) (by decide +kernel)
  exact not_same testMach (n := 5) (vals := [0]) (mem := []) (a := ([some 1], [(1, [])]))
    (b := ([some 2], [(1, [])])) (by decide +kernel) (by decide +kernel) (by decide) this

/-- **C42** (partial): it holds for functions without phis and negations. Missing: those. -/
theorem C42_inverse_partial (l r : DFun) (φ : Nat → Nat) (steps : Nat) (sw : List Nat) (wl : DWellFormed l)
    (wr : DWellFormed r) (dl : Dominated l) (dr : Dominated r) (pl : Plain l) (pr : Plain r) (hf : SameFlow l r φ)
    (h : compareD cfgInverse steps l r [] = some (true, sw)) : SameResults l r :=
  diff_sound ⟨wl, wr, pl, pr, fun h => absurd h (by decide), fun h => absurd h (by decide), fun h => absurd h (by decide),
    fun h => absurd h (by decide), hf⟩
    dl dr rfl steps sw h

/-- The theorem applies to a condition that was inverted together with the branch, which is found
equal; the branch is swapped. -/
example : SameResults (invF .eq 2 1) (invF .ne 1 2) :=
  C42_inverse_partial (invF .eq 2 1) (invF .ne 1 2) id 50 [5] (wfB_ok (by decide +kernel)) (wfB_ok (by decide +kernel))
    (domB_ok (fun _ => []) (by decide +kernel)) (domB_ok (fun _ => []) (by decide +kernel))
    (plainB_ok (by decide +kernel)) (plainB_ok (by decide +kernel)) (flowB_ok (by decide +kernel)) (by decide +kernel)

/-- Without the pattern they are different, and so are functions where only the condition was inverted. -/
example : compareD cfgNone 50 (invF .eq 2 1) (invF .ne 1 2) [] = some (false, []) := by decide +kernel
example : ¬ SameResults (invF .eq 2 1) (invF .ne 2 1) :=
  not_same testMach (n := 5) (vals := [0]) (mem := []) (a := ([some 1], [])) (b := ([some 2], []))
    (by decide +kernel) (by decide +kernel) (by decide)

/-- The inverse of a predicate holds exactly when the predicate does not, for integers of every width
and for floating-point numbers, also those that are not ordered. -/
theorem C42_predicates (fcmp : Int → Int → FOrder) (p : Pred) (w : Nat) (a b : Int) :
    holdsPred fcmp p.inverse w a b = !holdsPred fcmp p w a b := holds_inverse fcmp p w a b

example : holdsPred (fun _ _ => .unordered) (Pred.inverse (.f 4)) 64 0 0 = true := by decide +kernel

/-! ### C87 -/

/-- **C87** (fails): functions without phis, casts and negations that are found equal without any
pattern return the same, with the same effects. -/
def C87_statement : Prop :=
  ∀ (l r : DFun) (steps : Nat) (sw : List Nat), DWellFormed l → DWellFormed r → Dominated l → Dominated r →
    Plain l → Plain r → compareD cfgNone steps l r [] = some (true, sw) → SameResults l r

/-- A loop is found equal to a condition with other code. -/
theorem C87_fails : ¬ C87_statement := by
  intro h
  have := h again once 50 [] (wfB_ok (by decide +kernel)) (wfB_ok (by decide +kernel))
    (domB_ok (fun _ => []) (by decide +kernel)) (domB_ok (fun _ => []) (by decide +kernel))
    (plainB_ok (by decide +kernel)) (plainB_ok (by decide +kernel)) (by decide +kernel)
  exact not_same testMach (n := 5) (vals := []) (mem := []) (a := ([], [(7, []), (7, [])]))
    (b := ([], [(8, []), (7, [])])) (by decide +kernel) (by decide +kernel) (by decide) this

/-- **C87** (partial): it holds if the functions have the same control flow. Missing: the comparison
does not find out whether they have. -/
theorem C87_same_flow_partial (l r : DFun) (φ : Nat → Nat) (steps : Nat) (sw : List Nat) (wl : DWellFormed l)
    (wr : DWellFormed r) (dl : Dominated l) (dr : Dominated r) (pl : Plain l) (pr : Plain r) (hf : SameFlow l r φ)
    (h : compareD cfgNone steps l r [] = some (true, sw)) : SameResults l r :=
  diff_sound ⟨wl, wr, pl, pr, fun h => absurd h (by decide), fun h => absurd h (by decide), fun h => absurd h (by decide),
    fun h => absurd h (by decide), hf⟩
    dl dr rfl steps sw h

/-- The loop with its blocks in another order and other names. -/
def again' : DFun := ⟨[],
  [⟨10, [⟨200, .jump, 0, [.blk 11], []⟩]⟩,
   ⟨12, [⟨201, .ret, 0, [], []⟩]⟩,
   ⟨11, [⟨31, .call 7, 1, [], []⟩, ⟨32, .branch, 0, [r1 31, .blk 12, .blk 11], []⟩]⟩]⟩

example : SameResults again again' :=
  C87_same_flow_partial again again' (· + 10) 50 [] (wfB_ok (by decide +kernel)) (wfB_ok (by decide +kernel))
    (domB_ok (fun _ => []) (by decide +kernel)) (domB_ok (fun _ => []) (by decide +kernel))
    (plainB_ok (by decide +kernel)) (plainB_ok (by decide +kernel)) (flowB_ok (by decide +kernel)) (by decide +kernel)

/-! ### C88 -/

/-- **C88** (fails): functions with the same control flow and without phis that are found
equal without any pattern return the same, with the same effects. -/
def C88_statement : Prop :=
  ∀ (l r : DFun) (φ : Nat → Nat) (steps : Nat) (sw : List Nat), DWellFormed l → DWellFormed r →
    Dominated l → Dominated r → (∀ i ∈ l.all ++ r.all, i.code ≠ .phi) → SameFlow l r φ →
    compareD cfgNone steps l r [] = some (true, sw) → SameResults l r

/-- A signed extension is found equal to an unsigned one. -/
theorem C88_fails : ¬ C88_statement := by
  intro h
  have := h (ext .zext) (ext .sext) id 50 [] (wfB_ok (by decide +kernel)) (wfB_ok (by decide +kernel))
    (domB_ok (fun _ => []) (by decide +kernel)) (domB_ok (fun _ => []) (by decide +kernel)) (by decide +kernel)
    (flowB_ok (by decide +kernel)) (by decide +kernel)
  exact not_same testMach (n := 5) (vals := [-1]) (mem := []) (a := ([some 4294967295], []))
    (b := ([some (-1)], [])) (by decide +kernel) (by decide +kernel) (by decide) this

/-- A use of the result of an instruction, through casts. -/
inductive CastUse (all : List DInst) : Nat → DInst → Prop where
  | here (a w : Nat) (u : DInst) : u ∈ all → DOp.ref a w ∈ u.ops → CastUse all a u
  | cast (a w : Nat) (c u : DInst) (k : CastOp) : c ∈ all → c.code = .cast k → DOp.ref a w ∈ c.ops →
      CastUse all c.id u → CastUse all a u

theorem castArith_uses {all : List DInst} {a : Nat} {u : DInst} (h : CastUse all a u)
    (hu : (∃ o, u.code = .bin o) ∨ ∃ c, u.code = .arith c) : ∀ n, castArith all n a = true := by
  have hmem : ∀ {u : DInst} {a w : Nat}, u ∈ all → DOp.ref a w ∈ u.ops → u ∈ usersOf all a :=
    fun hm hw => List.mem_filter.mpr ⟨hm, List.any_eq_true.mpr ⟨_, hw, by simp⟩⟩
  induction h with
  | here a w u hm hw =>
    intro n
    cases n with
    | zero => rfl
    | succ n =>
      simp only [castArith, List.any_eq_true]
      refine ⟨u, hmem hm hw, ?_⟩
      rcases hu with ⟨o, e⟩ | ⟨c, e⟩ <;> rw [e]
  | cast a w c u k hm hc hw _ ih =>
    intro n
    cases n with
    | zero => rfl
    | succ n =>
      simp only [castArith, List.any_eq_true]
      refine ⟨c, hmem hm hw, ?_⟩
      rw [hc]
      exact ih hu n

/-- **C88** (partial): a cast that is skipped extends its operand or keeps its width, and no arithmetic
operation uses its result, directly or through other casts. Missing: the kind of the extension, and
other uses, as comparisons and returned values. -/
theorem C88_no_arithmetic_partial (all : List DInst) (n : Nat) (i : DInst) (o : DOp)
    (h : maySkipCast all n i = some o) :
    (∃ k, i.code = .cast k) ∧ i.ops = [o] ∧ o.ty ≤ i.ty ∧
      ∀ u, CastUse all i.id u → (∀ b, u.code ≠ .bin b) ∧ ∀ c, u.code ≠ .arith c := by
  unfold maySkipCast at h
  split at h
  · next k o' hc ho =>
    split at h
    · next hcond =>
      simp only [Bool.and_eq_true, decide_eq_true_eq, Bool.not_eq_true'] at hcond
      cases h
      refine ⟨⟨k, hc⟩, ho, hcond.1, fun u hu => ⟨fun b e => ?_, fun c e => ?_⟩⟩
      · rw [castArith_uses hu (.inl ⟨b, e⟩) n] at hcond; simp at hcond
      · rw [castArith_uses hu (.inr ⟨c, e⟩) n] at hcond; simp at hcond
    · cases h
  · cases h

/-- The cast of the example is skipped; it is not if its result is added to something. -/
example : maySkipCast (ext .zext).all 5 ⟨1, .cast .zext, 64, [r32 0], []⟩ = some (r32 0) := by decide +kernel
example : maySkipCast ((ext .zext).all ++ [⟨8, .arith 1, 64, [.ref 1 64, .const 64 1], []⟩]) 5
    ⟨1, .cast .zext, 64, [r32 0], []⟩ = none := by decide +kernel

end DK
