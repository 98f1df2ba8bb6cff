import Verif.Spec.VarSlicer
import Verif.Lemmas.VarSlicer

/-!
Slicing with respect to a variable: C59 (affected blocks), C84 (unreachable blocks), C85 (dependent
instructions), C52 (users of a field of a parameter), C86 (variable of a parameter).
-/

set_option autoImplicit false

namespace DK
open Spec

/-! ### C59 -/

/-- C59: the blocks found to be affected by a conditional branch are exactly those whose reachability
depends on it. -/
def C59_statement : Prop := ∀ (succ : Nat → List Nat) (blocks : List Nat) (src b : Nat),
  GraphOn succ blocks → src ∈ blocks → b ∈ blocks → (succ src).length = 2 →
  (b ∈ affectedBlocks succ blocks src ↔ ReachDepends succ src b)

namespace VarSlicerEx

/-- A loop with header 1 and body 2. -/
def loopG : Nat → List Nat
  | 0 => [1]
  | 1 => [2, 3]
  | 2 => [1]
  | _ => []

/-- A branch to a chain of 40 blocks or to block 100; both join in block 41. -/
def longG : Nat → List Nat
  | 0 => [1, 100]
  | 41 => []
  | 100 => [41]
  | n => if n < 41 then [n + 1] else []

def longBlocks : List Nat := List.range 42 ++ [100]

/-- if without else inside if without else, joined late. -/
def nestG : Nat → List Nat
  | 0 => [1, 2]
  | 1 => [2, 3]
  | 2 => [3]
  | _ => []

end VarSlicerEx

/-- The header of a loop is not found although it is executed again only through one successor. -/
theorem C59_fails : ¬ C59_statement := by
  intro h
  have h1 := (h VarSlicerEx.loopG [0, 1, 2, 3] 1 1 (by unfold GraphOn; decide +kernel) (by decide) (by decide) rfl).mpr
    ⟨⟨2, by decide, .single (by simp [EdgeVia, VarSlicerEx.loopG])⟩, 3, by decide, fun hr => by
      rcases hr.cases_head with h | ⟨c, h1, _⟩
      · cases h
      · simp [EdgeVia, VarSlicerEx.loopG] at h1⟩
  revert h1
  decide +kernel

/-- In a function with more than 32 blocks an affected block other than that of the branch is missed. -/
theorem C59_fails_limit : ∃ (succ : Nat → List Nat) (blocks : List Nat) (src b : Nat),
    GraphOn succ blocks ∧ src ∈ blocks ∧ b ∈ blocks ∧ (succ src).length = 2 ∧ b ≠ src ∧
    ReachDepends succ src b ∧ b ∉ affectedBlocks succ blocks src := by
  refine ⟨VarSlicerEx.longG, VarSlicerEx.longBlocks, 0, 100, by unfold GraphOn; decide +kernel, by decide +kernel,
    by decide +kernel, rfl, by decide, ⟨⟨100, by decide, .refl⟩, 1, by decide, fun hr => ?_⟩,
    by decide +kernel⟩
  have : ∀ x, Relation.ReflTransGen (EdgeVia VarSlicerEx.longG 0 1) 1 x → x ≤ 41 := by
    intro x hx
    induction hx with
    | refl => decide
    | tail _ h2 ih =>
      rename_i a c _
      unfold EdgeVia at h2
      by_cases h0 : a = 0
      · simp [h0] at h2
        omega
      · rw [if_neg h0] at h2
        have hall : ∀ a ≤ 41, a ≠ 0 → ∀ c ∈ VarSlicerEx.longG a, c ≤ 41 := by decide +kernel
        exact hall a ih h0 c h2
  exact absurd (this 100 hr) (by decide)

/-- C59 (partial): with fewer than 32 blocks the affected blocks are right, except for the block of the
branch itself. -/
theorem C59_affected_partial (succ : Nat → List Nat) (blocks : List Nat) (src b : Nat)
    (hg : GraphOn succ blocks) (hsrc : src ∈ blocks) (hb : b ∈ blocks) (h2 : (succ src).length = 2)
    (hl : blocks.length < 32) (hne : b ≠ src) :
    b ∈ affectedBlocks succ blocks src ↔ ReachDepends succ src b := by
  rw [mem_affectedBlocks]
  have hm : ∀ s ∈ succ src, (b ∈ reachableThroughSucc succ blocks src s ↔ Through succ src s b) := by
    intro s hs
    rw [mem_reachableThroughSucc hg hl hsrc hs]
    exact ⟨fun h => h.2.2, fun h => ⟨hb, hne.symm, h⟩⟩
  unfold ReachDepends
  constructor
  · rintro ⟨_, ⟨s, hs, h⟩, t, ht, h'⟩
    exact ⟨⟨s, hs, (hm s hs).mp h⟩, t, ht, fun hc => h' ((hm t ht).mpr hc)⟩
  · rintro ⟨⟨s, hs, h⟩, t, ht, h'⟩
    exact ⟨h2, ⟨s, hs, (hm s hs).mpr h⟩, t, ht, fun hc => h' ((hm t ht).mp hc)⟩

/-- C59: the block of the branch itself is never in the result, and nothing outside the function is. -/
theorem C59_own_block (succ : Nat → List Nat) (blocks : List Nat) (src b : Nat)
    (h : b ∈ affectedBlocks succ blocks src) : b ≠ src ∧ b ∈ blocks ∧ (succ src).length = 2 := by
  obtain ⟨h2, ⟨s, _, hr⟩, _⟩ := (mem_affectedBlocks ..).mp h
  unfold reachableThroughSucc reachableBlocks at hr
  obtain ⟨hb, hd⟩ := List.mem_filter.mp hr
  exact ⟨fun e => of_decide_eq_true ((Bool.and_eq_true _ _).mp hd).1 e.symm, hb, h2⟩

example : GraphOn VarSlicerEx.nestG [0, 1, 2, 3] ∧ affectedBlocks VarSlicerEx.nestG [0, 1, 2, 3] 0 = [1] ∧
    affectedBlocks VarSlicerEx.nestG [0, 1, 2, 3] 1 = [2] ∧
    affectedBlocks VarSlicerEx.loopG [0, 1, 2, 3] 1 = [2, 3] :=
  ⟨by unfold GraphOn; decide +kernel, by decide +kernel, by decide +kernel, by decide +kernel⟩

/-! ### C84 -/

/-- C84: exactly the blocks reachable from the entry remain, in their order. -/
theorem C84_exact (succ : Nat → List Nat) (n entry : Nat) (blocks r : List Nat)
    (h : deleteUnreachable succ n entry blocks = some r) :
    (∀ b, b ∈ r ↔ b ∈ blocks ∧ Relation.ReflTransGen (Edge succ) entry b) ∧ r.Sublist blocks := by
  unfold deleteUnreachable at h
  obtain ⟨seen, hs, rfl⟩ := Option.map_eq_some_iff.mp h
  have hr : ∀ y, y ∈ seen ↔ Relation.ReflTransGen (Edge succ) entry y := fun y => visit_reach hs y
  refine ⟨fun b => ?_, List.filter_sublist⟩
  rw [List.mem_filter, decide_eq_true_eq, List.mem_cons, List.mem_flatMap]
  refine and_congr_right fun _ => ⟨?_, fun hb => ?_⟩
  · rintro (rfl | ⟨a, ha, hb⟩)
    · exact .refl
    · exact ((hr a).mp ha).tail hb
  · rcases hb.cases_tail with e | ⟨a, h1, h2⟩
    · exact .inl e
    · exact .inr ⟨a, (hr a).mpr h1, h2⟩

/-- C84: the search ends for every function. -/
theorem C84_ends (succ : Nat → List Nat) (entry : Nat) (blocks : List Nat) (hg : GraphOn succ blocks)
    (he : entry ∈ blocks) : ∃ r, deleteUnreachable succ (blocks.length + 1) entry blocks = some r := by
  have := visit_ends hg (blocks.length + 1) entry []  he
    (Nat.lt_succ_of_le (unseen_length blocks []))
  obtain ⟨seen, hs⟩ := this
  exact ⟨_, by unfold deleteUnreachable; rw [hs]; rfl⟩

example : deleteUnreachable VarSlicerEx.loopG 5 0 [0, 1, 2, 3, 4] = some [0, 1, 2, 3] := by decide +kernel

/-! ### C85 -/

/-- C85: every instruction that depends on the variable is found to be dependent. -/
def C85_statement : Prop := ∀ (f : VFun) (n : Nat) (x : Nat × VInst), (vinsts f)[n]? = some x →
  Depends f n → x.2.id ∈ (depPhase f).dep

namespace VarSlicerEx

/-- `x = 0; while (c) x += var; return x;` -/
def sumLoop : VFun where
  blocks := [(0, []), (1, [⟨1, .phi [0, 2], [.const false 0, .inst 3]⟩, ⟨2, .branch, [.const false 1]⟩]),
    (2, [⟨3, .other, [.inst 1, .const true 2]⟩]), (3, [⟨4, .other, [.inst 1]⟩])]
  succ := loopG

/-- `p = alloca; if (var) *p = 1; return *p;` -/
def condStore : VFun where
  blocks := [(0, [⟨0, .other, []⟩, ⟨1, .branch, [.const true 0]⟩]),
    (1, [⟨2, .store (.inst 0), [.const false 1, .inst 0]⟩]),
    (2, [⟨3, .other, [.inst 0]⟩, ⟨4, .other, [.inst 3]⟩])]
  succ := fun n => match n with | 0 => [1, 2] | 1 => [2] | _ => []

/-- `if (!var || c) g(); return;` -/
def nested : VFun where
  blocks := [(0, [⟨0, .branch, [.const true 0]⟩]), (1, [⟨1, .branch, [.const false 1]⟩]),
    (2, [⟨2, .other, [.const false 2]⟩]), (3, [⟨3, .other, []⟩])]
  succ := nestG

/-- `if (var) { a = 1; *p = var; } return;` with a use of the pointer. -/
def plain : VFun where
  blocks := [(0, [⟨0, .other, [.const true 0]⟩, ⟨5, .other, []⟩, ⟨6, .store (.inst 5), [.inst 0, .inst 5]⟩,
      ⟨1, .branch, [.inst 0]⟩]),
    (1, [⟨2, .other, [.const false 1]⟩]), (2, [⟨3, .other, [.inst 0]⟩, ⟨4, .other, [.const false 3]⟩])]
  succ := fun n => match n with | 0 => [1, 2] | 1 => [2] | _ => []

end VarSlicerEx

/-- A value accumulated in a loop and returned after it is not found: the return would be dropped. -/
theorem C85_fails : ¬ C85_statement := by
  intro h
  have h1 := h VarSlicerEx.sumLoop 3 _ rfl (.operand 0 3 _ _ rfl rfl (by decide)
    (.operand 2 0 _ _ rfl rfl (by decide) (.uses 2 _ rfl ⟨2, by decide⟩)))
  revert h1
  decide +kernel

/-- A store in a block affected by a dependent branch: the load after it is not found. -/
theorem C85_fails_memory : ∃ (f : VFun) (n : Nat) (x : Nat × VInst), (vinsts f)[n]? = some x ∧
    Depends f n ∧ x.2.id ∉ (depPhase f).dep := by
  refine ⟨VarSlicerEx.condStore, 3, (2, ⟨3, .other, [.inst 0]⟩), rfl,
    .memory 2 3 _ _ 0 rfl rfl rfl (by decide) (.single (by unfold Edge; decide)) (by decide)
      (.control 1 2 _ _ rfl rfl rfl ⟨⟨1, by decide, .refl⟩, 2, by decide, fun hr => ?_⟩ (by decide)
        (.uses 1 _ rfl ⟨0, by decide⟩)), by decide +kernel⟩
  rcases hr.cases_head with h | ⟨c, h1, _⟩
  · cases h
  · simp [EdgeVia, VarSlicerEx.condStore] at h1

/-- A branch inside a block affected by a dependent branch: the blocks affected by it are not found. -/
theorem C85_fails_nested : ∃ (f : VFun) (n : Nat) (x : Nat × VInst), (vinsts f)[n]? = some x ∧
    Depends f n ∧ x.2.id ∉ (depPhase f).dep := by
  refine ⟨VarSlicerEx.nested, 2, (2, ⟨2, .other, [.const false 2]⟩), rfl,
    .control 1 2 _ _ rfl rfl rfl ⟨⟨2, by decide, .refl⟩, 3, by decide, fun hr => ?_⟩ (by decide)
      (.control 0 1 _ _ rfl rfl rfl ⟨⟨1, by decide, .refl⟩, 2, by decide, fun hr => ?_⟩ (by decide)
        (.uses 0 _ rfl ⟨0, by decide⟩)), by decide +kernel⟩
  · rcases hr.cases_head with h | ⟨c, h1, _⟩
    · cases h
    · simp [EdgeVia, VarSlicerEx.nested, VarSlicerEx.nestG] at h1
  · rcases hr.cases_head with h | ⟨c, h1, h2⟩
    · cases h
    · have : c = 3 := by simpa [EdgeVia, VarSlicerEx.nested, VarSlicerEx.nestG] using h1
      subst this
      rcases h2.cases_head with h | ⟨c, h1, _⟩
      · cases h
      · simp [EdgeVia, VarSlicerEx.nested, VarSlicerEx.nestG] at h1

/-- C85 (partial): instructions that depend on the variable through operands defined before their users
are found, in every function. -/
theorem C85_forward_partial (f : VFun) (n : Nat) (x : Nat × VInst) (hx : (vinsts f)[n]? = some x)
    (h : DependsForward f n) : x.2.id ∈ (depPhase f).dep := by
  have hn : n < (vinsts f).length := by
    by_contra hc
    rw [List.getElem?_eq_none (by omega)] at hx
    cases hx
  exact (depPhase_done f).fwd n hn h x hx

/-- C85 (partial): all instructions of the blocks affected by such a branch are found, unless the block
of the branch is itself affected by another one (and then all of its own instructions are). -/
theorem C85_control_partial (f : VFun) (n : Nat) (x : Nat × VInst) (hx : (vinsts f)[n]? = some x)
    (h : DependsForward f n) (hk : x.2.kind = .branch) :
    (∀ y ∈ vinsts f, y.1 = x.1 → y.2.id ∈ (depPhase f).dep) ∨
    ∀ y ∈ vinsts f, y.1 ∈ affectedBlocks f.succ (f.blocks.map (·.1)) x.1 → y.2.id ∈ (depPhase f).dep := by
  have hn : n < (vinsts f).length := by
    by_contra hc
    rw [List.getElem?_eq_none (by omega)] at hx
    cases hx
  have hd := depPhase_done f
  rcases hd.br n hn h x hx hk with h' | h'
  · exact .inl fun y hy he => hd.aff x.1 h' y hy he
  · exact .inr fun y hy hc => hd.aff y.1 (h' y.1 hc) y hy rfl

/-- C85 (partial): the pointer of such a store is found, unless the block is affected by a branch. -/
theorem C85_store_partial (f : VFun) (n : Nat) (x : Nat × VInst) (p : Nat)
    (hx : (vinsts f)[n]? = some x) (h : DependsForward f n) (hk : x.2.kind = .store (.inst p)) :
    (∀ y ∈ vinsts f, y.1 = x.1 → y.2.id ∈ (depPhase f).dep) ∨ p ∈ (depPhase f).dep := by
  have hn : n < (vinsts f).length := by
    by_contra hc
    rw [List.getElem?_eq_none (by omega)] at hx
    cases hx
  have hd := depPhase_done f
  rcases hd.st n hn h x p hx hk with h' | h'
  · exact .inl fun y hy he => hd.aff x.1 h' y hy he
  · exact .inr h'

example : (depPhase VarSlicerEx.plain).dep = [3, 2, 1, 5, 6, 0] ∧ DependsForward VarSlicerEx.plain 3 ∧
    (vinsts VarSlicerEx.plain)[3]? = some (0, ⟨1, .branch, [.inst 0]⟩) :=
  ⟨by decide +kernel, .operand 0 3 _ _ (by decide) rfl rfl (by decide) (.uses 0 _ rfl ⟨0, by decide⟩), rfl⟩

/-- All that is in the state of the first phase may depend on the variable. -/
private structure OnlyMay (f : VFun) (st : VSt) : Prop where
  dep : ∀ i ∈ st.dep, MayDepend f i
  inc : ∀ b ∈ st.included, BlockMayDepend f b

private theorem only_add (f : VFun) (i : Nat) (st : VSt) (h : OnlyMay f st) (hi : MayDepend f i) :
    OnlyMay f (addToDependent f i st) := by
  unfold addToDependent
  split
  · exact h
  · refine ⟨?_, ?_⟩
    · intro j hj
      rcases List.mem_cons.1 hj with rfl | hj
      · exact hi
      · exact h.dep j hj
    · intro b hb
      simp only at hb
      cases hf : f.blockOf i with
      | none =>
        rw [hf] at hb
        exact h.inc b hb
      | some c =>
        rw [hf] at hb
        rcases List.mem_cons.1 hb with rfl | hb
        · unfold VFun.blockOf at hf
          obtain ⟨B, hB, rfl⟩ := Option.map_eq_some_iff.1 hf
          have hm := List.mem_of_find?_eq_some hB
          have hp := List.find?_some hB
          obtain ⟨x, hx, he⟩ := List.any_eq_true.1 hp
          have he : x.id = i := by simpa using he
          exact .inst (B.1, x) (List.mem_flatMap.2 ⟨B, hm, List.mem_map.2 ⟨x, hx, rfl⟩⟩) (by rw [he]; exact hi)
        · exact h.inc b hb

private theorem only_all (f : VFun) (bs : List Nat) (st : VSt) (h : OnlyMay f st) (hb : ∀ b ∈ bs, BlockAffected f b) :
    OnlyMay f (addAllInstrs f bs st) := by
  unfold addAllInstrs
  induction bs generalizing st with
  | nil => exact h
  | cons b bs ih =>
    rw [List.foldl_cons]
    refine ih _ ⟨?_, ?_⟩ (fun c hc => hb c (List.mem_cons_of_mem _ hc))
    · intro i hi
      rcases List.mem_append.1 hi with hi | hi
      · obtain ⟨B, hB, hi⟩ := List.mem_flatMap.1 hi
        obtain ⟨x, hx, rfl⟩ := List.mem_map.1 hi
        obtain ⟨hB, he⟩ := List.mem_filter.1 hB
        have he : B.1 = b := by simpa using he
        exact .control (B.1, x) (List.mem_flatMap.2 ⟨B, hB, List.mem_map.2 ⟨x, hx, rfl⟩⟩)
          (by rw [he]; exact hb b List.mem_cons_self)
      · exact h.dep i hi
    · intro c hc
      rcases List.mem_cons.1 hc with rfl | hc
      · exact .affected _ (hb _ List.mem_cons_self)
      · exact h.inc c hc

private theorem only_found (f : VFun) (x : Nat × VInst) (hx : x ∈ vinsts f) (st : VSt) (h : OnlyMay f st)
    (hf : foundDep x.2 st = true) : MayDepend f x.2.id := by
  unfold foundDep at hf
  rw [Bool.or_eq_true] at hf
  rcases hf with hf | hf
  · obtain ⟨o, ho, hc⟩ := List.any_eq_true.1 hf
    cases o with
    | inst m => exact .operand m x hx ho (h.dep m (by simpa [checkDependency] using hc))
    | const u n =>
      have : u = true := hc
      subst this
      exact .uses x hx ⟨n, ho⟩
  · split at hf
    · rename_i bs hk
      unfold checkPhi at hf
      simp only at hf
      split at hf
      · cases hf
      · rename_i v vs hv
        obtain ⟨w, hw, hne⟩ := List.any_eq_true.1 hf
        have hne : w ≠ v := by simpa using hne
        have mem : ∀ u, u ∈ v :: vs → ∃ b, (b, u) ∈ bs.zip x.2.ops ∧ b ∈ st.included := by
          intro u hu
          rw [← hv] at hu
          obtain ⟨p, hp, rfl⟩ := List.mem_map.1 hu
          obtain ⟨h1, h2⟩ := List.mem_filter.1 hp
          exact ⟨p.1, h1, by simpa using h2⟩
        obtain ⟨b, h1, h2⟩ := mem v List.mem_cons_self
        obtain ⟨c, h3, h4⟩ := mem w (List.mem_cons_of_mem _ hw)
        exact .phi x bs b c v w hx hk h1 h3 hne.symm (h.inc b h2) (h.inc c h4)
    · cases hf

private theorem only_inst (f : VFun) (x : Nat × VInst) (hx : x ∈ vinsts f) (st : VSt) (h : OnlyMay f st) :
    OnlyMay f (depInst f x.1 x.2 st) := by
  unfold depInst
  split
  · rename_i hf
    have hm := only_found f x hx st h hf
    have h1 := only_add f x.2.id st h hm
    simp only
    split
    · rename_i hk
      exact only_all f _ _ h1 (fun b hb => .branch b x hx hk hm hb)
    · rename_i p hk
      exact only_add f p _ h1 (.pointer p x hx hk hm)
    · exact h1
  · exact h

/-- C85 (partial): only instructions that may depend on the variable are found. Missing with the other theorems: see
`C85_fails`. -/
theorem C85_only_partial (f : VFun) (i : Nat) (h : i ∈ (depPhase f).dep) : MayDepend f i := by
  have inner : ∀ (b : Nat) (is : List VInst) (st : VSt), (∀ x ∈ is, (b, x) ∈ vinsts f) → OnlyMay f st →
      OnlyMay f (is.foldl (fun st i => depInst f b i st) st) := by
    intro b is
    induction is with
    | nil => exact fun _ _ h => h
    | cons x is ih =>
      intro st hm h
      exact ih _ (fun y hy => hm y (List.mem_cons_of_mem _ hy)) (only_inst f (b, x) (hm x List.mem_cons_self) st h)
  have outer : ∀ (Bs : List (Nat × List VInst)) (st : VSt), (∀ B ∈ Bs, B ∈ f.blocks) → OnlyMay f st →
      OnlyMay f (Bs.foldl (fun st B =>
        if B.1 ∈ st.affected then st else B.2.foldl (fun st i => depInst f B.1 i st) st) st) := by
    intro Bs
    induction Bs with
    | nil => exact fun _ _ h => h
    | cons B Bs ih =>
      intro st hm h
      refine ih _ (fun C hC => hm C (List.mem_cons_of_mem _ hC)) ?_
      dsimp only
      split
      · exact h
      · exact inner B.1 B.2 st (fun x hx => List.mem_flatMap.2 ⟨B, hm B List.mem_cons_self, List.mem_map.2 ⟨x, hx, rfl⟩⟩) h
  exact (outer f.blocks ⟨[], [], []⟩ (fun _ h => h) ⟨fun _ h => (nomatch h), fun _ h => (nomatch h)⟩).dep i h

/-- `r = var ? 1 : 2`, and a phi with the same value twice. -/
example : (depPhase ⟨[(0, [⟨0, .branch, [.const true 0]⟩]), (1, [⟨1, .branch, []⟩]), (2, [⟨2, .branch, []⟩]),
    (3, [⟨3, .phi [1, 2], [.const false 1, .const false 2]⟩, ⟨4, .phi [1, 2], [.const false 1, .const false 1]⟩])],
    fun n => match n with | 0 => [1, 2] | 1 => [3] | 2 => [3] | _ => []⟩).dep = [3, 2, 1, 0] := by decide +kernel

/-! ### C52 -/

/-- C52: a function is reported as a user of a field of a variable exactly if it contains a use of the
variable whose constant indices agree with those of the field (functions with ".old" in their name
aside). -/
def C52_statement : Prop := ∀ (junk : Nat → Nat) (old : Nat → Bool) (indices : List Nat)
  (uses : List PUse) (f : Nat),
  f ∈ functionsUsingParam junk old indices uses ↔ old f = false ∧ ∃ u ∈ uses, UsesFieldIn indices f u

/-- An access to another field is reported. -/
theorem C52_fails : ¬ C52_statement := by
  intro h
  have h1 := (h (fun _ => 0) (fun _ => false) [0, 2] [.inst 7 (some [some 0, some 1])] 7).mp (by decide)
  obtain ⟨_, u, hu, hf⟩ := h1
  cases List.mem_singleton.mp hu
  exact absurd (hf.2 _ rfl 1 1 2 rfl rfl) (by decide)

/-- What is read behind the end of the list of indices may hide an access to the field. -/
theorem C52_fails_junk : ∃ (junk : Nat → Nat) (old : Nat → Bool) (indices : List Nat) (uses : List PUse)
    (f : Nat), f ∉ functionsUsingParam junk old indices uses ∧ old f = false ∧
      ∃ u ∈ uses, UsesFieldIn indices f u := by
  refine ⟨fun _ => 7, fun _ => false, [0], [.inst 7 (some [some 0, some 1])], 7, by decide, rfl, _,
    List.mem_singleton.mpr rfl, rfl, ?_⟩
  intro l hl k v w hv hw
  cases hl
  match k with
  | 0 => cases hv; cases hw; rfl
  | k + 1 => simp at hw

theorem gepIndices_short (junk : Nat → Nat) (gep : List (Option Nat)) (indices : List Nat)
    (h : gep.length ≤ indices.length) : gepIndicesCorrespond junk gep indices = true := by
  unfold gepIndicesCorrespond
  rw [List.all_eq_true]
  intro k hk
  have : k < gep.length := List.mem_range.mp hk
  rw [if_neg (by omega)]

/-- C52 (partial): when no use has more indices than the field, no user is missed; every reported
function does contain a use of the variable, but possibly of another field. -/
theorem C52_users_partial (junk : Nat → Nat) (old : Nat → Bool) (indices : List Nat)
    (uses : List PUse) (f : Nat) :
    (f ∈ functionsUsingParam junk old indices uses → old f = false ∧
      ∃ u ∈ uses, ∃ gep, u = .inst f gep ∨ ∃ fs, u = .expr fs gep ∧ f ∈ fs) ∧
    (ShortUses indices uses → old f = false → (∃ u ∈ uses, UsesFieldIn indices f u) →
      f ∈ functionsUsingParam junk old indices uses) := by
  constructor
  · intro h
    obtain ⟨u, hu, hf⟩ := List.mem_flatMap.mp h
    cases u with
    | inst g gep =>
      simp only at hf
      split at hf
      · rename_i hc
        have hc2 := ((Bool.and_eq_true _ _).mp hc).2
        cases List.mem_singleton.mp hf
        exact ⟨by simpa using hc2, _, hu, gep, .inl rfl⟩
      · exact absurd hf List.not_mem_nil
    | expr fs gep =>
      simp only at hf
      split at hf
      · obtain ⟨h1, h2⟩ := List.mem_filter.mp hf
        exact ⟨by simpa using h2, _, hu, gep, .inr ⟨fs, rfl, h1⟩⟩
      · exact absurd hf List.not_mem_nil
    | other => exact absurd hf List.not_mem_nil
  · rintro hs ho ⟨u, hu, hf⟩
    refine List.mem_flatMap.mpr ⟨u, hu, ?_⟩
    have hok : useOk junk indices (useIndices u) = true := by
      cases hg : useIndices u with
      | none => rfl
      | some l => simp [useOk, gepIndices_short junk l indices (hs u hu l hg)]
    cases u with
    | inst g gep =>
      obtain ⟨rfl, _⟩ := hf
      simp only
      rw [if_pos (by rw [Bool.and_eq_true]; exact ⟨hok, by rw [ho]; rfl⟩)]
      exact List.mem_singleton.mpr rfl
    | expr fs gep =>
      simp only
      rw [if_pos (show useOk junk indices gep = true from hok)]
      exact List.mem_filter.mpr ⟨hf.1, by rw [ho]; rfl⟩
    | other => exact absurd hf id

example : functionsUsingParam (fun _ => 0) (fun f => f == 9) [0, 2]
    [.inst 7 (some [some 0, some 2]), .expr [8, 9] none, .other] = [7, 8] ∧
    ShortUses [0, 2] [.inst 7 (some [some 0, some 2]), .expr [8, 9] none, .other] := by
  refine ⟨by decide, ?_⟩
  intro u hu l hl
  simp only [List.mem_cons, List.not_mem_nil, or_false] at hu
  rcases hu with rfl | rfl | rfl
  · cases hl; decide
  · cases hl
  · cases hl

/-! ### C86 -/

/-- C86: the variable reported for a parameter is its innermost variable, and nothing is reported when
there is none. -/
theorem C86_param : ∀ (v : PVal) (n : Str), n ≠ [] → (extractParamName v = n ↔ ParamVar v n)
  | .gvar name none, n, hn => by
    unfold extractParamName
    by_cases h : (hasPart (str! "__param_arr") name || hasPart (str! "__param_string") name) = true
    · rw [if_pos h]
      rw [Bool.or_eq_true, hasPart_iff, hasPart_iff] at h
      constructor
      · intro e; exact absurd e.symm hn
      · intro hp
        cases hp with
        | var _ _ h1 h2 => rcases h with h | h; exacts [absurd h h1, absurd h h2]
    · rw [if_neg h]
      rw [Bool.or_eq_true, hasPart_iff, hasPart_iff, not_or] at h
      constructor
      · rintro rfl; exact .var _ _ h.1 h.2
      · intro hp; cases hp; rfl
  | .gvar name (some v), n, hn => by
    unfold extractParamName
    by_cases h : (hasPart (str! "__param_arr") name || hasPart (str! "__param_string") name) = true
    · rw [if_pos h]
      rw [Bool.or_eq_true, hasPart_iff, hasPart_iff] at h
      simp only
      rw [C86_param v n hn]
      constructor
      · intro hp; exact .wrapper _ _ _ h hp
      · intro hp
        cases hp with
        | var _ _ h1 h2 => rcases h with h | h; exacts [absurd h h1, absurd h h2]
        | wrapper _ _ _ _ h' => exact h'
    · rw [if_neg h]
      rw [Bool.or_eq_true, hasPart_iff, hasPart_iff, not_or] at h
      constructor
      · rintro rfl; exact .var _ _ h.1 h.2
      · intro hp
        cases hp with
        | var => rfl
        | wrapper _ _ _ h1 _ => rcases h1 with h1 | h1; exacts [absurd h1 h.1, absurd h1 h.2]
  | .expr v, n, hn => by
    unfold extractParamName
    rw [C86_param v n hn]
    exact ⟨fun h => .expr _ _ h, fun h => by cases h; assumption⟩
  | .other, n, hn => by
    unfold extractParamName
    exact ⟨fun e => absurd e.symm hn, fun h => by cases h⟩

example : extractParamName (.gvar (str! "__param_arr_x") (some (.expr (.gvar (str! "x") none)))) =
    str! "x" := by decide

/-- C86: the variable found for a parameter is the innermost variable in the description of the parameter, and none is found if
there is no such variable. -/
theorem C86_find (globals : List (Str × Option (List PElem))) (hu : (globals.map Prod.fst).Nodup) (param n : Str) (hn : n ≠ []) :
    findParamVar globals param = n ↔ ∃ v, ParamDescribed globals param v ∧ ParamVar v n := by
  have huniq : ∀ g ∈ globals, ∀ g' ∈ globals, g.1 = g'.1 → g = g' := fun g hg g' hg' he =>
    List.inj_on_of_nodup_map hu hg hg' he
  unfold findParamVar
  cases hf : globals.find? fun g => decide (g.1 = str! "__param_" ++ param) with
  | none =>
    refine ⟨fun h => absurd h.symm hn, ?_⟩
    rintro ⟨v, ⟨b, hb⟩, _⟩
    have := List.find?_eq_none.1 hf _ hb
    simp at this
  | some g =>
    have hg := List.mem_of_find?_eq_some hf
    have hk : g.1 = str! "__param_" ++ param := by simpa using List.find?_some hf
    have hdesc : ∀ v, ParamDescribed globals param v ↔ ∃ b, g.2 = some (b ++ [PElem.struct [v]]) := by
      intro v
      constructor
      · rintro ⟨b, hb⟩
        have := huniq g hg _ hb hk
        exact ⟨b, by rw [this]⟩
      · rintro ⟨b, hb⟩
        refine ⟨b, ?_⟩
        rw [← hk, ← hb]
        exact hg
    obtain ⟨k, i⟩ := g
    cases i with
    | none =>
      refine ⟨fun h => absurd h.symm hn, ?_⟩
      rintro ⟨v, hd, _⟩
      obtain ⟨b, hb⟩ := (hdesc v).1 hd
      cases hb
    | some elems =>
      simp only
      split
      · rename_i v hl
        rw [C86_param v n hn]
        obtain ⟨b, rfl⟩ := List.getLast?_eq_some_iff.1 hl
        constructor
        · exact fun h => ⟨v, (hdesc v).2 ⟨b, rfl⟩, h⟩
        · rintro ⟨w, hd, hw⟩
          obtain ⟨b', hb⟩ := (hdesc w).1 hd
          have hb := congrArg List.getLast? (Option.some.inj hb)
          simp only [List.getLast?_concat, Option.some.injEq, PElem.struct.injEq, List.cons.injEq, and_true] at hb
          rw [hb]
          exact hw
      · rename_i hl
        refine ⟨fun h => absurd h.symm hn, ?_⟩
        rintro ⟨v, hd, _⟩
        obtain ⟨b, hb⟩ := (hdesc v).1 hd
        exact absurd (by rw [Option.some.inj hb]; exact List.getLast?_concat) (hl v)

/-- The parameter `default_state` whose variable has another name. -/
example : findParamVar [(str! "x", none), (str! "__param_default_state",
    some [.val .other, .struct [.expr (.gvar (str! "rfkill_default_state") none)]])] (str! "default_state") =
      str! "rfkill_default_state" ∧
    findParamVar [(str! "__param_s", some [.struct [.gvar (str! "a") none], .val .other])] (str! "s") = [] := by decide

end DK
