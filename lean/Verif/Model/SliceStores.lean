import Mathlib.Data.List.Basic

/-! The search for stores to local variables in slicing, passes/VarDependencySlicer.cpp 596-663. -/

set_option autoImplicit false

namespace DK

/-- The instructions of a function: `flow`: the instructions that may be executed next; `ends`: the instruction is the end of its
block, but no branch (a switch, for instance). `touches i p`: `i` is a store to `p` or a call with the operand `p`. `derives i p`:
`i` is a cast of `p` or a pointer into it. -/
structure AccFun where
  insts : List Nat
  flow : Nat → List Nat
  ends : Nat → Bool
  touches : Nat → Nat → Bool
  derives : Nat → Nat → Bool

/-- The instructions that come next for the search, VarDependencySlicer.cpp 645-652: successors of branches only. -/
def AccFun.next (g : AccFun) (i : Nat) : List Nat := if g.ends i then [] else g.flow i

/-- How many instructions are not visited. -/
def AccFun.left (g : AccFun) (v : List Nat) : Nat := (g.insts.filter fun i => decide (i ∉ v)).length

theorem AccFun.left_cons (g : AccFun) (v : List Nat) (c : Nat) (hc : c ∈ g.insts) (hv : c ∉ v) :
    g.left (c :: v) < g.left v := by
  unfold AccFun.left
  generalize g.insts = u at hc
  induction u with
  | nil => cases hc
  | cons x u ih =>
    have hle : (u.filter fun i => decide (i ∉ c :: v)).length ≤ (u.filter fun i => decide (i ∉ v)).length := by
      refine (List.monotone_filter_right u fun i hi => ?_).length_le
      rw [decide_eq_true_eq] at hi ⊢
      exact fun hm => hi (List.mem_cons_of_mem _ hm)
    by_cases hx : x = c
    · subst hx
      rw [List.filter_cons_of_neg (by simp), List.filter_cons_of_pos (by simpa using hv)]
      exact Nat.lt_succ_of_le hle
    · have := ih ((List.mem_cons.1 hc).resolve_left fun h => hx h.symm)
      by_cases hxi : x ∈ v
      · rw [List.filter_cons_of_neg (by simp [hxi]), List.filter_cons_of_neg (by simp [hxi])]
        exact this
      · rw [List.filter_cons_of_pos (by simp [hxi, hx]), List.filter_cons_of_pos (by simp [hxi])]
        exact Nat.succ_lt_succ this

/-- The loop over the worklist, VarDependencySlicer.cpp 612-660: the instructions that are looked at, in order. Instructions are
marked as visited after they were looked at, so that some are looked at more than once. -/
def AccFun.walk (g : AccFun) (w v : List Nat) : List Nat :=
  match w with
  | [] => []
  | c :: w =>
    if c ∈ g.insts then
      c :: AccFun.walk g (w ++ (g.next c).filter fun n => decide (n ∉ v ∧ n ∈ g.insts)) (c :: v)
    else AccFun.walk g w v
termination_by (g.left v, (w.filter fun i => decide (i ∈ v ∨ i ∉ g.insts)).length)
decreasing_by
  · rename_i hc
    by_cases hv : c ∈ v
    · have h1 : g.left (c :: v) = g.left v := by
        unfold AccFun.left
        congr 1
        refine List.filter_congr fun i _ => ?_
        have : i ∈ c :: v ↔ i ∈ v := ⟨fun h => (List.mem_cons.1 h).elim (fun e => e ▸ hv) id, List.mem_cons_of_mem _⟩
        simp only [this]
      rw [h1]
      apply Prod.Lex.right
      have h2 : (fun i => decide (i ∈ c :: v ∨ i ∉ g.insts)) = fun i => decide (i ∈ v ∨ i ∉ g.insts) := by
        funext i
        have : i ∈ c :: v ↔ i ∈ v := ⟨fun h => (List.mem_cons.1 h).elim (fun e => e ▸ hv) id, List.mem_cons_of_mem _⟩
        simp only [this]
      rw [h2, List.filter_append, List.filter_cons_of_pos (by simp [hv])]
      have h3 : ((g.next c).filter fun n => decide (n ∉ v ∧ n ∈ g.insts)).filter (fun i => decide (i ∈ v ∨ i ∉ g.insts)) = [] := by
        rw [List.filter_eq_nil_iff]
        intro x hx
        have := (List.mem_filter.1 hx).2
        rw [decide_eq_true_eq] at this
        simp [this.1, this.2]
      rw [h3]
      simp
    · exact Prod.Lex.left _ _ (g.left_cons v c hc hv)
  · rename_i hc
    apply Prod.Lex.right
    rw [List.filter_cons_of_pos (by simp [hc])]
    simp

/-- `addStoresToIncluded`, VarDependencySlicer.cpp 604-663: the stores and calls that are found for the pointer `p` and its user
`use`. `start`: the instruction after another one in its block. The number bounds the depth of the recursion for pointers derived
from pointers. -/
def AccFun.findStores (g : AccFun) (start : Nat → Nat) (use : Nat) : Nat → Nat → Option (List Nat)
  | 0, _ => none
  | d + 1, p =>
    (g.walk [start p] [use, p]).foldlM (fun acc i =>
      let own := if g.touches i p then [i] else []
      if g.derives i p then (AccFun.findStores g start use d i).map fun l => acc ++ own ++ l else some (acc ++ own)) []

end DK
