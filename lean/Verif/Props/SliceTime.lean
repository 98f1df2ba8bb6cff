import Verif.Props.SliceStores

/-! The time of the search for stores in slicing: C204. -/

set_option autoImplicit false

namespace DK
open Spec

/-- **C204** (false) The search for the stores to a local variable looks at no more instructions than the function has. -/
def C204_statement : Prop :=
  ∀ (g : AccFun) (start : Nat → Nat) (use p : Nat), AccOk g start → g.insts.Nodup → p ∈ g.insts → g.ends p = false →
    (g.walk [start p] [use, p]).length ≤ g.insts.length

namespace SliceTimeEx

/-- The allocation of a variable and `k` statements `if (c) ; else ;` one after another, then the end: the allocation is 0, the branches
of the statement `i` are `3 * i + 1`, `3 * i + 2` and `3 * i + 3`. -/
def branches (k : Nat) : AccFun where
  insts := List.range (3 * k + 2)
  flow := fun i =>
    if i = 0 then [1] else if 3 * k + 1 ≤ i then [] else
    if i % 3 = 1 then [i + 1, i + 2] else if i % 3 = 2 then [i + 2] else [i + 1]
  ends := fun i => decide (i = 3 * k + 1)
  touches := fun _ _ => false
  derives := fun _ _ => false

end SliceTimeEx

/-- A whole level of the worklist, none of whose next instructions was visited. -/
private theorem walk_level (g : AccFun) (w rest v : List Nat) (hw : ∀ c ∈ w, c ∈ g.insts)
    (hn : ∀ c ∈ w, ∀ n ∈ g.next c, n ∈ g.insts ∧ n ∉ v ∧ n ∉ w) :
    g.walk (w ++ rest) v = w ++ g.walk (rest ++ w.flatMap g.next) (w.reverse ++ v) := by
  induction w generalizing rest v with
  | nil => simp
  | cons c w ih =>
    have hc := hn c List.mem_cons_self
    have hf : ((g.next c).filter fun n => decide (n ∉ v ∧ n ∈ g.insts)) = g.next c := by
      rw [List.filter_eq_self]
      intro n hm
      rw [decide_eq_true_eq]
      exact ⟨(hc n hm).2.1, (hc n hm).1⟩
    rw [List.cons_append, AccFun.walk, if_pos (hw c List.mem_cons_self), hf, List.append_assoc,
      ih (rest ++ g.next c) (c :: v) (fun x hx => hw x (List.mem_cons_of_mem _ hx))]
    · simp [List.append_assoc]
    · intro x hx n hnx
      obtain ⟨h1, h2, h3⟩ := hn x (List.mem_cons_of_mem _ hx) n hnx
      rw [List.mem_cons, not_or] at h3
      exact ⟨h1, fun hm => (List.mem_cons.1 hm).elim h3.1 h2, h3.2⟩

private theorem branches_next (k i : Nat) (h0 : i ≠ 0) (hk : i < 3 * k + 1) :
    (SliceTimeEx.branches k).next i = if i % 3 = 1 then [i + 1, i + 2] else if i % 3 = 2 then [i + 2] else [i + 1] := by
  have he : (SliceTimeEx.branches k).ends i = false := by
    show decide (i = 3 * k + 1) = false
    rw [decide_eq_false_iff_not]
    omega
  unfold AccFun.next
  rw [he]
  show (if i = 0 then [1] else if 3 * k + 1 ≤ i then [] else _) = _
  rw [if_neg h0, if_neg (by omega)]

/-- The number of visits doubles with every statement. -/
private theorem branches_walk (k j : Nat) (hj : j ≤ k) (w v : List Nat) (hw : ∀ c ∈ w, c = 3 * j + 1)
    (hv : ∀ c ∈ v, c < 3 * j + 1 ∨ 3 * k + 1 < c) :
    w.length * 2 ^ (k - j) ≤ ((SliceTimeEx.branches k).walk w v).length := by
  have hin : ∀ i, i < 3 * k + 2 → i ∈ (SliceTimeEx.branches k).insts := fun i hi => List.mem_range.2 hi
  induction hd : k - j generalizing j w v with
  | zero =>
    have hjk : j = k := by omega
    subst hjk
    have hn : ∀ c ∈ w, (SliceTimeEx.branches j).next c = [] := by
      intro c hc
      have he : (SliceTimeEx.branches j).ends c = true := by
        show decide (c = 3 * j + 1) = true
        rw [decide_eq_true_eq]
        exact hw c hc
      unfold AccFun.next
      rw [he]
      rfl
    have := walk_level (SliceTimeEx.branches j) w [] v (fun c hc => hin c (by have := hw c hc; omega))
      (fun c hc n hm => by rw [hn c hc] at hm; cases hm)
    rw [List.append_nil] at this
    rw [this, List.length_append]
    simp
  | succ d ih =>
    have hlt : j < k := by omega
    have n1 : ∀ c ∈ w, (SliceTimeEx.branches k).next c = [3 * j + 2, 3 * j + 3] := by
      intro c hc
      have := hw c hc
      subst this
      rw [branches_next k _ (by omega) (by omega), if_pos (by omega)]
    have l1 := walk_level (SliceTimeEx.branches k) w [] v (fun c hc => hin c (by have := hw c hc; omega))
      (fun c hc n hm => by
        rw [n1 c hc] at hm
        simp only [List.mem_cons, List.not_mem_nil, or_false] at hm
        refine ⟨hin n (by omega), fun h => ?_, fun h => ?_⟩
        · have := hv n h; omega
        · have := hw n h; omega)
    rw [List.append_nil, List.nil_append] at l1
    have m2 : ∀ c ∈ w.flatMap (SliceTimeEx.branches k).next, c = 3 * j + 2 ∨ c = 3 * j + 3 := by
      intro c hc
      obtain ⟨x, hx, hm⟩ := List.mem_flatMap.1 hc
      rw [n1 x hx] at hm
      simpa using hm
    have len2 : (w.flatMap (SliceTimeEx.branches k).next).length = 2 * w.length := by
      clear l1 m2 hw
      induction w with
      | nil => rfl
      | cons x w ihw =>
        rw [List.flatMap_cons, List.length_append, n1 x List.mem_cons_self,
          ihw (fun c hc => n1 c (List.mem_cons_of_mem _ hc)), List.length_cons]
        simp only [List.length_cons, List.length_nil]
        omega
    have v2 : ∀ c ∈ w.reverse ++ v, c < 3 * j + 2 ∨ 3 * k + 1 < c := by
      intro c hc
      rcases List.mem_append.1 hc with hc | hc
      · have := hw c (List.mem_reverse.1 hc); omega
      · have := hv c hc; omega
    generalize w.flatMap (SliceTimeEx.branches k).next = w2 at *
    generalize w.reverse ++ v = v' at *
    have n2 : ∀ c ∈ w2, (SliceTimeEx.branches k).next c = [3 * (j + 1) + 1] := by
      intro c hc
      rcases m2 c hc with h | h
      · subst h
        rw [branches_next k _ (by omega) (by omega), if_neg (by omega), if_pos (by omega)]
        exact congrArg (fun x => [x]) (by omega)
      · subst h
        rw [branches_next k _ (by omega) (by omega), if_neg (by omega), if_neg (by omega)]
        exact congrArg (fun x => [x]) (by omega)
    have l2 := walk_level (SliceTimeEx.branches k) w2 [] v' (fun c hc => hin c (by have := m2 c hc; omega))
      (fun c hc n hm => by
        rw [n2 c hc, List.mem_singleton] at hm
        refine ⟨hin n (by omega), fun h => ?_, fun h => ?_⟩
        · have := v2 n h; omega
        · have := m2 n h; omega)
    rw [List.append_nil, List.nil_append] at l2
    have m3 : ∀ c ∈ w2.flatMap (SliceTimeEx.branches k).next, c = 3 * (j + 1) + 1 := by
      intro c hc
      obtain ⟨x, hx, hm⟩ := List.mem_flatMap.1 hc
      rw [n2 x hx] at hm
      simpa using hm
    have len3 : (w2.flatMap (SliceTimeEx.branches k).next).length = w2.length := by
      clear l1 l2 m2 m3 len2
      induction w2 with
      | nil => rfl
      | cons x w ihw =>
        rw [List.flatMap_cons, List.length_append, n2 x List.mem_cons_self,
          ihw (fun c hc => n2 c (List.mem_cons_of_mem _ hc)), List.length_cons]
        simp only [List.length_cons, List.length_nil]
        omega
    have v3 : ∀ c ∈ w2.reverse ++ v', c < 3 * (j + 1) + 1 ∨ 3 * k + 1 < c := by
      intro c hc
      rcases List.mem_append.1 hc with hc | hc
      · have := m2 c (List.mem_reverse.1 hc); omega
      · have := v2 c hc; omega
    have := ih (j + 1) (by omega) _ _ m3 v3 (by omega)
    rw [l1, List.length_append, l2, List.length_append]
    rw [len3, len2] at this
    have e : w.length * 2 ^ (d + 1) = 2 * w.length * 2 ^ d := by
      rw [Nat.pow_succ, Nat.mul_comm (2 ^ d) 2, ← Nat.mul_assoc, Nat.mul_comm w.length 2]
    rw [e]
    omega

private theorem branches_ok (k : Nat) : AccOk (SliceTimeEx.branches k) (fun i => if i = 0 then 1 else i) := by
  refine ⟨?_, ?_, ?_⟩
  · intro i hi j hj
    have hi : i < 3 * k + 2 := List.mem_range.1 hi
    refine List.mem_range.2 ?_
    have hj : j ∈ (if i = 0 then [1] else if 3 * k + 1 ≤ i then [] else
      if i % 3 = 1 then [i + 1, i + 2] else if i % 3 = 2 then [i + 2] else [i + 1]) := hj
    split at hj
    · simp at hj; omega
    · split at hj
      · cases hj
      · split at hj
        · simp at hj; omega
        · split at hj
          · simp at hj; omega
          · simp at hj; omega
  · intro i hi _
    have hi : i < 3 * k + 2 := List.mem_range.1 hi
    refine List.mem_range.2 ?_
    split <;> omega
  · intro p i h
    rcases h with h | h <;> cases h

/-- For `k` statements with branches one after another, `2 ^ k` instructions are looked at, although the function has `3 * k + 2`
instructions. -/
theorem C204_exponential (k : Nat) :
    (SliceTimeEx.branches k).insts.length = 3 * k + 2 ∧
    2 ^ k ≤ ((SliceTimeEx.branches k).walk [1] [3 * k + 2, 0]).length := by
  refine ⟨List.length_range, ?_⟩
  have := branches_walk k 0 (Nat.zero_le _) [1] [3 * k + 2, 0] (by simp) (by
    intro c hc
    simp at hc
    omega)
  simpa using this

/-- Five such statements are enough. -/
theorem C204_fails : ¬ C204_statement := by
  intro h
  obtain ⟨h1, h2⟩ := C204_exponential 5
  have := h (SliceTimeEx.branches 5) (fun i => if i = 0 then 1 else i) 17 0 (branches_ok 5) List.nodup_range (by decide) (by decide)
  have h3 : ((SliceTimeEx.branches 5).walk [1] [17, 0]).length ≤ (SliceTimeEx.branches 5).insts.length := this
  rw [h1] at h3
  have h4 : 2 ^ 5 ≤ ((SliceTimeEx.branches 5).walk [1] [17, 0]).length := h2
  omega

/-- **C204 (partial)** If no instruction comes after two different ones, every instruction is looked at at most once. Missing: functions in
which ways meet. -/
theorem C204_once_partial (g : AccFun) (start : Nat → Nat) (use p : Nat)
    (hone : ∀ x a b, x ∈ g.flow a → x ∈ g.flow b → a = b) (hnd : ∀ a, (g.flow a).Nodup) (hp : g.flow p = [start p])
    (hu : start p ≠ use) (hpp : start p ≠ p) :
    (g.walk [start p] [use, p]).Nodup ∧ (g.walk [start p] [use, p]).length ≤ g.insts.length := by
  have hnext : ∀ a x, x ∈ g.next a → x ∈ g.flow a := by
    intro a x hx
    unfold AccFun.next at hx
    split at hx
    · cases hx
    · exact hx
  have hnn : ∀ a, (g.next a).Nodup := by
    intro a
    unfold AccFun.next
    split
    · exact List.nodup_nil
    · exact hnd a
  have key : ∀ w v : List Nat, w.Nodup → (∀ x ∈ w, x ∉ v) → (∀ x ∈ w, ∃ c ∈ v, x ∈ g.flow c) →
      (g.walk w v).Nodup ∧ (∀ x ∈ g.walk w v, x ∉ v ∧ x ∈ g.insts) := by
    intro w v
    induction w, v using AccFun.walk.induct g with
    | case1 v =>
      intro _ _ _
      rw [AccFun.walk]
      exact ⟨List.nodup_nil, fun _ h => nomatch h⟩
    | case2 v c w hc ih =>
      intro h1 h2 h3
      rw [AccFun.walk, if_pos hc]
      obtain ⟨hcw, hw⟩ := List.nodup_cons.1 h1
      have hcv := h2 c List.mem_cons_self
      have fresh : ∀ x ∈ g.next c, x ∉ w ∧ x ≠ c := by
        intro x hx
        refine ⟨fun hxw => ?_, fun hxc => ?_⟩
        · obtain ⟨c', hc', hx'⟩ := h3 x (List.mem_cons_of_mem _ hxw)
          exact hcv (hone x c c' (hnext c x hx) hx' ▸ hc')
        · subst hxc
          obtain ⟨c', hc', hx'⟩ := h3 x List.mem_cons_self
          exact hcv (hone x x c' (hnext x x hx) hx' ▸ hc')
      obtain ⟨i1, i2⟩ := ih (List.nodup_append.2 ⟨hw, (hnn c).filter _, fun a ha b hb hab => by
          subst hab
          exact (fresh a (List.mem_filter.1 hb).1).1 ha⟩)
        (by
          intro x hx hm
          rcases List.mem_append.1 hx with hx | hx
          · rcases List.mem_cons.1 hm with e | hm
            · exact hcw (e ▸ hx)
            · exact h2 x (List.mem_cons_of_mem _ hx) hm
          · have hf := List.mem_filter.1 hx
            rcases List.mem_cons.1 hm with e | hm
            · exact (fresh _ hf.1).2 e
            · have := hf.2
              rw [decide_eq_true_eq] at this
              exact this.1 hm)
        (by
          intro x hx
          rcases List.mem_append.1 hx with hx | hx
          · obtain ⟨c', hc', h⟩ := h3 x (List.mem_cons_of_mem _ hx)
            exact ⟨c', List.mem_cons_of_mem _ hc', h⟩
          · exact ⟨c, List.mem_cons_self, hnext c x (List.mem_filter.1 hx).1⟩)
      refine ⟨List.nodup_cons.2 ⟨fun hm => (i2 c hm).1 List.mem_cons_self, i1⟩, ?_⟩
      intro x hx
      rcases List.mem_cons.1 hx with rfl | hx
      · exact ⟨hcv, hc⟩
      · exact ⟨fun hm => (i2 x hx).1 (List.mem_cons_of_mem _ hm), (i2 x hx).2⟩
    | case3 v c w hc ih =>
      intro h1 h2 h3
      rw [AccFun.walk, if_neg hc]
      exact ih (List.nodup_cons.1 h1).2 (fun x hx => h2 x (List.mem_cons_of_mem _ hx))
        (fun x hx => h3 x (List.mem_cons_of_mem _ hx))
  obtain ⟨k1, k2⟩ := key [start p] [use, p] (List.nodup_singleton _) (by simp [hu, hpp]) (by
    intro x hx
    rw [List.mem_singleton] at hx
    exact ⟨p, by simp, by rw [hp, hx]; exact List.mem_cons_self⟩)
  exact ⟨k1, (k1.subperm fun x hx => (k2 x hx).2).length_le⟩

/-- A straight function: the allocation, two instructions and the use. -/
def SliceTimeEx.straight : AccFun where
  insts := [0, 1, 2, 3]
  flow := fun i => if i < 3 then [i + 1] else []
  ends := fun i => decide (i = 3)
  touches := fun _ _ => false
  derives := fun _ _ => false

example : SliceTimeEx.straight.walk [1] [3, 0] = [1, 2] := by
  simp [SliceTimeEx.straight, AccFun.walk, AccFun.next]

example : (SliceTimeEx.straight.walk [1] [3, 0]).Nodup :=
  (C204_once_partial SliceTimeEx.straight (· + 1) 3 0
    (by
      intro x a b ha hb
      simp only [SliceTimeEx.straight] at ha hb
      split at ha <;> split at hb <;> simp_all)
    (by
      intro a
      simp only [SliceTimeEx.straight]
      split <;> simp)
    (by simp [SliceTimeEx.straight]) (by decide) (by decide)).1

end DK
