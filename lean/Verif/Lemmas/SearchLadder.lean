import Verif.Lemmas.Search

/-! The search succeeds when file information is present; the ladder graphs. -/

set_option autoImplicit false

namespace DK

theorem searchEdges_ok {h : Heap} {g : Graph} {side : Side} {orig : Option Str} {c : Vid}
    (hf : ∀ v ∈ g.vertices.values, (h v).files side ≠ none) :
    ∀ (es : List Edge) (st : Search), ∃ st', searchEdges h g side orig c es st = .ok st' ∧
      ∃ rs, st'.result = st.result ++ rs := by
  intro es
  induction es with
  | nil => intro st; exact ⟨st, rfl, [], by simp⟩
  | cons e es ih =>
    intro st
    unfold searchEdges
    split
    · exact ih st
    · rename_i t ht
      split
      · exact ih st
      · have := hf t (Dict.get?_mem_values ht)
        obtain ⟨f, hff⟩ := Option.ne_none_iff_exists'.1 this
        simp only [crossesBoundary, hff]
        split
        · rename_i heq; cases heq
        · exact ih st
        · obtain ⟨st', h1, rs, h2⟩ := ih { st with
              queue := st.queue ++ [t]
              bt := if st.bt.contains t then st.bt else st.bt.set t (c, e)
              result := if e.weak then st.result else st.result ++ [t] }
          refine ⟨st', h1, ?_⟩
          cases hw : e.weak with
          | true => exact ⟨rs, by simpa [hw] using h2⟩
          | false => exact ⟨t :: rs, by simpa [hw] using h2⟩

theorem searchLoop_ok {h : Heap} {g : Graph} {side : Side} {orig : Option Str}
    (hf : ∀ v ∈ g.vertices.values, (h v).files side ≠ none) (st : Search) :
    ∃ st', searchLoop h g side orig st = .ok st' ∧ ∃ rs, st'.result = st.result ++ rs := by
  induction st using searchLoop.induct h g side orig with
  | case1 st x hx =>
    exfalso
    unfold searchStep at hx
    split at hx
    · cases hx
    · rename_i c q hq
      obtain ⟨st', h1, _⟩ := searchEdges_ok (orig := orig) (c := c) hf ((h c).succs side)
        { st with queue := q, visited := c :: st.visited }
      rw [h1] at hx
      cases hx
  | case2 st hx =>
    refine ⟨st, ?_, [], by simp⟩
    rw [searchLoop]
    split <;> simp_all
  | case3 st st2 hx ih =>
    obtain ⟨st', h1, rs, h2⟩ := ih
    have hr : ∃ rs, st2.result = st.result ++ rs := by
      unfold searchStep at hx
      split at hx
      · cases hx
      · rename_i c q hq
        obtain ⟨st4, h5, rs4, h6⟩ := searchEdges_ok (orig := orig) (c := c) hf ((h c).succs side)
          { st with queue := q, visited := c :: st.visited }
        rw [h5] at hx
        simp only [Except.ok.injEq, Option.some.injEq] at hx
        rw [← hx]
        exact ⟨rs4, h6⟩
    obtain ⟨rs', h3⟩ := hr
    refine ⟨st', ?_, rs' ++ rs, by rw [h2, h3]; simp⟩
    rw [searchLoop]
    split
    · simp_all
    · simp_all
    · rename_i st3 h4
      rw [hx] at h4
      injection h4 with h4
      injection h4 with h4
      subst h4
      exact h1

theorem searchLoop_step {h : Heap} {g : Graph} {side : Side} {orig : Option Str} {st st' : Search}
    (hx : searchStep h g side orig st = .ok (some st')) :
    searchLoop h g side orig st = searchLoop h g side orig st' := by
  conv => lhs; rw [searchLoop]
  split
  · simp_all
  · simp_all
  · rename_i st3 h4
    rw [hx] at h4
    injection h4 with h4
    injection h4 with h4
    subst h4
    rfl

namespace Ladder

def name (i : Nat) : Str := List.replicate i 'a'

def edge (i : Nat) : Edge := ⟨name i, str! "a.h", 1, false⟩

/-- The level of a function: 0 for the start function, then two functions per level. -/
def level (v : Vid) : Nat := (v + 1) / 2

/-- Every function calls the two functions of the next level. -/
def heap : Heap := fun v =>
  { names := fun _ => name v, result := .equal, files := fun _ => some (str! "a.h")
    succs := fun _ => [edge (2 * level v + 1), edge (2 * level v + 2)] }

/-- The start function 0 and two functions on each of the levels 1..n. -/
def graph (n : Nat) : Graph := { vertices := (List.range (2 * n + 1)).map (fun i => (name i, i)) }

theorem keys_nodup (n : Nat) : (graph n).vertices.keys.Nodup := by
  have : (graph n).vertices.keys = (List.range (2 * n + 1)).map name := by
    simp [graph, Dict.keys, Function.comp_def]
  rw [this]
  refine List.Nodup.map ?_ List.nodup_range
  intro a b hab
  have := congrArg List.length hab
  simpa [name] using this

theorem get_name {n i : Nat} (hi : i < 2 * n + 1) : (graph n).vertices.get? (name i) = some i :=
  Dict.mem_get? (keys_nodup n) (List.mem_map.2 ⟨i, List.mem_range.2 hi, rfl⟩)

theorem files_ok (n : Nat) : ∀ v ∈ (graph n).vertices.values, (heap v).files .left ≠ none := by
  intro v _; simp [heap]

/-- Processing one function of level `k < n`. -/
theorem step {n k : Nat} (hk : k < n) {c : Vid} (hc : level c = k) {q : List Vid} {st : Search}
    (hq : st.queue = c :: q) (hv : ∀ v ∈ st.visited, level v ≤ k) :
    ∃ st', searchStep heap (graph n) .left (some (str! "a.h")) st = .ok (some st') ∧
      st'.queue = q ++ [2 * k + 1, 2 * k + 2] ∧
      (∀ v ∈ st'.visited, level v ≤ k) ∧
      st'.result.length = st.result.length + 2 := by
  have g1 : (graph n).vertices.get? (name (2 * k + 1)) = some (2 * k + 1) := get_name (by omega)
  have g2 : (graph n).vertices.get? (name (2 * k + 2)) = some (2 * k + 2) := get_name (by omega)
  have l1 : level (2 * k + 1) = k + 1 := by simp only [level]; omega
  have l2 : level (2 * k + 2) = k + 1 := by simp only [level]; omega
  have hv' : ∀ v ∈ c :: st.visited, level v ≤ k := by
    intro v hv1
    rcases List.mem_cons.1 hv1 with rfl | hv1
    · omega
    · exact hv v hv1
  have n1 : (2 * k + 1) ∉ c :: st.visited := fun hm => by have := hv' _ hm; omega
  have n2 : (2 * k + 2) ∉ c :: st.visited := fun hm => by have := hv' _ hm; omega
  have hb : ∀ t, crossesBoundary heap .left (some (str! "a.h")) t = .ok false := by
    intro t; rfl
  have hsucc : (heap c).succs .left = [edge (2 * k + 1), edge (2 * k + 2)] := by
    simp [heap, hc]
  simp only [searchStep, hq, hsucc, searchEdges, edge, g1, g2, if_neg n1, if_neg n2, hb]
  refine ⟨_, rfl, ?_, ?_, ?_⟩
  · simp
  · exact hv'
  · simp

/-- Processing all queue entries of level `k < n`. -/
theorem phase {n k : Nat} (hk : k < n) : ∀ (xs : List Vid) (ys : List Vid) (st : Search),
    (∀ x ∈ xs, level x = k) → (∀ y ∈ ys, level y = k + 1) → st.queue = xs ++ ys →
    (∀ v ∈ st.visited, level v ≤ k) →
    ∃ st', searchLoop heap (graph n) .left (some (str! "a.h")) st =
        searchLoop heap (graph n) .left (some (str! "a.h")) st' ∧
      st'.queue.length = ys.length + 2 * xs.length ∧ (∀ y ∈ st'.queue, level y = k + 1) ∧
      (∀ v ∈ st'.visited, level v ≤ k) ∧
      st'.result.length = st.result.length + 2 * xs.length := by
  intro xs
  induction xs with
  | nil =>
    intro ys st _ hy hq hv
    exact ⟨st, rfl, by simp [hq], by simpa [hq] using hy, hv, by simp⟩
  | cons x xs ih =>
    intro ys st hx hy hq hv
    obtain ⟨st1, h1, h2, h3, h4⟩ := step hk (hx x (by simp)) (q := xs ++ ys) (by simpa using hq) hv
    have l1 : level (2 * k + 1) = k + 1 := by simp only [level]; omega
    have l2 : level (2 * k + 2) = k + 1 := by simp only [level]; omega
    obtain ⟨st2, b1, b2, b3, b4, b5⟩ := ih (ys ++ [2 * k + 1, 2 * k + 2]) st1
      (fun y hy' => hx y (by simp [hy']))
      (by
        intro y hy'
        rcases List.mem_append.1 hy' with h | h
        · exact hy y h
        · rcases List.mem_cons.1 h with rfl | h
          · exact l1
          · rcases List.mem_cons.1 h with rfl | h
            · exact l2
            · cases h)
      (by rw [h2]; simp) h3
    refine ⟨st2, by rw [searchLoop_step h1, b1], ?_, b3, b4, ?_⟩
    · rw [b2]; simp; omega
    · rw [b5, h4]; simp; omega

theorem levels (n : Nat) : ∀ k, k ≤ n → ∃ st',
    searchLoop heap (graph n) .left (some (str! "a.h")) { visited := [], queue := [0], result := [0], bt := [] } =
      searchLoop heap (graph n) .left (some (str! "a.h")) st' ∧
      st'.queue.length = 2 ^ k ∧ (∀ y ∈ st'.queue, level y = k) ∧ (∀ v ∈ st'.visited, level v ≤ k) ∧
      2 ^ k ≤ st'.result.length := by
  intro k
  induction k with
  | zero =>
    intro _
    exact ⟨_, rfl, by simp, by simp [level], by simp, by simp⟩
  | succ k ih =>
    intro hk
    obtain ⟨st1, h1, h2, h3, h4, h5⟩ := ih (by omega)
    obtain ⟨st2, b1, b2, b3, b4, b5⟩ := phase (n := n) (k := k) (by omega) st1.queue [] st1 h3 (by simp) (by simp) h4
    refine ⟨st2, by rw [h1, b1], ?_, b3, fun v hv => by have := b4 v hv; omega, ?_⟩
    · rw [b2, h2]; simp [Nat.pow_succ]; omega
    · rw [b5, h2, Nat.pow_succ]; omega

end Ladder
end DK
