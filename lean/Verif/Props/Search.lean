import Verif.Lemmas.SearchLadder

/-! C04-C07: the dependency search and the call stacks. -/

set_option autoImplicit false

namespace DK
open Spec

/-! ### A concrete graph used in the examples

`main` (0, a.c) calls `f` (1, x.h), `g` (2, a.c) and `other` (3, b.c, beyond the boundary) and an unknown function;
`f` calls `g` and `main` (cycle); `g` calls `f` weakly. -/
namespace SearchEx

def name : Vid → Str
  | 0 => str! "main" | 1 => str! "f" | 2 => str! "g" | _ => str! "other"

def edge (t : Str) (weak : Bool) : Edge := ⟨t, str! "a.c", 1, weak⟩

def heap : Heap
  | 0 => { names := fun _ => name 0, result := .equal, files := fun _ => some (str! "a.c")
           succs := fun _ => [edge (str! "f") false, edge (str! "g") false, edge (str! "other") false,
                              edge (str! "nowhere") false] }
  | 1 => { names := fun _ => name 1, result := .notEqual, files := fun _ => some (str! "x.h")
           succs := fun _ => [edge (str! "g") false, edge (str! "main") false] }
  | 2 => { names := fun _ => name 2, result := .equal, files := fun _ => some (str! "a.c")
           succs := fun _ => [edge (str! "f") true] }
  | _ => { names := fun _ => name 3, result := .notEqual, files := fun _ => some (str! "b.c") }

def graph : Graph :=
  { vertices := [(name 0, 0), (name 1, 1), (name 2, 2), (name 3, 3)] }

theorem runs : reachableFrom heap graph .left (str! "main") =
    .ok ([0, 1, 2, 2], [(1, (0, edge (str! "f") false)), (2, (0, edge (str! "g") false))]) := by
  have h0 : graph.vertices.get? (str! "main") = some 0 := by decide
  have h1 : searchIter heap graph .left (some (str! "a.c")) 5
      { visited := [], queue := [0], result := [0], bt := [] } =
      some (.ok { visited := [2, 2, 1, 0], queue := [], result := [0, 1, 2, 2],
                  bt := [(1, (0, edge (str! "f") false)), (2, (0, edge (str! "g") false))] }) := by rfl
  have h2 := searchLoop_of_iter h1
  unfold reachableFrom
  rw [h0]
  simp only
  rw [show (heap 0).files .left = some (str! "a.c") from rfl, h2]

end SearchEx

/-- **C04** Every function reported by the search is the start function, or is reached from it by a chain of calls
within the boundary whose last call is a strong dependency. -/
theorem C04_reported_is_reachable {h : Heap} {g : Graph} {side : Side} {start : Str}
    {r : List Vid} {bt : Dict Vid (Vid × Edge)}
    (hr : reachableFrom h g side start = .ok (r, bt)) :
    ∃ s, g.vertices.get? start = some s ∧ s ∈ r ∧
      ∀ v ∈ r, v = s ∨ StronglyReachable h g side ((h s).files side) s v := by
  obtain ⟨s, hs, hres⟩ := reachableFrom_result hr
  refine ⟨s, hs, hres.startRes, ?_⟩
  intro v hv
  rcases hres.result v hv with h | ⟨_, h⟩
  · exact Or.inl h
  · exact Or.inr h

example : ∃ s, SearchEx.graph.vertices.get? (str! "main") = some s ∧ s ∈ [0, 1, 2, 2] ∧
    ∀ v ∈ [0, 1, 2, 2], v = s ∨ StronglyReachable SearchEx.heap SearchEx.graph .left
      ((SearchEx.heap s).files .left) s v :=
  C04_reported_is_reachable SearchEx.runs

/-! ### C05 -/

/-- The full statement of C05. -/
def C05_statement : Prop :=
  ∀ (h : Heap) (g : Graph) (side : Side) (start : Str) (s : Vid) (r : List Vid) (bt : Dict Vid (Vid × Edge)),
    g.vertices.get? start = some s → reachableFrom h g side start = .ok (r, bt) →
    ∀ v, StronglyReachable h g side ((h s).files side) s v → v ∈ r

namespace WeakEx
/-- `start` (0) calls `a` (1) weakly and `b` (2) strongly; `b` calls `a` strongly. -/
def heap : Heap
  | 0 => { names := fun _ => str! "start", result := .equal, files := fun _ => some (str! "a.c")
           succs := fun _ => [SearchEx.edge (str! "a") true, SearchEx.edge (str! "b") false] }
  | 1 => { names := fun _ => str! "a", result := .notEqual, files := fun _ => some (str! "a.c") }
  | _ => { names := fun _ => str! "b", result := .equal, files := fun _ => some (str! "a.c")
           succs := fun _ => [SearchEx.edge (str! "a") false] }

def graph : Graph := { vertices := [(str! "start", 0), (str! "a", 1), (str! "b", 2)] }

theorem runs (side : Side) : reachableFrom heap graph side (str! "start") =
    .ok ([0, 2], [(1, (0, SearchEx.edge (str! "a") true)), (2, (0, SearchEx.edge (str! "b") false))]) := by
  have h0 : graph.vertices.get? (str! "start") = some 0 := by decide
  have h1 : searchIter heap graph side (some (str! "a.c")) 4
      { visited := [], queue := [0], result := [0], bt := [] } =
      some (.ok { visited := [2, 1, 0], queue := [], result := [0, 2],
                  bt := [(1, (0, SearchEx.edge (str! "a") true)), (2, (0, SearchEx.edge (str! "b") false))] }) := by
    cases side <;> rfl
  have h2 := searchLoop_of_iter h1
  unfold reachableFrom
  rw [h0]
  simp only
  rw [show (heap 0).files side = some (str! "a.c") from rfl, h2]

theorem calls_b (side : Side) : Calls heap graph side (some (str! "a.c")) 0 (SearchEx.edge (str! "b") false) 2 :=
  ⟨by simp [heap], by decide, ⟨str! "a.c", rfl, fun _ => rfl⟩⟩

theorem calls_a (side : Side) : Calls heap graph side (some (str! "a.c")) 2 (SearchEx.edge (str! "a") false) 1 :=
  ⟨by simp [heap], by decide, ⟨str! "a.c", rfl, fun _ => rfl⟩⟩

theorem strong (side : Side) : StronglyReachable heap graph side (some (str! "a.c")) 0 1 :=
  ⟨2, SearchEx.edge (str! "a") false, ⟨_, CallPath.snoc CallPath.nil (calls_b side)⟩, calls_a side, rfl⟩

end WeakEx

/-- **C05 (violated)** The search can miss a strong dependency: if a function is first seen through a weak call, it is
marked as visited, and a strong call found later is ignored. -/
theorem C05_fails : ¬ C05_statement := by
  intro hall
  have := hall WeakEx.heap WeakEx.graph .left (str! "start") 0 _ _ (by decide) (WeakEx.runs .left) 1
    (WeakEx.strong .left)
  simp at this

/-- **C05 (partial)** A reachable function is reported unless a weak call enters it: if every call of `v` by a function
reachable from the start is strong, then `v` is reported. Missing for the full statement: functions entered both by
weak and strong calls (see `C05_fails`). -/
theorem C05_strong_dependencies_found_partial {h : Heap} {g : Graph} {side : Side} {start : Str} {s : Vid}
    {r : List Vid} {bt : Dict Vid (Vid × Edge)}
    (hs : g.vertices.get? start = some s) (hr : reachableFrom h g side start = .ok (r, bt))
    (v : Vid) (hv : Reachable h g side ((h s).files side) s v)
    (hstrong : ∀ u e, Reachable h g side ((h s).files side) s u →
      Calls h g side ((h s).files side) u e v → e.weak = false) :
    v ∈ r := by
  obtain ⟨s', hs', hres⟩ := reachableFrom_result hr
  rw [hs] at hs'
  injection hs' with hs'
  subst hs'
  rcases hres.complete v hv with rfl | hk
  · exact hres.startRes
  · rcases hres.weak v hk with h | ⟨u, e, h1, h2, h3⟩
    · exact h
    · rw [hstrong u e h1 h2] at h3; cases h3

/-- Whether or not weak calls are involved, every reachable function (weakly or strongly) is discovered: it has an
entry in the backtracking map or is the start function, and nothing else has. -/
theorem C05_discovered_iff_reachable {h : Heap} {g : Graph} {side : Side} {start : Str} {s : Vid}
    {r : List Vid} {bt : Dict Vid (Vid × Edge)}
    (hs : g.vertices.get? start = some s) (hr : reachableFrom h g side start = .ok (r, bt)) (v : Vid) :
    Reachable h g side ((h s).files side) s v ↔ v = s ∨ v ∈ bt.keys := by
  obtain ⟨s', hs', hres⟩ := reachableFrom_result hr
  rw [hs] at hs'
  injection hs' with hs'
  subst hs'
  constructor
  · exact hres.complete v
  · rintro (rfl | hk)
    · exact ⟨[], CallPath.nil⟩
    · exact hres.btOk.reachable hk

-- `g` (2) is entered by strong calls only.
example : (2 : Vid) ∈ [0, 1, 2, 2] := by
  have hg : Reachable SearchEx.heap SearchEx.graph .left (some (str! "a.c")) 0 2 :=
    ⟨_, CallPath.snoc CallPath.nil
      (e := SearchEx.edge (str! "g") false) ⟨by simp [SearchEx.heap], by decide, ⟨str! "a.c", rfl, fun _ => rfl⟩⟩⟩
  refine C05_strong_dependencies_found_partial (s := 0) (by decide) SearchEx.runs 2 hg ?_
  intro u e _ hc
  have h1 := hc.recorded
  have h2 := hc.target
  match u with
  | 0 => simp [SearchEx.heap, SearchEx.edge] at h1; rcases h1 with rfl | rfl | rfl | rfl <;> rfl
  | 1 => simp [SearchEx.heap, SearchEx.edge] at h1; rcases h1 with rfl | rfl <;> rfl
  | 2 =>
    simp [SearchEx.heap, SearchEx.edge] at h1
    subst h1
    exact absurd h2 (by decide)
  | n + 3 => simp [SearchEx.heap] at h1

/-! ### C06 -/

/-- **C06** For every function found by the search the call stack extraction ends without an error, and the call stack
is a chain of recorded calls from the start function to the function; it is empty exactly for the start function.
(The loop of `_get_callstack` ends whatever large number of iterations is allowed.) -/
theorem C06_callstack_is_call_path {h : Heap} {g : Graph} {side : Side} {start : Str} {s : Vid}
    {r : List Vid} {bt : Dict Vid (Vid × Edge)}
    (hs : g.vertices.get? start = some s) (hr : reachableFrom h g side start = .ok (r, bt))
    (v : Vid) (hv : v ∈ r) :
    ∃ p, CallPath h g side ((h s).files side) s p v ∧ (p = [] ↔ v = s) ∧
      getCallstack bt s v = .ok p ∧
      ∀ n, bt.length ≤ n → getCallstackFuel bt s v n = some (.ok p) := by
  obtain ⟨s', hs', hres⟩ := reachableFrom_result hr
  rw [hs] at hs'
  injection hs' with hs'
  subst hs'
  have key : ∃ p, CallPath h g side ((h s).files side) s p v ∧ (p = [] ↔ v = s) ∧
      ∀ n, bt.length ≤ n → getCallstackFuel bt s v n = some (.ok p) := by
    rcases hres.result v hv with rfl | ⟨hk, _⟩
    · exact ⟨[], CallPath.nil, by simp, fun n _ => by simp [getCallstackFuel]⟩
    · obtain ⟨p, c, e, h1, h2, h3, h4⟩ := hres.btOk.path v hk
      have hne : v ≠ s := by rintro rfl; exact hres.btOk.start hk
      refine ⟨p ++ [(c, e)], h1, by simp [hne], ?_⟩
      intro n hn
      have hne' : ¬ s = v := fun e => hne e.symm
      simp only [getCallstackFuel, hne', if_false, h3]
      rw [h4 bt (fun _ _ => rfl) n (by omega) []]
      simp
  obtain ⟨p, h1, h2, h3⟩ := key
  refine ⟨p, h1, h2, ?_, h3⟩
  simp [getCallstack, h3 (bt.length + 1) (by omega)]

example : ∃ p, CallPath SearchEx.heap SearchEx.graph .left (some (str! "a.c")) 0 p 2 ∧ (p = [] ↔ (2 : Vid) = 0) ∧
    getCallstack [(1, (0, SearchEx.edge (str! "f") false)), (2, (0, SearchEx.edge (str! "g") false))] 0 2 = .ok p ∧
    ∀ n, 2 ≤ n → getCallstackFuel
      [(1, (0, SearchEx.edge (str! "f") false)), (2, (0, SearchEx.edge (str! "g") false))] 0 2 n = some (.ok p) :=
  C06_callstack_is_call_path (s := 0) (by decide) SearchEx.runs 2 (by simp)

/-! ### C07 -/

/-- **C07** The loop of the search ends after finitely many iterations in every graph, from every state. -/
theorem C07_search_terminates (h : Heap) (g : Graph) (side : Side) (orig : Option Str) (st : Search) :
    ∃ n r, searchIter h g side orig n st = some r := by
  induction st using searchLoop.induct h g side orig with
  | case1 st x hx => exact ⟨1, .error x, by simp [searchIter, hx]⟩
  | case2 st hx => exact ⟨1, .ok st, by simp [searchIter, hx]⟩
  | case3 st st2 hx ih =>
    obtain ⟨n, r, hn⟩ := ih
    exact ⟨n + 1, r, by simp [searchIter, hx, hn]⟩

/-- **C07** The search finishes without an exception whenever its start function is in the graph and all functions have
file information. -/
theorem C07_search_succeeds {h : Heap} {g : Graph} {side : Side} {start : Str} {s : Vid}
    (hs : g.vertices.get? start = some s)
    (hf : ∀ name v, g.vertices.get? name = some v → (h v).files side ≠ none)
    (hn : g.vertices.keys.Nodup) :
    ∃ r bt, reachableFrom h g side start = .ok (r, bt) := by
  have hf' : ∀ v ∈ g.vertices.values, (h v).files side ≠ none := by
    intro v hv
    obtain ⟨a, ha⟩ := (Dict.mem_values_iff hn).1 hv
    exact hf a v ha
  obtain ⟨st', h1, _⟩ := searchLoop_ok (orig := (h s).files side) hf'
    { visited := [], queue := [s], result := [s], bt := [] }
  exact ⟨st'.result, st'.bt, by simp [reachableFrom, hs, h1]⟩

example : ∃ r bt, reachableFrom SearchEx.heap SearchEx.graph .left (str! "main") = .ok (r, bt) :=
  C07_search_succeeds (s := 0) (by decide)
    (by
      intro name v _
      match v with
      | 0 | 1 | 2 | n + 3 => simp [SearchEx.heap])
    (by decide)

/-- **C07 (blow-up)** The loop does not skip functions that are already in the queue: for every `n` there is a graph with
`2n + 1` functions for which the returned list has at least `2 ^ n` entries. -/
theorem C07_exponential_blowup (n : Nat) :
    ∃ (h : Heap) (g : Graph) (start : Str) (r : List Vid) (bt : Dict Vid (Vid × Edge)),
      g.vertices.length = 2 * n + 1 ∧ reachableFrom h g .left start = .ok (r, bt) ∧ 2 ^ n ≤ r.length := by
  obtain ⟨st1, h1, _, _, _, h5⟩ := Ladder.levels n n (Nat.le_refl n)
  obtain ⟨st2, h6, rs, h7⟩ := searchLoop_ok (orig := some (str! "a.h")) (Ladder.files_ok n) st1
  refine ⟨Ladder.heap, Ladder.graph n, Ladder.name 0, st2.result, st2.bt, by simp [Ladder.graph], ?_, ?_⟩
  · have h0 : (Ladder.graph n).vertices.get? (Ladder.name 0) = some 0 := Ladder.get_name (by omega)
    unfold reachableFrom
    rw [h0]
    simp only
    rw [show (Ladder.heap 0).files .left = some (str! "a.h") from rfl, h1, h6]
  · rw [h7]; simp; omega

end DK
