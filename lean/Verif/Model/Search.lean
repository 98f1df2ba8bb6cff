import Verif.Lemmas.SearchStep

/-! Model of `reachable_from` and `_get_callstack` (caching.py 298-342, 563-570). -/

namespace DK

/-- The outer loop `while queue`, caching.py 317-341. Well-founded: every iteration either visits a new function
or consumes a queue entry that was visited before. -/
def searchLoop (h : Heap) (g : Graph) (side : Side) (orig : Option Str) (st : Search) :
    Except PyErr Search :=
  match _hs : searchStep h g side orig st with
  | .error x => .error x
  | .ok none => .ok st
  | .ok (some st') => searchLoop h g side orig st'
termination_by ((searchOpen g st).card, searchDups st)
decreasing_by
  rcases searchStep_decreases _hs with h1 | ⟨h1, h2⟩
  · exact Prod.Lex.left _ _ h1
  · rw [h1]; exact Prod.Lex.right _ h2

/-- `reachable_from`, caching.py 298-342: the list of found functions and the backtracking map. -/
def reachableFrom (h : Heap) (g : Graph) (side : Side) (start : Str) :
    Except PyErr (List Vid × Dict Vid (Vid × Edge)) :=
  match g.vertices.get? start with
  | none => .error .keyError
  | some s =>
    match searchLoop h g side ((h s).files side)
        { visited := [], queue := [s], result := [s], bt := [] } with
    | .error x => .error x
    | .ok st => .ok (st.result, st.bt)

/-- The loop of `_get_callstack`, lines 568-569, run for at most `fuel` iterations; `acc` holds the edges
collected so far in reversed order of the Python list (so it is already the reversed result).
`none` means that the loop has not ended within `fuel` iterations. -/
def callstackLoop (bt : Dict Vid (Vid × Edge)) (start : Vid) :
    Nat → (Vid × Edge) → List (Vid × Edge) → Option (Except PyErr (List (Vid × Edge)))
  | 0, _, _ => none
  | n + 1, last, acc =>
    if last.1 = start then some (.ok (last :: acc))
    else
      match bt.get? last.1 with
      | none => some (.error .keyError)
      | some e => callstackLoop bt start n e (last :: acc)

/-- `_get_callstack`, caching.py 563-570, run with bounded fuel (`none`: still running). -/
def getCallstackFuel (bt : Dict Vid (Vid × Edge)) (start end_ : Vid) (fuel : Nat) :
    Option (Except PyErr (List (Vid × Edge))) :=
  if start = end_ then some (.ok [])
  else
    match bt.get? end_ with
    | none => some (.error .keyError)
    | some e => callstackLoop bt start fuel e []

/-- `_get_callstack` as a total function: the chain of parents cannot be longer than the map unless it is cyclic;
C06 proves that for the maps produced by the search the fuel never runs out (a cyclic map would make the Python loop
run forever; this is mapped to `valueError` here and shown unreachable). -/
def getCallstack (bt : Dict Vid (Vid × Edge)) (start end_ : Vid) : Except PyErr (List (Vid × Edge)) :=
  match getCallstackFuel bt start end_ (bt.length + 1) with
  | some r => r
  | none => .error .valueError

/-! ### Evaluating the loop by iteration (used for concrete graphs) -/

/-- At most `n` iterations of the outer loop. -/
def searchIter (h : Heap) (g : Graph) (side : Side) (orig : Option Str) :
    Nat → Search → Option (Except PyErr Search)
  | 0, _ => none
  | n + 1, st =>
    match searchStep h g side orig st with
    | .error x => some (.error x)
    | .ok none => some (.ok st)
    | .ok (some st') => searchIter h g side orig n st'

theorem searchLoop_of_iter {h : Heap} {g : Graph} {side : Side} {orig : Option Str} :
    ∀ {n : Nat} {st : Search} {r : Except PyErr Search},
      searchIter h g side orig n st = some r → searchLoop h g side orig st = r := by
  intro n
  induction n with
  | zero => intro st r hr; simp [searchIter] at hr
  | succ n ih =>
    intro st r hr
    unfold searchIter at hr
    rw [searchLoop]
    split at hr
    · rename_i h1; simp only [Option.some.injEq] at hr
      split <;> simp_all
    · rename_i h1; simp only [Option.some.injEq] at hr
      split <;> simp_all
    · rename_i st' h1
      split
      · simp_all
      · simp_all
      · rename_i st'' h2
        rw [h1] at h2
        injection h2 with h2
        injection h2 with h2
        subst h2
        exact ih hr

end DK
