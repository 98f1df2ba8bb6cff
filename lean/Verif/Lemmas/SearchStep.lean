import Verif.Model.Graph
import Verif.Lemmas.Dict

/-! Facts about one iteration of the search loop, needed for its termination. -/

namespace DK

/-- What the inner loop does to the queue and the visited set. -/
theorem searchEdges_queue {h : Heap} {g : Graph} {side : Side} {orig : Option Str} {c : Vid} :
    ∀ {es : List Edge} {st st' : Search}, searchEdges h g side orig c es st = .ok st' →
      st'.visited = st.visited ∧
      ∃ ts, st'.queue = st.queue ++ ts ∧ ∀ t ∈ ts, t ∉ st.visited ∧ t ∈ g.vertices.values := by
  intro es
  induction es with
  | nil =>
    intro st st' h1
    simp only [searchEdges, Except.ok.injEq] at h1
    subst h1
    exact ⟨rfl, [], by simp⟩
  | cons e es ih =>
    intro st st' h1
    unfold searchEdges at h1
    split at h1
    · exact ih h1
    · rename_i t ht
      split at h1
      · exact ih h1
      · rename_i hv
        split at h1
        · cases h1
        · exact ih h1
        · obtain ⟨h2, ts, h3, h4⟩ := ih h1
          refine ⟨h2, t :: ts, ?_, ?_⟩
          · rw [h3]; simp
          · intro x hx
            rcases List.mem_cons.1 hx with rfl | hx
            · exact ⟨hv, Dict.get?_mem_values ht⟩
            · exact h4 x hx

/-- Functions that may still be visited. -/
def searchOpen (g : Graph) (st : Search) : Finset Vid :=
  (g.vertices.values ++ st.queue).toFinset \ st.visited.toFinset

/-- Queue entries that have been visited already (duplicates). -/
def searchDups (st : Search) : Nat := (st.queue.filter (· ∈ st.visited)).length

theorem searchStep_decreases {h : Heap} {g : Graph} {side : Side} {orig : Option Str} {st st' : Search}
    (hs : searchStep h g side orig st = .ok (some st')) :
    (searchOpen g st').card < (searchOpen g st).card ∨
    ((searchOpen g st').card = (searchOpen g st).card ∧ searchDups st' < searchDups st) := by
  unfold searchStep at hs
  split at hs
  · cases hs
  · rename_i c q hq
    split at hs
    · cases hs
    · rename_i st2 h2
      simp only [Except.ok.injEq, Option.some.injEq] at hs
      subst hs
      obtain ⟨hv, ts, hq2, hts⟩ := searchEdges_queue h2
      simp only at hv hq2 hts
      have hsub : searchOpen g st2 ⊆ searchOpen g st := by
        intro x hx
        simp only [searchOpen, hv, hq2, hq, Finset.mem_sdiff, List.mem_toFinset, List.mem_append,
          List.mem_cons, not_or] at hx ⊢
        obtain ⟨h1, h3, h4⟩ := hx
        refine ⟨?_, h4⟩
        rcases h1 with h1 | h1 | h1
        · exact Or.inl h1
        · exact Or.inr (Or.inr h1)
        · exact Or.inl (hts x h1).2
      by_cases hc : c ∈ st.visited
      · right
        constructor
        · congr 1
          apply Finset.Subset.antisymm hsub
          intro x hx
          simp only [searchOpen, hv, hq2, hq, Finset.mem_sdiff, List.mem_toFinset, List.mem_append,
            List.mem_cons, not_or] at hx ⊢
          obtain ⟨h1, h3⟩ := hx
          have hxc : x ≠ c := by rintro rfl; exact h3 hc
          refine ⟨?_, hxc, h3⟩
          rcases h1 with h1 | h1 | h1
          · exact Or.inl h1
          · exact absurd h1 hxc
          · exact Or.inr (Or.inl h1)
        · have e1 : ∀ l : List Vid, l.filter (· ∈ c :: st.visited) = l.filter (· ∈ st.visited) := by
            intro l
            apply List.filter_congr
            intro x _
            by_cases hx : x = c
            · subst hx; simp [hc]
            · simp [hx]
          have e2 : ts.filter (· ∈ c :: st.visited) = [] := by
            rw [List.filter_eq_nil_iff]
            intro x hx
            simpa using (hts x hx).1
          simp only [searchDups, hq2, hv, List.filter_append, e2, List.append_nil, hq]
          rw [e1]
          simp [hc]
      · left
        apply Finset.card_lt_card
        refine ⟨hsub, ?_⟩
        intro hcon
        have : c ∈ searchOpen g st := by simp [searchOpen, hq, hc]
        have := hcon this
        simp [searchOpen, hv] at this

end DK
