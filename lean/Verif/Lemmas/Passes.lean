import Verif.Model.Passes
import Mathlib.Logic.Relation
import Mathlib.Tactic.SplitIfs

/-! The recursive search: what it inserts, that it inserts everything after a new item, and that it
ends. -/

set_option autoImplicit false

namespace DK

variable {N : Type} [DecidableEq N]

/-- What a call of the search does: `xs` are the items it was called for. -/
structure Visited (next : N → List N) (xs seen seen' : List N) : Prop where
  grow : ∀ y ∈ seen, y ∈ seen'
  here : ∀ x ∈ xs, x ∈ seen'
  from_ : ∀ y ∈ seen', y ∈ seen ∨ ∃ x ∈ xs, Relation.ReflTransGen (fun a b => b ∈ next a) x y
  closed : ∀ y ∈ seen', y ∉ seen → ∀ z ∈ next y, z ∈ seen'

theorem visited_fold {next : N → List N} {g : List N → N → Option (List N)}
    (hg : ∀ s y s', g s y = some s' → Visited next [y] s s') : ∀ (xs seen seen' : List N),
    xs.foldlM g seen = some seen' → Visited next xs seen seen'
  | [], seen, seen', h => by
    cases h
    exact ⟨fun _ h => h, fun _ h => absurd h List.not_mem_nil, fun _ h => Or.inl h, fun _ h h' => absurd h h'⟩
  | x :: xs, seen, seen', h => by
    rw [List.foldlM_cons] at h
    cases h1 : g seen x with
    | none => rw [h1] at h; cases h
    | some s =>
      rw [h1] at h
      have v1 := hg _ _ _ h1
      have v2 := visited_fold hg xs s seen' h
      refine ⟨fun y hy => v2.grow y (v1.grow y hy), ?_, ?_, ?_⟩
      · intro y hy
        rcases List.mem_cons.1 hy with rfl | hy
        · exact v2.grow y (v1.here y (by simp))
        · exact v2.here y hy
      · intro y hy
        rcases v2.from_ y hy with hy | ⟨a, ha, hr⟩
        · rcases v1.from_ y hy with hy | ⟨a, ha, hr⟩
          · exact Or.inl hy
          · simp only [List.mem_singleton] at ha
            exact Or.inr ⟨a, by simp [ha], hr⟩
        · exact Or.inr ⟨a, List.mem_cons_of_mem _ ha, hr⟩
      · intro y hy hn z hz
        by_cases hs : y ∈ s
        · exact v2.grow z (v1.closed y hs hn z hz)
        · exact v2.closed y hy hs z hz

theorem visit_spec (next : N → List N) : ∀ (n : Nat) (x : N) (seen seen' : List N),
    visit next n x seen = some seen' → Visited next [x] seen seen'
  | 0, _, _, _, h => by rw [visit] at h; cases h
  | n + 1, x, seen, seen', h => by
    rw [visit] at h
    split at h
    · rename_i hx
      cases h
      exact ⟨fun _ h => h, fun y hy => by simp only [List.mem_singleton] at hy; exact hy ▸ hx,
        fun _ h => Or.inl h, fun _ h h' => absurd h h'⟩
    · rename_i hx
      have v := visited_fold (fun s y s' h => visit_spec next n y s s' h) _ _ _ h
      refine ⟨fun y hy => v.grow y (List.mem_cons_of_mem _ hy), ?_, ?_, ?_⟩
      · intro y hy
        simp only [List.mem_singleton] at hy
        exact v.grow y (by simp [hy])
      · intro y hy
        rcases v.from_ y hy with hy | ⟨a, ha, hr⟩
        · rcases List.mem_cons.1 hy with rfl | hy
          · exact Or.inr ⟨y, by simp, .refl⟩
          · exact Or.inl hy
        · exact Or.inr ⟨x, by simp, .head ha hr⟩
      · intro y hy hn z hz
        by_cases hyx : y = x
        · subst hyx; exact v.here z hz
        · exact v.closed y hy (by simp [hyx, hn]) z hz

/-- From nothing, the search finds exactly what can be reached. -/
theorem visit_reach {next : N → List N} {n : Nat} {x : N} {seen : List N}
    (h : visit next n x [] = some seen) (y : N) :
    y ∈ seen ↔ Relation.ReflTransGen (fun a b => b ∈ next a) x y := by
  have v := visit_spec next n x [] seen h
  constructor
  · intro hy
    rcases v.from_ y hy with hy | ⟨a, ha, hr⟩
    · cases hy
    · simp only [List.mem_singleton] at ha
      exact ha ▸ hr
  · intro hr
    induction hr with
    | refl => exact v.here x (by simp)
    | tail _ hbc ih => exact v.closed _ ih (by simp) _ hbc

/-- Items of `U` not yet inserted. -/
def unseen (U seen : List N) : Nat := U.countP (fun y => decide (y ∉ seen))

theorem unseen_le {U seen seen' : List N} (h : ∀ y ∈ seen, y ∈ seen') : unseen U seen' ≤ unseen U seen := by
  unfold unseen
  refine List.countP_mono_left fun q _ hq => ?_
  simp only [decide_eq_true_eq] at *
  exact fun hn => hq (h q hn)

theorem unseen_lt {U seen : List N} {x : N} (hU : x ∈ U) (hx : x ∉ seen) :
    unseen U (x :: seen) < unseen U seen := by
  induction U with
  | nil => cases hU
  | cons q U ih =>
    have hle : unseen U (x :: seen) ≤ unseen U seen := unseen_le (by simp_all)
    have hc : ∀ s : List N, unseen (q :: U) s = unseen U s + if q ∈ s then 0 else 1 := by
      intro s
      unfold unseen
      rw [List.countP_cons]
      by_cases h : q ∈ s <;> simp [h]
    rw [hc, hc]
    by_cases hq : q = x
    · subst hq
      simp only [List.mem_cons, true_or, if_true, hx, if_false]
      omega
    · have := ih ((List.mem_cons.1 hU).resolve_left fun h => hq h.symm)
      by_cases hs : q ∈ seen <;> simp only [List.mem_cons, hq, hs, or_self, or_true, if_true, if_false] <;>
        omega

theorem visit_ends {next : N → List N} {U : List N} (hU : ∀ x ∈ U, ∀ y ∈ next x, y ∈ U) :
    ∀ (n : Nat) (x : N) (seen : List N), x ∈ U → unseen U seen < n →
    ∃ seen', visit next n x seen = some seen'
  | 0, _, _, _, h => absurd h (Nat.not_lt_zero _)
  | n + 1, x, seen, hx, h => by
    rw [visit]
    split
    · exact ⟨_, rfl⟩
    · rename_i hn
      have h1 := unseen_lt hx hn
      have h2 : unseen U (x :: seen) < n := by omega
      have hall : ∀ y ∈ next x, y ∈ U := hU x hx
      generalize x :: seen = s at h2
      generalize next x = ys at hall
      induction ys generalizing s with
      | nil => exact ⟨s, rfl⟩
      | cons y ys ih =>
        rw [List.foldlM_cons]
        obtain ⟨s1, hs1⟩ := visit_ends hU n y s (hall y (by simp)) h2
        rw [hs1]
        exact ih s1 (Nat.lt_of_le_of_lt (unseen_le (visit_spec next n y s s1 hs1).grow) h2)
          (fun z hz => hall z (List.mem_cons_of_mem _ hz))

theorem unseen_length (U seen : List N) : unseen U seen ≤ U.length := List.countP_le_length

end DK
