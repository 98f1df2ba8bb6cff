import Verif.Lemmas.Loads

/-!
Lemmas about the search for the replacement of a load: what a successful search has looked at, and what
this means for runs.
-/

set_option autoImplicit false

namespace DK
open Spec

theorem alias_apart {e : MEnv} {l r : MPtr} {v w : Nat} (h : mayAlias l r = false) (hs : SameBase l r)
    (hl : accessIn e v l) (hr : accessIn e w r) : Apart (addrOf e l) v (addrOf e r) w := by
  unfold mayAlias at h
  split at h
  · rename_i a b ha hb
    have h1 := addr_alloca e l a ha
    have h2 := addr_alloca e r b hb
    split at h
    · rename_i hne
      left
      rw [h1, h2]
      simpa using hne
    · rename_i hab
      simp only [ne_eq, Classical.not_not] at hab
      subst hab
      split at h
      · rename_i i1 t1 b1 is i2 t2 b2 js
        simp only [Bool.not_eq_eq_eq_not, Bool.not_false] at h
        have hd := diverge_differ e is js h
        obtain ⟨rfl, rfl⟩ := hs (by simp only [getAllocaFromPtr] at ha hb; rw [ha, hb])
        have := gep_apart (v := v) (w := w) hl hr hd
        right
        simp only [addrOf]
        omega
      · cases h
  · cases h

theorem addr_congr {e e' : MEnv} : ∀ p : MPtr, (∀ x ∈ leaves p, e x = e' x) → addrOf e p = addrOf e' p
  | .alloca _, _ => rfl
  | .other x, h => h x (by simp [leaves])
  | .gep _ ty b is, h => by
    have hb := addr_congr b (fun x hx => h x (by simp [leaves, hx]))
    have hi : is.map (idxVal e) = is.map (idxVal e') := by
      apply List.map_congr_left
      intro i hi
      cases i with
      | const n => rfl
      | var x =>
        have := h x (by
          simp only [leaves, List.mem_append, List.mem_filterMap]
          exact Or.inr ⟨.var x, hi, rfl⟩)
        simp [idxVal, this]
    simp [addrOf, hb, hi]

theorem access_congr {e e' : MEnv} {w : Nat} {p : MPtr} (h : ∀ x ∈ leaves p, e x = e' x)
    (ha : accessIn e w p) : accessIn e' w p := by
  cases p with
  | alloca _ => trivial
  | other _ => trivial
  | gep id ty b is =>
    have hi : is.map (idxVal e) = is.map (idxVal e') := by
      apply List.map_congr_left
      intro i hi
      cases i with
      | const n => rfl
      | var x =>
        have := h x (by
          simp only [leaves, List.mem_append, List.mem_filterMap]
          exact Or.inr ⟨.var x, hi, rfl⟩)
        simp [idxVal, this]
    simp only [accessIn, ← hi]
    exact ha

theorem val_congr {e e' : MEnv} {v : MVal} (h : ∀ x ∈ valLeaves v, e x = e' x) : valOf e v = valOf e' v := by
  cases v with
  | const n => rfl
  | val p => exact addr_congr p h

/-! ### The search -/

theorem scan_pass {ign : Nat → Bool} {p : MPtr} : ∀ l : List MInst, scanBack ign p l = .pass →
    ∀ i ∈ l, mayStoreTo i p = false := by
  intro l
  induction l with
  | nil => intro _ i hi; simp at hi
  | cons a l ih =>
    intro h i hi
    simp only [scanBack] at h
    split at h
    · cases h
    · split at h
      · cases h
      · rename_i hm
        rcases List.mem_cons.1 hi with rfl | hi
        · simpa using hm
        · exact ih h i hi

theorem scan_found {ign : Nat → Bool} {p : MPtr} {v : MVal} : ∀ l : List MInst, scanBack ign p l = .found v →
    ∃ pre C post, l = pre ++ C :: post ∧ replacementCandidate ign p.id C = some v ∧
      ∀ i ∈ pre, mayStoreTo i p = false := by
  intro l
  induction l with
  | nil => intro h; simp [scanBack] at h
  | cons a l ih =>
    intro h
    simp only [scanBack] at h
    split at h
    · rename_i v' hv
      cases h
      exact ⟨[], a, l, rfl, hv, by simp⟩
    · split at h
      · cases h
      · rename_i hm
        obtain ⟨pre, C, post, rfl, hc, hpre⟩ := ih h
        refine ⟨a :: pre, C, post, rfl, hc, ?_⟩
        intro i hi
        rcases List.mem_cons.1 hi with rfl | hi
        · simpa using hm
        · exact hpre i hi

/-- A candidate at position `k` of the list, and nothing after it stores to the pointer. -/
def CandAt (ign : Nat → Bool) (p : MPtr) (v : MVal) (l : List MInst) (k : Nat) (C : MInst) : Prop :=
  l[k]? = some C ∧ replacementCandidate ign p.id C = some v ∧ ∀ i ∈ l.drop (k + 1), mayStoreTo i p = false

theorem scan_found' {ign : Nat → Bool} {p : MPtr} {v : MVal} {l : List MInst}
    (h : scanBack ign p l.reverse = .found v) : ∃ k C, CandAt ign p v l k C := by
  obtain ⟨pre, C, post, he, hc, hpre⟩ := scan_found _ h
  have hl : l = post.reverse ++ C :: pre.reverse := by
    have := congrArg List.reverse he
    simpa using this
  refine ⟨post.length, C, ?_, hc, ?_⟩
  · rw [hl]
    simp
  · intro i hi
    rw [hl] at hi
    have : (post.reverse ++ C :: pre.reverse).drop (post.length + 1) = pre.reverse := by
      have h1 : post.length + 1 = (post.reverse ++ [C]).length := by simp
      rw [show post.reverse ++ C :: pre.reverse = (post.reverse ++ [C]) ++ pre.reverse by simp, h1,
        List.drop_left]
    rw [this] at hi
    exact hpre i (by simpa using hi)

theorem queue_spec : ∀ (ps vis : List Nat),
    (∀ x ∈ vis, x ∈ (queuePreds ps vis).1) ∧ (∀ x ∈ ps, x ∈ (queuePreds ps vis).1) ∧
    (∀ x ∈ (queuePreds ps vis).2, x ∈ (queuePreds ps vis).1 ∧ x ∉ vis ∧ x ∈ ps) ∧
    (∀ x ∈ (queuePreds ps vis).1, x ∈ vis ∨ x ∈ (queuePreds ps vis).2) := by
  intro ps
  induction ps with
  | nil => intro vis; simp [queuePreds]
  | cons b bs ih =>
    intro vis
    by_cases hb : b ∈ vis
    · have hq : queuePreds (b :: bs) vis = queuePreds bs vis := by simp [queuePreds, hb]
      obtain ⟨h1, h2, h3, h4⟩ := ih vis
      rw [hq]
      refine ⟨h1, ?_, ?_, h4⟩
      · intro x hx
        rcases List.mem_cons.1 hx with rfl | hx
        · exact h1 _ hb
        · exact h2 x hx
      · intro x hx
        obtain ⟨a1, a2, a3⟩ := h3 x hx
        exact ⟨a1, a2, List.mem_cons_of_mem _ a3⟩
    · have hq : queuePreds (b :: bs) vis =
          ((queuePreds bs (b :: vis)).1, b :: (queuePreds bs (b :: vis)).2) := by simp [queuePreds, hb]
      obtain ⟨h1, h2, h3, h4⟩ := ih (b :: vis)
      rw [hq]
      refine ⟨fun x hx => h1 x (List.mem_cons_of_mem _ hx), ?_, ?_, ?_⟩
      · intro x hx
        rcases List.mem_cons.1 hx with rfl | hx
        · exact h1 _ List.mem_cons_self
        · exact h2 x hx
      · intro x hx
        rcases List.mem_cons.1 hx with rfl | hx
        · exact ⟨h1 _ List.mem_cons_self, hb, List.mem_cons_self⟩
        · obtain ⟨a1, a2, a3⟩ := h3 x hx
          exact ⟨a1, fun h => a2 (List.mem_cons_of_mem _ h), List.mem_cons_of_mem _ a3⟩
      · intro x hx
        rcases h4 x hx with h | h
        · rcases List.mem_cons.1 h with rfl | h
          · exact Or.inr List.mem_cons_self
          · exact Or.inl h
        · exact Or.inr (List.mem_cons_of_mem _ h)

/-- The part of a block that the search looks at. -/
def region (f : MFun) (b j X : Nat) : List MInst := if X = b then (f.insts X).take j else f.insts X

/-- A block without candidate that the search has left behind. -/
def LeftBehind (f : MFun) (p : MPtr) (b j : Nat) (vis : List Nat) (X : Nat) : Prop :=
  (∀ i ∈ region f b j X, mayStoreTo i p = false) ∧ f.preds X ≠ [] ∧ ∀ a ∈ f.preds X, a ∈ vis

/-- What a successful search has found. -/
structure Covered (f : MFun) (ign : Nat → Bool) (p : MPtr) (b j : Nat) (v : MVal) (vis : List Nat)
    (K k : Nat) (C : MInst) : Prop where
  load : b ∈ vis
  here : K ∈ vis
  cand : CandAt ign p v (region f b j K) k C
  rest : ∀ X ∈ vis, X ≠ K → LeftBehind f p b j vis X
  only : K = b → ∀ X ∈ vis, X = b

/-- The state of the search after the block of the load. -/
structure LoadInv (f : MFun) (ign : Nat → Bool) (p : MPtr) (b j : Nat) (queue vis : List Nat)
    (repl : Option MVal) : Prop where
  load : b ∈ vis
  own : b ∉ queue
  sub : ∀ X ∈ queue, X ∈ vis
  empty : repl = none → ∀ X ∈ vis, X ∉ queue → LeftBehind f p b j vis X
  full : ∀ v, repl = some v → ∃ K k C, K ∈ vis ∧ K ≠ b ∧ CandAt ign p v (region f b j K) k C ∧
    ∀ X ∈ vis, X ∉ queue → X ≠ K → LeftBehind f p b j vis X

theorem left_mono {f : MFun} {p : MPtr} {b j : Nat} {vis vis' : List Nat} {X : Nat}
    (h : LeftBehind f p b j vis X) (hs : ∀ x ∈ vis, x ∈ vis') : LeftBehind f p b j vis' X :=
  ⟨h.1, h.2.1, fun a ha => hs a (h.2.2 a ha)⟩

theorem search_covered {f : MFun} {ign : Nat → Bool} {p : MPtr} {b j : Nat} {v : MVal} :
    ∀ (fuel : Nat) (queue vis : List Nat) (repl : Option MVal), LoadInv f ign p b j queue vis repl →
    skipSearch f ign p fuel none queue vis repl = some (some v) →
    ∃ vis' K k C, Covered f ign p b j v vis' K k C := by
  intro fuel
  induction fuel with
  | zero => intro queue vis repl _ h; simp [skipSearch] at h
  | succ fuel ih =>
    intro queue vis repl inv h
    cases queue with
    | nil =>
      simp only [skipSearch, Option.some.injEq] at h
      obtain ⟨K, k, C, h1, h2, h3, h4⟩ := inv.full v h
      exact ⟨vis, K, k, C, inv.load, h1, h3, fun X hX hne => h4 X hX (by simp) hne, fun h => absurd h h2⟩
    | cons X queue =>
      have hXb : X ≠ b := fun h => inv.own (by simp [h])
      have hreg : region f b j X = f.insts X := by simp [region, hXb]
      simp only [skipSearch] at h
      cases hsc : scanBack ign p (f.insts X).reverse with
      | conflict => simp [hsc] at h
      | found v' =>
        simp only [hsc] at h
        cases hr : repl with
        | some u => simp [hr] at h
        | none =>
          simp only [hr, Option.isSome_none, Bool.false_eq_true, if_false] at h
          refine ih queue vis (some v') ⟨inv.load, fun hb => inv.own (List.mem_cons_of_mem _ hb),
            fun Y hY => inv.sub Y (List.mem_cons_of_mem _ hY), fun h => absurd h (by simp), ?_⟩ h
          intro v1 hv1
          cases hv1
          obtain ⟨k, C, hc⟩ := scan_found' hsc
          refine ⟨X, k, C, inv.sub X List.mem_cons_self, hXb, by rw [hreg]; exact hc, ?_⟩
          intro Y hY hq hne
          exact inv.empty hr Y hY (by simp [hne, hq])
      | pass =>
        simp only [hsc] at h
        split at h
        · simp at h
        · rename_i hp
          obtain ⟨q1, q2, q3, q4⟩ := queue_spec (f.preds X) vis
          have hleft : LeftBehind f p b j (queuePreds (f.preds X) vis).1 X := by
            refine ⟨?_, by intro h0; simp [h0] at hp, fun a ha => q2 a ha⟩
            intro i hi
            rw [hreg] at hi
            exact scan_pass _ hsc i (by simpa using hi)
          refine ih _ _ repl ⟨q1 _ inv.load, ?_, ?_, ?_, ?_⟩ h
          · intro hb
            rcases List.mem_append.1 hb with hb | hb
            · exact inv.own (List.mem_cons_of_mem _ hb)
            · exact (q3 b hb).2.1 inv.load
          · intro Y hY
            rcases List.mem_append.1 hY with hY | hY
            · exact q1 Y (inv.sub Y (List.mem_cons_of_mem _ hY))
            · exact (q3 Y hY).1
          · intro hr Y hY hq
            by_cases hYX : Y = X
            · rw [hYX]; exact hleft
            · have hv : Y ∈ vis := by
                rcases q4 Y hY with h | h
                · exact h
                · exact absurd (List.mem_append_right queue h) hq
              exact left_mono (inv.empty hr Y hv (by
                simp only [List.mem_cons, not_or]
                exact ⟨hYX, fun h => hq (List.mem_append_left _ h)⟩)) q1
          · intro v1 hv1
            obtain ⟨K, k, C, a1, a2, a3, a4⟩ := inv.full v1 hv1
            refine ⟨K, k, C, q1 K a1, a2, a3, ?_⟩
            intro Y hY hq hne
            by_cases hYX : Y = X
            · rw [hYX]; exact hleft
            · have hv : Y ∈ vis := by
                rcases q4 Y hY with h | h
                · exact h
                · exact absurd (List.mem_append_right queue h) hq
              exact left_mono (a4 Y hv (by
                simp only [List.mem_cons, not_or]
                exact ⟨hYX, fun h => hq (List.mem_append_left _ h)⟩) hne) q1

theorem skip_covered {f : MFun} {ign : Nat → Bool} {p : MPtr} {b j id w : Nat} {v : MVal}
    (hl : (f.insts b)[j]? = some (.load id p w)) (h : maySkipLoad f ign b j = some (some v)) :
    ∃ vis K k C, Covered f ign p b j v vis K k C := by
  simp only [maySkipLoad, hl, skipSearch] at h
  have hreg : region f b j b = (f.insts b).take j := by simp [region]
  cases hsc : scanBack ign p ((f.insts b).take j).reverse with
  | conflict => simp [hsc] at h
  | found v' =>
    simp only [hsc, Option.isSome_none, Bool.false_eq_true, if_false, skipSearch, Option.some.injEq] at h
    subst h
    obtain ⟨k, C, hc⟩ := scan_found' hsc
    refine ⟨[b], b, k, C, List.mem_cons_self, List.mem_cons_self, by rw [hreg]; exact hc, ?_, ?_⟩
    · intro X hX hne
      exact absurd (by simpa using hX) hne
    · intro _ X hX
      simpa using hX
  | pass =>
    simp only [hsc] at h
    split at h
    · simp at h
    · rename_i hp
      obtain ⟨q1, q2, q3, q4⟩ := queue_spec (f.preds b) [b]
      refine search_covered _ _ _ none ⟨q1 b List.mem_cons_self, ?_, ?_, ?_, fun v h => absurd h (by simp)⟩ h
      · intro hb
        simp only [List.nil_append] at hb
        exact (q3 b hb).2.1 List.mem_cons_self
      · intro Y hY
        simp only [List.nil_append] at hY
        exact (q3 Y hY).1
      · intro _ Y hY hq
        simp only [List.nil_append] at hq
        have hYb : Y = b := by
          rcases q4 Y hY with h | h
          · simpa using h
          · exact absurd h hq
        subst hYb
        refine ⟨?_, by intro h0; simp [h0] at hp, fun a ha => q2 a ha⟩
        intro i hi
        rw [hreg] at hi
        exact scan_pass _ hsc i (by simpa using hi)

end DK
