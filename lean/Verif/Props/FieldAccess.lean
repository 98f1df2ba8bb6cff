import Verif.Lemmas.FieldAccess

/-! Sequences of field accesses are compared by the sum of their offsets: C124 and C125. -/

set_option autoImplicit false

namespace DK
open Spec

/-! ### C124: blocks with accesses that are found equal do the same -/

def C124_statement : Prop :=
  ∀ (n : Nat) (L R : List FInst), FWellFormed n L → FWellFormed n R → cmpFBlocks n L R = true →
    ∀ (args : Nat → Nat) (world : FTrace → Nat), ftrace args world L = ftrace args world R

/-- An operand of the instruction at position `i` is in range. -/
def inRange (n i : Nat) : FVal → Bool
  | .arg k => decide (k < n)
  | .inst k => decide (k < i)

def isOther : FInst → Bool
  | .op _ _ => true
  | _ => false

/-- A test for well-formed blocks. -/
theorem fWellFormed_of {n : Nat} {prog : List FInst}
    (h : ∀ i : Fin prog.length, ∀ v ∈ foperands prog[i], inRange n i.val v = true)
    (hl : prog.getLast?.all isOther = true ∧ prog ≠ []) : FWellFormed n prog := by
  refine ⟨fun i x hx v hv => ?_, ?_⟩
  · obtain ⟨hi, rfl⟩ := List.getElem?_eq_some_iff.1 hx
    have := h ⟨i, hi⟩ v hv
    exact ⟨fun k e => by subst e; simpa [inRange] using this,
      fun k e => by subst e; simpa [inRange] using this⟩
  · rw [List.getLast?_eq_some_getLast hl.2] at hl ⊢
    have h1 := hl.1
    simp only [Option.all_some] at h1
    cases hx : prog.getLast hl.2 with
    | op c as => exact ⟨c, as, rfl⟩
    | gep p o => rw [hx] at h1; cases h1
    | cast v => rw [hx] at h1; cases h1

/-- `p + 4`, `p + 8` and a use of both. -/
def exInnerL : List FInst := [.gep (.arg 0) 4, .gep (.inst 0) 4, .op 1 [.inst 0, .inst 1]]

/-- `p + 6`, `p + 8` and a use of both. -/
def exInnerR : List FInst := [.gep (.arg 0) 6, .gep (.inst 0) 2, .op 1 [.inst 0, .inst 1]]

/-- The first pointers of two accesses keep the same number although they differ, so that other uses
of them are found equal. -/
theorem C124_fails : ¬ C124_statement := fun h => by
  have := h 1 exInnerL exInnerR (fWellFormed_of (by decide +kernel) (by decide +kernel))
    (fWellFormed_of (by decide +kernel) (by decide +kernel)) (by decide +kernel) (fun _ => 0)
    (fun _ => 0)
  exact absurd this (by decide +kernel)

/-- Offsets that differ by 4 GiB are found equal. -/
theorem C124_fails_wide : ¬ C124_statement := fun h => by
  have := h 1 [.gep (.arg 0) 8, .op 1 [.inst 0]] [.gep (.arg 0) (2 ^ 32 + 8), .op 1 [.inst 0]]
    (fWellFormed_of (by decide +kernel) (by decide +kernel))
    (fWellFormed_of (by decide +kernel) (by decide +kernel)) (by decide +kernel) (fun _ => 0)
    (fun _ => 0)
  exact absurd this (by decide +kernel)

/-- `p + 8` in one step, `q + 4`, `r + 2` in two steps, and a use of `q + 4`. -/
def exShiftL : List FInst :=
  [.gep (.arg 0) 8, .gep (.arg 1) 4, .gep (.arg 2) 1, .gep (.inst 2) 1, .op 1 [.inst 1]]

/-- `p + 8` in two steps, `q + 4`, `r + 2` in one step, and a use of `p + 8`. -/
def exShiftR : List FInst :=
  [.gep (.arg 0) 4, .gep (.inst 0) 4, .gep (.arg 1) 4, .gep (.arg 2) 2, .op 1 [.inst 1]]

/-- After accesses with different numbers of steps, different values have the same number: a use of
`q + 4` is found equal to a use of `p + 8`, although pointers inside accesses are used once. -/
theorem C124_fails_shifted : ¬ C124_statement := fun h => by
  have := h 3 exShiftL exShiftR (fWellFormed_of (by decide +kernel) (by decide +kernel))
    (fWellFormed_of (by decide +kernel) (by decide +kernel)) (by decide +kernel) (fun _ => 0)
    (fun _ => 0)
  exact absurd this (by decide +kernel)

/-- Blocks that are found equal execute the same instructions with the same operands, if pointers
inside accesses are used only for the next step, offsets fit in 32 bits, there are no casts and zero
steps, and one of the two blocks has the accesses with more steps. Missing: casts and zero steps,
and blocks of which both have accesses with more steps than the other. -/
theorem C124_sound_partial (n : Nat) (L R : List FInst) (wL : FWellFormed n L)
    (wR : FWellFormed n R) (hL : SmallSteps L) (hR : SmallSteps R) (oL : InnerOnce L)
    (oR : InnerOnce R)
    (hs : List.Forall₂ (fun a b => b ≤ a) (accessSteps L 0 0) (accessSteps R 0 0) ∨
      List.Forall₂ (fun a b => b ≤ a) (accessSteps R 0 0) (accessSteps L 0 0))
    (h : cmpFBlocks n L R = true) (args : Nat → Nat) (world : FTrace → Nat) :
    ftrace args world L = ftrace args world R := by
  rcases hs with hs | hs
  · exact cmpFBlocks_sound hL hR wL wR oL oR hs h args world
  · rw [← cmpFBlocks_swap] at h
    exact (cmpFBlocks_sound hR hL wR wL oR oL hs h args world).symm

/-- The order of the versions does not matter. -/
theorem C124_symmetric (n : Nat) (L R : List FInst) : cmpFBlocks n R L = cmpFBlocks n L R :=
  cmpFBlocks_swap n L R

/-- A load from `p + 12`, in three steps and in two steps. -/
def exStepsL : List FInst :=
  [.gep (.arg 0) 4, .gep (.inst 0) 6, .gep (.inst 1) 2, .op 1 [.inst 2], .op 2 [.inst 3]]
def exStepsR : List FInst :=
  [.gep (.arg 0) 8, .gep (.inst 0) 4, .op 1 [.inst 1], .op 2 [.inst 2]]

/-- The pointer of an address computation is the result at position `i`. -/
def stepFrom (i : Nat) : FInst → Bool
  | .gep q _ => q == .inst i
  | _ => false

theorem innerOnce_of {prog : List FInst}
    (h : ∀ i : Fin prog.length, ∀ k : Fin prog.length,
      prog[i.val + 1]?.any (stepFrom i.val) = true → .inst i.val ∈ foperands prog[k] →
        k.val = i.val + 1) : InnerOnce prog := by
  intro i p o o' h1 h2 k x h3 h4
  obtain ⟨hi, e1⟩ := List.getElem?_eq_some_iff.1 h1
  obtain ⟨hk, rfl⟩ := List.getElem?_eq_some_iff.1 h3
  exact h ⟨i, hi⟩ ⟨k, hk⟩ (by simp [h2, stepFrom]) h4

theorem smallSteps_of {prog : List FInst}
    (h : ∀ x ∈ prog, match x with
      | .cast _ => False
      | .gep _ o => 0 < o ∧ throughInt o = o
      | .op _ _ => True) : SmallSteps prog := fun x hx =>
  ⟨fun v e => by subst e; exact h _ hx, fun p o e => by subst e; exact h _ hx⟩

example : FWellFormed 1 exStepsL ∧ FWellFormed 1 exStepsR ∧ SmallSteps exStepsL ∧
    SmallSteps exStepsR ∧ InnerOnce exStepsL ∧ InnerOnce exStepsR ∧
    List.Forall₂ (fun a b => b ≤ a) (accessSteps exStepsL 0 0) (accessSteps exStepsR 0 0) ∧
    cmpFBlocks 1 exStepsL exStepsR = true := by
  refine ⟨fWellFormed_of (by decide +kernel) (by decide +kernel),
    fWellFormed_of (by decide +kernel) (by decide +kernel), smallSteps_of ?_, smallSteps_of ?_,
    innerOnce_of ?_, innerOnce_of ?_, ?_, by decide +kernel⟩
  · simp [exStepsL, throughInt]
  · simp [exStepsR, throughInt]
  · decide +kernel
  · decide +kernel
  · have e1 : accessSteps exStepsL 0 0 = [3] := by decide +kernel
    have e2 : accessSteps exStepsR 0 0 = [2] := by decide +kernel
    rw [e1, e2]
    exact .cons (by omega) .nil

/-! ### C125: accesses that are only split differently are found equal -/

def C125_statement : Prop :=
  ∀ (n : Nat) (s : List AItem) (offsL offsR : List (List Nat)), AWellFormed n s →
    offsL.length = s.length → offsR.length = s.length →
    (∀ (k : Nat) (p : ARef), s[k]? = some (.access p) →
      ∃ o o', offsL[k]? = some o ∧ offsR[k]? = some o' ∧ SameSum o o') →
    cmpFBlocks n (lower s offsL) (lower s offsR) = true

/-- A use of the member at offset 8. -/
def exUse : List AItem := [.access (.arg 0), .op 1 [.item 0]]

theorem exUse_ok : AWellFormed 1 exUse := by
  intro i x hx v hv
  match i with
  | 0 => cases hx; simp [arefs] at hv; subst hv; simp
  | 1 => cases hx; simp [arefs] at hv; subst hv; simp
  | i + 2 => simp [exUse] at hx

theorem exUse_splits {a b : List Nat} (h : SameSum a b) :
    ∀ (k : Nat) (p : ARef), exUse[k]? = some (.access p) →
      ∃ o o', [a, []][k]? = some o ∧ [b, []][k]? = some o' ∧ SameSum o o' := by
  intro k p hk
  match k with
  | 0 => exact ⟨a, b, rfl, rfl, h⟩
  | 1 => simp [exUse] at hk
  | k + 2 => simp [exUse] at hk

/-- An access in one step is not equal to the same access in two steps. -/
theorem C125_fails : ¬ C125_statement := fun h => by
  have := h 1 exUse [[8], []] [[4, 4], []] exUse_ok rfl rfl (exUse_splits (by
    unfold SameSum; decide +kernel))
  exact absurd this (by decide +kernel)

/-- Accesses in several steps are not equal if all but the last step of one are the first steps of
the other. -/
theorem C125_fails_prefix : ¬ C125_statement := fun h => by
  have := h 1 exUse [[4, 4], []] [[4, 2, 2], []] exUse_ok rfl rfl (exUse_splits (by
    unfold SameSum; decide +kernel))
  exact absurd this (by decide +kernel)

/-- Two versions of a program whose accesses differ only in how they are split into steps are found
equal, if each access has the same steps in both, or several steps of which the first ones differ
(and the next item is no access to its result). Missing: accesses in one step, and accesses with
some first steps in common. -/
theorem C125_split_partial (n : Nat) (s : List AItem) (offsL offsR : List (List Nat))
    (w : AWellFormed n s) (hL : offsL.length = s.length) (hR : offsR.length = s.length)
    (h : ∀ (k : Nat) (p : ARef), s[k]? = some (.access p) →
      ∃ o o', offsL[k]? = some o ∧ offsR[k]? = some o' ∧ SameSum o o' ∧
        (o = o' ∨ (2 ≤ o.length ∧ 2 ≤ o'.length ∧ o.head? ≠ o'.head? ∧
          s[k + 1]? ≠ some (.access (.item k))))) :
    cmpFBlocks n (lower s offsL) (lower s offsR) = true := by
  have nL : NoSkip (lower s offsL) := lowerGo_noSkip fun k p o h1 h2 => by
    obtain ⟨a, b, h3, -, h4, -⟩ := h k p h1
    rw [h2] at h3; cases h3; exact h4.2.2.1
  have nR : NoSkip (lower s offsR) := lowerGo_noSkip fun k p o h1 h2 => by
    obtain ⟨a, b, -, h3, h4, -⟩ := h k p h1
    rw [h2] at h3; cases h3; exact h4.2.2.2.1
  unfold cmpFBlocks
  rw [argNumbers_eq]
  refine cmpFGo_lower nL nR n s offsL offsR [] [] 0 0 _ _ _ ⟨rfl, by simp, by simp, rfl, ?_⟩ hL hR
    (fun t x hx v hv => ⟨(w t x hx v hv).1, fun b hb => by
      have := (w t x hx v hv).2 b hb; simpa using this⟩) ?_ ?_
  · intro v h1 h2
    cases v with
    | arg a => simpa [aref] using h1 a rfl
    | item b => exact absurd (h2 b rfl) (by simp)
  · intro t p hp
    obtain ⟨o, o', h1, h2, h3, h4⟩ := h t p hp
    refine ⟨o, o', h1, h2, h3, ?_, fun hne => ?_⟩
    · rcases h4 with h4 | h4
      · exact .inl h4
      · exact .inr ⟨h4.1, h4.2.1, h4.2.2.1⟩
    · simpa using (h4.resolve_left hne).2.2.2
  · show (lower s offsL).length + (lower s offsR).length < _
    omega

/-- A use of the member at offset 8, in two and three steps. -/
example : AWellFormed 1 exUse ∧ SameSum [5, 3] [4, 2, 2] ∧ [5, 3].head? ≠ [4, 2, 2].head? ∧
    exUse[1]? ≠ some (.access (.item 0)) ∧
    lower exUse [[5, 3], []] = [.gep (.arg 0) 5, .gep (.inst 0) 3, .op 1 [.inst 1]] ∧
    lower exUse [[4, 2, 2], []] =
      [.gep (.arg 0) 4, .gep (.inst 0) 2, .gep (.inst 1) 2, .op 1 [.inst 2]] :=
  ⟨exUse_ok, by unfold SameSum; decide +kernel, by decide, by decide, by decide +kernel,
    by decide +kernel⟩

end DK
