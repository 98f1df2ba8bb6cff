import Verif.Spec.CmpOps

/-! C187: comparisons of integers that are found equal. -/

set_option autoImplicit false

namespace DK

open Spec

/-- C187: two comparisons of integers that are found equal have the same outcome for the same numbers, and those that are
found inverse have opposite outcomes. -/
def C187_statement : Prop :=
  ∀ (c : CmpPats) (sizeL sizeR : NTy → Nat) (p : Nat) (users : Bool) (l r : CmpI) (w w' : Nat)
    (x y : BitVec w) (x' y' : BitVec w'), ComparesInts l w → ComparesInts r w' → SameNumberOf x x' → SameNumberOf y y' →
    (cmpCmps c sizeL sizeR p users l r = .equal → intOutcome x' y' r.pred = intOutcome x y l.pred) ∧
    (cmpCmps c sizeL sizeR p users l r = .inverse →
      ∃ b, intOutcome x y l.pred = some b ∧ intOutcome x' y' r.pred = some (!b))

/-- With the pattern for type casts, a comparison of signed numbers is found equal to one of unsigned numbers. -/
theorem C187_fails : ¬ C187_statement := by
  intro h
  have := (h ⟨⟨false, true⟩, false⟩ (fun _ => 0) (fun _ => 0) 64 false ⟨.slt, .int 32⟩ ⟨.ult, .int 32⟩ 32 32
    (-1) 0 (-1) 0 ⟨rfl, nofun⟩ ⟨rfl, nofun⟩ rfl rfl).1 (by decide +kernel)
  exact absurd this (by decide +kernel)

/-- Comparisons of the same numbers have the same outcome in all widths. -/
theorem outcome_same {w w' : Nat} (x y : BitVec w) (x' y' : BitVec w') (hx : SameNumberOf x x') (hy : SameNumberOf y y')
    (p : Pred) : intOutcome x' y' p = intOutcome x y p := by
  unfold SameNumberOf at hx hy
  have heq : (x' = y') ↔ (x = y) := by
    rw [← BitVec.toInt_inj, ← BitVec.toInt_inj, hx, hy]
  have hb : (x' == y') = (x == y) := by
    rw [Bool.eq_iff_iff, beq_iff_eq, beq_iff_eq]; exact heq
  have hult : ∀ {a b : BitVec w} {a' b' : BitVec w'}, a.toInt = a'.toInt → b.toInt = b'.toInt →
      (a'.toNat < b'.toNat ↔ a.toNat < b.toNat) := by
    intro a b a' b' ha hb
    have l1 := a.isLt
    have l2 := b.isLt
    have l3 := a'.isLt
    have l4 := b'.isLt
    rw [BitVec.toInt_eq_toNat_cond, BitVec.toInt_eq_toNat_cond] at ha hb
    split at ha <;> split at ha <;> split at hb <;> split at hb <;> omega
  have h1 := hult hx hy
  have h2 := hult hy hx
  cases p <;>
    simp (failIfUnchanged := false) only [intOutcome, BitVec.ult, BitVec.ule, BitVec.slt, BitVec.sle, hx, hy,
      Option.some.injEq, decide_eq_decide]
  case eq => rw [hb]
  case ne => rw [bne, bne, hb]
  all_goals omega

/-- For numbers that are not negative, the sign of the predicate does not matter. -/
theorem outcome_unsigned {w : Nat} (x y : BitVec w) (hx : 0 ≤ x.toInt) (hy : 0 ≤ y.toInt) (p : Pred) :
    intOutcome x y p.unsigned = intOutcome x y p := by
  have l1 := x.isLt
  have l2 := y.isLt
  have ex : x.toInt = x.toNat := by
    rw [BitVec.toInt_eq_toNat_cond] at hx ⊢
    split at hx <;> rename_i hc
    · rw [if_pos hc]
    · omega
  have ey : y.toInt = y.toNat := by
    rw [BitVec.toInt_eq_toNat_cond] at hy ⊢
    split at hy <;> rename_i hc
    · rw [if_pos hc]
    · omega
  cases p <;>
    simp only [Pred.unsigned, intOutcome, BitVec.ult, BitVec.ule, BitVec.slt, BitVec.sle, ex, ey, Option.some.injEq,
      decide_eq_decide] <;> omega

/-- The outcomes of inverse predicates are opposite. -/
theorem outcome_inverse {w : Nat} (x y : BitVec w) (p : Pred) (hp : ∀ m, p ≠ .f m) :
    ∃ b, intOutcome x y p.inverse = some b ∧ intOutcome x y p = some (!b) := by
  refine ⟨(intOutcome x y p.inverse).getD true, ?_⟩
  cases p <;> simp only [Pred.inverse, intOutcome, BitVec.ult, BitVec.ule, BitVec.slt, BitVec.sle, Option.getD_some,
    true_and, Option.some.injEq]
  case eq => rw [bne, Bool.not_not]
  case ne => rw [bne]
  case f m => exact absurd rfl (hp m)
  all_goals
    rw [Bool.eq_iff_iff]
    simp

/-- **C187** (partial): it holds if both comparisons are signed or both are unsigned, also for different widths, and
always for numbers that are not negative. Missing: comparisons of negative numbers that differ in the sign, see
`C187_fails`. -/
theorem C187_outcome_partial (c : CmpPats) (sizeL sizeR : NTy → Nat) (p : Nat) (users : Bool) (l r : CmpI) (w w' : Nat)
    (x y : BitVec w) (x' y' : BitVec w') (hl : ComparesInts l w) (hr : ComparesInts r w')
    (hx : SameNumberOf x x') (hy : SameNumberOf y y') (hs : l.pred = r.pred ∨ 0 ≤ x.toInt ∧ 0 ≤ y.toInt) :
    cmpCmps c sizeL sizeR p users l r = .equal → intOutcome x' y' r.pred = intOutcome x y l.pred := by
  intro h
  rw [outcome_same x y x' y' hx hy]
  rcases hs with hs | ⟨h1, h2⟩
  · rw [hs]
  · unfold cmpCmps at h
    dsimp only at h
    split at h
    · rename_i hc
      simp only [Bool.and_eq_true, decide_eq_true_eq] at hc
      rw [hc.2]
    · split at h
      · rename_i hc
        simp only [Bool.and_eq_true, decide_eq_true_eq] at hc
        rw [← outcome_unsigned x y h1 h2 r.pred, ← hc.2, outcome_unsigned x y h1 h2]
      · split at h <;> exact nomatch h

/-- **C187** (partial): comparisons that are found inverse have opposite outcomes for all numbers. -/
theorem C187_inverse_partial (c : CmpPats) (sizeL sizeR : NTy → Nat) (p : Nat) (users : Bool) (l r : CmpI) (w w' : Nat)
    (x y : BitVec w) (x' y' : BitVec w') (_hl : ComparesInts l w) (hr : ComparesInts r w')
    (hx : SameNumberOf x x') (hy : SameNumberOf y y') :
    cmpCmps c sizeL sizeR p users l r = .inverse →
      ∃ b, intOutcome x y l.pred = some b ∧ intOutcome x' y' r.pred = some (!b) := by
  intro h
  rw [outcome_same x y x' y' hx hy]
  unfold cmpCmps at h
  dsimp only at h
  split at h
  · exact nomatch h
  · split at h
    · exact nomatch h
    · split at h
      · rename_i hc
        simp only [Bool.and_eq_true, decide_eq_true_eq] at hc
        rw [hc.1.2]
        exact outcome_inverse x y r.pred hr.2
      · exact nomatch h

/-- **C187** (partial): without the pattern for type casts, comparisons of integers that are found equal have the same
outcome for all numbers, and they are of the same width. -/
theorem C187_strict_partial (c : CmpPats) (hc : c.tys.casts = false) (sizeL sizeR : NTy → Nat) (p : Nat) (users : Bool)
    (l r : CmpI) (w w' : Nat) (x y : BitVec w) (x' y' : BitVec w') (hl : ComparesInts l w) (hr : ComparesInts r w')
    (hx : SameNumberOf x x') (hy : SameNumberOf y y') (h : cmpCmps c sizeL sizeR p users l r = .equal) :
    w = w' ∧ intOutcome x' y' r.pred = intOutcome x y l.pred := by
  have hp : cmpNamed c.tys sizeL sizeR p l.ty r.ty = 0 ∧ l.pred = r.pred := by
    unfold cmpCmps at h
    dsimp only at h
    rw [hc] at h
    split at h
    · rename_i hc
      simp only [Bool.and_eq_true, decide_eq_true_eq] at hc
      exact hc
    · simp only [Bool.false_and, Bool.false_eq_true, if_false] at h
      split at h <;> exact nomatch h
  refine ⟨?_, C187_outcome_partial c sizeL sizeR p users l r w w' x y x' y' hl hr hx hy (.inl hp.2) h⟩
  have h0 := hp.1
  rw [hl.1, hr.1] at h0
  unfold cmpNamed at h0
  rw [hc] at h0
  simp only [unionRule, NTy.isStruct, Bool.false_eq_true, if_false, Bool.false_and, Bool.and_false] at h0
  unfold cmpNum at h0
  split at h0
  · exact absurd h0 (by decide)
  · split at h0
    · exact absurd h0 (by decide)
    · omega

/-- The theorems apply: `a < b` of 32 and of 64 bits with casts ignored; a signed and an unsigned comparison; an inverted
condition. -/
example : cmpCmps ⟨⟨true, true⟩, true⟩ (fun _ => 0) (fun _ => 0) 64 true ⟨.slt, .int 32⟩ ⟨.slt, .int 64⟩ = .equal ∧
    cmpCmps ⟨⟨true, true⟩, true⟩ (fun _ => 0) (fun _ => 0) 64 true ⟨.slt, .int 32⟩ ⟨.ult, .int 64⟩ = .equal ∧
    cmpCmps ⟨⟨true, false⟩, true⟩ (fun _ => 0) (fun _ => 0) 64 true ⟨.slt, .int 32⟩ ⟨.sge, .int 32⟩ = .inverse ∧
    cmpCmps ⟨⟨true, false⟩, true⟩ (fun _ => 0) (fun _ => 0) 64 true ⟨.slt, .int 32⟩ ⟨.ult, .int 32⟩ = .differ ∧
    ComparesInts ⟨.slt, .int 32⟩ 32 ∧ SameNumberOf (-5 : BitVec 32) (-5 : BitVec 64) ∧
    0 ≤ (7 : BitVec 32).toInt :=
  ⟨by decide +kernel, by decide +kernel, by decide +kernel, by decide +kernel, ⟨rfl, nofun⟩,
    by unfold SameNumberOf; decide +kernel, by decide +kernel⟩

end DK
