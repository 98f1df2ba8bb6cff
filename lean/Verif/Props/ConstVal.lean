import Verif.Spec.ConstVal

/-! C193: constants that are found equal have the same value. -/

set_option autoImplicit false

namespace DK
open Spec

/-- The ways in which two constants are found equal. -/
private inductive FoundEqual (casts : Bool) : VConst → VConst → Prop where
  | int {w w' v : Nat} : (casts = false → w = w') → FoundEqual casts (.int w v) (.int w' v)
  | null : FoundEqual casts .null .null
  | glob {n : Str} : FoundEqual casts (.glob n) (.glob n)
  | both {o o' : KCast} {w w' : Nat} {a b : VConst} : cmpVConst casts a b = true → FoundEqual casts (.cast o w a) (.cast o' w' b)
  | left {o : KCast} {w : Nat} {a r : VConst} : casts = true → cmpVConst casts a r = true → FoundEqual casts (.cast o w a) r
  | right {o : KCast} {w : Nat} {l b : VConst} : casts = true → cmpVConst casts l b = true → FoundEqual casts l (.cast o w b)
  | bin {o o' : KBin} {a b a' b' : VConst} : cmpVConst casts a a' = true → cmpVConst casts b b' = true →
      FoundEqual casts (.bin o a b) (.bin o' a' b')
  | gep {o o' : Nat} {a b a' b' : VConst} : cmpVConst casts a a' = true → cmpVConst casts b b' = true →
      FoundEqual casts (.gep o a b) (.gep o' a' b')
  | mixedL {o : KBin} {e : Nat} {a b a' b' : VConst} : FoundEqual casts (.bin o a b) (.gep e a' b')
  | mixedR {o : KBin} {e : Nat} {a b a' b' : VConst} : FoundEqual casts (.gep e a b) (.bin o a' b')

private theorem found {casts : Bool} {l r : VConst} (h : cmpVConst casts l r = true) : FoundEqual casts l r := by
  rw [cmpVConst.eq_def] at h
  cases l <;> cases r <;>
    simp only [VConst.isNull, VConst.ty, sameKTy, sameKInt, Bool.or_eq_true, Bool.and_eq_true, Bool.or_false, Bool.false_or,
      Bool.and_false, Bool.false_and, Bool.true_and, Bool.and_true, decide_eq_true_eq, reduceIte, Bool.false_eq_true, or_false,
      false_or, and_false, false_and, Bool.or_self, Bool.and_self, Bool.or_true, Bool.true_or, ite_self] at h
  all_goals first
    | exact h.elim
    | exact .null
    | exact .mixedL
    | exact .mixedR
    | (subst h; exact .glob)
    | exact .left h.1 h.2
    | exact .right h.1 h.2
    | exact .bin h.2.1 h.2.2
    | exact .gep h.1 h.2
    | exact .both (h.elim (fun h => h.2) (fun h => h.2))
    | skip
  rename_i w v w' v'
  have hv : v = v' := by
    have h2 := h.2
    split at h2
    · rw [Bool.and_eq_true, decide_eq_true_eq, decide_eq_true_eq] at h2
      omega
    · rw [Bool.or_eq_true, Bool.and_eq_true, Bool.and_eq_true, decide_eq_true_eq, decide_eq_true_eq] at h2
      exact h2.elim (fun h => h.2) (fun h => h.2)
  subst hv
  refine .int fun hc => ?_
  have h1 := h.1
  rw [hc, if_neg (by simp), decide_eq_true_eq] at h1
  exact h1

/-- **C193** (false) Constants that are found equal have the same value, wherever global values are. -/
def C193_statement (casts : Bool) : Prop :=
  ∀ (addr : Str → Nat) (l r : VConst), IntsFit l → IntsFit r → cmpVConst casts l r = true → kValue addr l = kValue addr r

/-- Without the pattern for casts: elements 1 of arrays of bytes and of integers are found equal, as the size of
elements is not compared. -/
theorem C193_fails : ¬ C193_statement false := by
  intro h
  have := h (fun _ => 4096) (.gep 1 (.glob (str! "a")) (.int 64 1)) (.gep 4 (.glob (str! "a")) (.int 64 1)) ⟨trivial, by
    unfold IntsFit; decide⟩ ⟨trivial, by unfold IntsFit; decide⟩ (by simp [cmpVConst, sameKTy, sameKInt, VConst.ty, VConst.isNull])
  revert this
  decide

/-- Without the pattern for casts: sum and difference are found equal. -/
theorem C193_fails_operation : ¬ C193_statement false := by
  intro h
  have := h (fun _ => 4096) (.bin .add (.cast .ptrToInt 64 (.glob (str! "a"))) (.int 64 1))
    (.bin .sub (.cast .ptrToInt 64 (.glob (str! "a"))) (.int 64 1)) ⟨trivial, by unfold IntsFit; decide⟩
    ⟨trivial, by unfold IntsFit; decide⟩ (by simp [cmpVConst, sameKTy, sameKInt, VConst.ty, VConst.isNull])
  revert this
  decide

/-- With the pattern for casts: an address and its last 8 bits are found equal. -/
theorem C193_fails_cast : ¬ C193_statement true := by
  intro h
  have := h (fun _ => 4096) (.cast .trunc 8 (.cast .ptrToInt 64 (.glob (str! "a")))) (.cast .ptrToInt 64 (.glob (str! "a")))
    trivial trivial (by simp [cmpVConst, sameKTy, sameKInt, VConst.ty, VConst.isNull])
  revert this
  decide

/-- **C193** Without the pattern for casts. If the constants have the same operations and casts, they are only found equal if
they are the same. Missing: constants with different operations, casts or sizes of elements. -/
theorem C193_same_partial (l r : VConst) (hf : kForm l = kForm r) (h : cmpVConst false l r = true) : l = r := by
  induction l generalizing r with
  | int w v =>
    cases found h with
    | int hw => rw [hw rfl]
    | right hc => cases hc
  | null =>
    cases found h with
    | null => rfl
    | right hc => cases hc
  | glob n =>
    cases found h with
    | glob => rfl
    | right hc => cases hc
  | cast op w c ih =>
    cases found h with
    | both hc =>
      rw [kForm, kForm] at hf
      cases (VConst.cast.inj hf).1
      cases (VConst.cast.inj hf).2.1
      rw [ih _ (VConst.cast.inj hf).2.2 hc]
    | left hc => cases hc
    | right hc => cases hc
  | bin op a b iha ihb =>
    cases found h with
    | bin h1 h2 =>
      rw [kForm, kForm] at hf
      cases (VConst.bin.inj hf).1
      rw [iha _ (VConst.bin.inj hf).2.1 h1, ihb _ (VConst.bin.inj hf).2.2 h2]
    | right hc => cases hc
    | mixedL => rw [kForm, kForm] at hf; cases hf
  | gep e a b iha ihb =>
    cases found h with
    | gep h1 h2 =>
      rw [kForm, kForm] at hf
      cases (VConst.gep.inj hf).1
      rw [iha _ (VConst.gep.inj hf).2.1 h1, ihb _ (VConst.gep.inj hf).2.2 h2]
    | right hc => cases hc
    | mixedR => rw [kForm, kForm] at hf; cases hf

private theorem value_of_size (casts : Bool) (addr : Str → Nat) (n : Nat) : ∀ (l r : VConst), sizeOf l + sizeOf r ≤ n →
    IntsFit l → IntsFit r → CastsKeep addr l → CastsKeep addr r → kOps l = kOps r → cmpVConst casts l r = true →
    kValue addr l = kValue addr r := by
  induction n with
  | zero =>
    intro l r hn
    cases l <;> simp at hn
  | succ n ih =>
    intro l r hn hl hr kl kr ho h
    cases found h with
    | int =>
      rw [kValue, kValue, Nat.mod_eq_of_lt hl, Nat.mod_eq_of_lt hr]
    | null => rfl
    | glob => rfl
    | both hc =>
      rw [kl.1, kr.1]
      refine ih _ _ ?_ hl hr kl.2 kr.2 ho hc
      simp at hn ⊢
      omega
    | left _ hc =>
      rw [kl.1]
      refine ih _ _ ?_ hl hr kl.2 kr ho hc
      simp at hn ⊢
      omega
    | right _ hc =>
      rw [kr.1]
      refine ih _ _ ?_ hl hr kl kr.2 ho hc
      simp at hn ⊢
      omega
    | bin h1 h2 =>
      rw [kOps, kOps] at ho
      obtain ⟨e1, e2, e3, e4⟩ := KOps.bin.inj ho
      subst e1
      have v1 := ih _ _ (by simp at hn ⊢; omega) hl.1 hr.1 kl.1 kr.1 e3 h1
      have v2 := ih _ _ (by simp at hn ⊢; omega) hl.2 hr.2 kl.2 kr.2 e4 h2
      rename_i o _ _ _ _
      cases o <;> rw [kValue, kValue, v1, v2, e2]
    | gep h1 h2 =>
      rw [kOps, kOps] at ho
      obtain ⟨e1, e2, e3, e4⟩ := KOps.gep.inj ho
      subst e1
      have v1 := ih _ _ (by simp at hn ⊢; omega) hl.1 hr.1 kl.1 kr.1 e3 h1
      have v2 := ih _ _ (by simp at hn ⊢; omega) hl.2 hr.2 kl.2 kr.2 e4 h2
      rw [kValue, kValue, v1, v2, e2]
    | mixedL => rw [kOps, kOps] at ho; cases ho
    | mixedR => rw [kOps, kOps] at ho; cases ho

/-- **C193** With and without the pattern for casts. If no cast changes a value, and the other operations are the same,
constants that are found equal have the same value. Missing: casts that change values, different operations. -/
theorem C193_value_partial (casts : Bool) (addr : Str → Nat) (l r : VConst) (hl : IntsFit l) (hr : IntsFit r)
    (kl : CastsKeep addr l) (kr : CastsKeep addr r) (ho : kOps l = kOps r) (h : cmpVConst casts l r = true) :
    kValue addr l = kValue addr r :=
  value_of_size casts addr _ l r (Nat.le_refl _) hl hr kl kr ho h

private theorem sameKTy_self (casts : Bool) (t : KTy) : sameKTy casts t t = true := by
  cases t with
  | ptr => rfl
  | int w => unfold sameKTy; dsimp only; split <;> simp

/-- **C193** A constant is found equal with itself. -/
theorem C193_self (casts : Bool) (c : VConst) : cmpVConst casts c c = true := by
  induction c with
  | int w v =>
    rw [cmpVConst.eq_def, sameKTy_self]
    by_cases h : v = 0 <;> simp [VConst.isNull, sameKInt, h]
  | null => rw [cmpVConst.eq_def, sameKTy_self]; rfl
  | glob n => rw [cmpVConst.eq_def, sameKTy_self]; simp [VConst.isNull]
  | cast op w c ih => rw [cmpVConst.eq_def, sameKTy_self]; simp [VConst.isNull, ih]
  | bin op a b iha ihb => rw [cmpVConst.eq_def, sameKTy_self]; simp [VConst.isNull, iha, ihb]
  | gep e a b iha ihb => rw [cmpVConst.eq_def, sameKTy_self]; simp [VConst.isNull, iha, ihb]

private theorem rule_both {a b : VConst} {o o' : KCast} {w w' : Nat} (h : cmpVConst true a b = true) :
    cmpVConst true (.cast o w a) (.cast o' w' b) = true := by
  rw [cmpVConst.eq_def, Bool.or_eq_true]
  exact Or.inr h

private theorem drop_left (n : Nat) : ∀ (a r : VConst) (o : KCast) (w : Nat), sizeOf a + sizeOf r ≤ n →
    cmpVConst true (.cast o w a) r = true → cmpVConst true a r = true := by
  induction n with
  | zero => intro a r _ _ hn; cases a <;> simp at hn
  | succ n ih =>
    intro a r o w hn h
    have up : ∀ (b : VConst) (o' : KCast) (w' : Nat), r = .cast o' w' b → cmpVConst true a b = true → cmpVConst true a r = true := by
      intro b o' w' hr hb
      subst hr
      cases a with
      | cast o2 w2 a2 => exact rule_both (ih a2 b o2 w2 (by simp at hn ⊢; omega) hb)
      | _ =>
        rw [cmpVConst.eq_def, Bool.or_eq_true]
        exact Or.inr hb
    cases found h with
    | both hc => exact up _ _ _ rfl hc
    | left _ hc => exact hc
    | right _ hc => exact up _ _ _ rfl (ih a _ o w (by simp at hn ⊢; omega) hc)

private theorem drop_right (n : Nat) : ∀ (l b : VConst) (o : KCast) (w : Nat), sizeOf l + sizeOf b ≤ n →
    cmpVConst true l (.cast o w b) = true → cmpVConst true l b = true := by
  induction n with
  | zero => intro l b _ _ hn; cases l <;> simp at hn
  | succ n ih =>
    intro l b o w hn h
    have up : ∀ (a : VConst) (o' : KCast) (w' : Nat), l = .cast o' w' a → cmpVConst true a b = true → cmpVConst true l b = true := by
      intro a o' w' hl ha
      subst hl
      cases b with
      | cast o2 w2 b2 => exact rule_both (ih a b2 o2 w2 (by simp at hn ⊢; omega) ha)
      | _ =>
        rw [cmpVConst.eq_def, Bool.or_eq_true]
        exact Or.inr ha
    cases found h with
    | both hc => exact up _ _ _ rfl hc
    | right _ hc => exact hc
    | left _ hc => exact up _ _ _ rfl (ih _ b o w (by simp at hn ⊢; omega) hc)

/-- **C193** With the pattern for casts, outer casts play no role on either side. -/
theorem C193_cast (l r : VConst) (op : KCast) (w : Nat) :
    cmpVConst true (.cast op w l) r = cmpVConst true l r ∧ cmpVConst true l (.cast op w r) = cmpVConst true l r := by
  constructor
  · rw [Bool.eq_iff_iff]
    refine ⟨drop_left _ l r op w (Nat.le_refl _), fun h => ?_⟩
    cases r with
    | cast o' w' b => exact rule_both (drop_right _ l b o' w' (Nat.le_refl _) h)
    | _ =>
      rw [cmpVConst.eq_def, Bool.or_eq_true]
      exact Or.inr h
  · rw [Bool.eq_iff_iff]
    refine ⟨drop_right _ l r op w (Nat.le_refl _), fun h => ?_⟩
    cases l with
    | cast o' w' a => exact rule_both (drop_left _ a r o' w' (Nat.le_refl _) h)
    | _ =>
      rw [cmpVConst.eq_def, Bool.or_eq_true]
      exact Or.inr h

/-- The address of an element, once computed with 32 and once with 64 bits for the index, and an integer that is extended. -/
example :
    cmpVConst true (.gep 4 (.glob (str! "a")) (.cast .zext 64 (.int 32 3))) (.gep 4 (.glob (str! "a")) (.int 64 3)) = true ∧
    cmpVConst false (.gep 4 (.glob (str! "a")) (.cast .zext 64 (.int 32 3))) (.gep 4 (.glob (str! "a")) (.int 64 3)) = false ∧
    kOps (.gep 4 (.glob (str! "a")) (.cast .zext 64 (.int 32 3))) = kOps (.gep 4 (.glob (str! "a")) (.int 64 3)) ∧
    CastsKeep (fun _ => 4096) (.gep 4 (.glob (str! "a")) (.cast .zext 64 (.int 32 3))) ∧
    kValue (fun _ => 4096) (.gep 4 (.glob (str! "a")) (.int 64 3)) = 4108 ∧
    cmpVConst false (.bin .add (.cast .ptrToInt 64 (.glob (str! "a"))) (.int 64 1))
      (.bin .add (.cast .ptrToInt 64 (.glob (str! "a"))) (.int 64 2)) = false := by
  refine ⟨by simp [cmpVConst, sameKTy, sameKInt, VConst.ty, VConst.isNull], by
    simp [cmpVConst, sameKTy, VConst.ty, VConst.isNull], by decide, ⟨trivial, by decide, trivial⟩, by decide, by
    simp [cmpVConst, sameKTy, sameKInt, VConst.ty, VConst.isNull]⟩

end DK
