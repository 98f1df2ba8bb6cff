import Verif.Lemmas.NamedTypes

/-! Comparison of types and integer constants with patterns: C126-C129. -/

set_option autoImplicit false

namespace DK
open Spec

/-- A union of a pointer, called `union.u`. -/
def exUnion : NTy := .struct (str! "union.u") false [.ptr 0]

/-- A structure of two integers, called `struct.s`. -/
def exStruct : NTy := .struct (str! "struct.s") false [.int 32, .int 16]

def size64 (t : NTy) : Nat := (layOf lay64 t).1

/-! ### C126: the order of the versions does not matter -/

def C126_statement : Prop :=
  ∀ (c : TyPats) (sizeL sizeR : NTy → Nat) (p : Nat) (l r : NTy),
    cmpNamed c sizeL sizeR p l r = 0 → cmpNamed c sizeR sizeL p r l = 0

/-- A union is equal to a structure, but the structure is not equal to the union. -/
theorem C126_fails : ¬ C126_statement := fun h => by
  have := h ⟨true, false⟩ size64 size64 64 exUnion exStruct (by decide +kernel)
  exact absurd this (by decide +kernel)

/-- The larger of two unions is equal to the smaller one, but not the other way round. -/
theorem C126_fails_unions : ¬ C126_statement := fun h => by
  have := h ⟨true, false⟩ size64 size64 64 exUnion
    (.struct (str! "union.v") false [.int 32]) (by decide +kernel)
  exact absurd this (by decide +kernel)

/-- For types without unions, or without the pattern for changed structures, the order of the
versions does not matter. Missing: types with unions. -/
theorem C126_symmetric_partial (c : TyPats) (sizeL sizeR : NTy → Nat) (p : Nat) (l r : NTy)
    (hu : c.structAlign = false ∨ noUnions l = true ∧ noUnions r = true) :
    cmpNamed c sizeL sizeR p l r = 0 ↔ cmpNamed c sizeR sizeL p r l = 0 := by
  have hl : NoUnionRule c l := hu.elim .inl fun h => .inr h.1
  have hr : NoUnionRule c r := hu.elim .inl fun h => .inr h.2
  exact ⟨cmpNamed_symm c sizeL sizeR p l r hl hr, cmpNamed_symm c sizeR sizeL p r l hr hl⟩

example : noUnions (.struct (str! "struct.s") false [.array 4 (.int 8), .int 64]) = true ∧
    cmpNamed ⟨true, true⟩ size64 size64 64
      (.struct (str! "struct.s") false [.array 4 (.int 8), .int 64])
      (.struct (str! "struct.t") false [.array 9 (.int 16), .int 32]) = 0 := by decide +kernel

/-! ### C127: equal types have the same layout -/

def C127_statement : Prop :=
  ∀ (c : TyPats) (D : DataLay) (p : Nat) (l r : NTy), D.ptr 0 = D.int p →
    cmpNamed c (fun t => (layOf D t).1) (fun t => (layOf D t).1) p l r = 0 →
    layOf D l = layOf D r

/-- A union of eight bytes is equal to an integer of two bytes. -/
theorem C127_fails : ¬ C127_statement := fun h =>
  absurd (h ⟨true, false⟩ lay64 64 exUnion (.int 16) (by decide +kernel) (by decide +kernel))
    (by decide +kernel)

/-- When casts are ignored, arrays of any lengths are equal. -/
theorem C127_fails_arrays : ¬ C127_statement := fun h =>
  absurd (h ⟨false, true⟩ lay64 64 (.array 4 (.int 8)) (.array 64 (.int 8)) (by decide +kernel)
    (by decide +kernel)) (by decide +kernel)

/-- Without the pattern for casts, types that are found equal have the same size and alignment if
they have no unions (or the pattern for changed structures is off). Missing: unions, and types that
are equal only because casts are ignored. -/
theorem C127_layout_partial (c : TyPats) (D : DataLay) (sizeL sizeR : NTy → Nat) (p : Nat)
    (l r : NTy) (hp : D.ptr 0 = D.int p) (hc : c.casts = false)
    (hu : c.structAlign = false ∨ noUnions l = true ∧ noUnions r = true)
    (h : cmpNamed c sizeL sizeR p l r = 0) : layOf D l = layOf D r :=
  cmpNamed_layout hc D sizeL sizeR p hp l r (hu.elim .inl fun h => .inr h.1)
    (hu.elim .inl fun h => .inr h.2) h

example : lay64.ptr 0 = lay64.int 64 ∧
    cmpNamed ⟨true, false⟩ size64 size64 64 (.struct (str! "struct.s") false [.int 8, .ptr 0])
      (.struct (str! "struct.t") false [.int 8, .int 64]) = 0 ∧
    layOf lay64 (.struct (str! "struct.s") false [.int 8, .ptr 0]) = (16, 8) := by
  decide +kernel

/-! ### C128: equality of types carries over -/

def C128_statement : Prop :=
  ∀ (c : TyPats) (size₁ size₂ size₃ : NTy → Nat) (p : Nat) (s t u : NTy),
    cmpNamed c size₁ size₂ p s t = 0 → cmpNamed c size₂ size₃ p t u = 0 →
    cmpNamed c size₁ size₃ p s u = 0

/-- When casts are ignored, a short integer is equal to a long one, and the long one to a pointer,
but the short one is not equal to the pointer. -/
theorem C128_fails : ¬ C128_statement := fun h =>
  absurd (h ⟨false, true⟩ size64 size64 size64 64 (.int 32) (.int 64) (.ptr 0)
    (by decide +kernel) (by decide +kernel)) (by decide +kernel)

/-- Two types that are equal to the same union need not be equal. -/
theorem C128_fails_union : ¬ C128_statement := fun h =>
  absurd (h ⟨true, false⟩ size64 size64 size64 64 (.int 32) exUnion (.int 16)
    (by decide +kernel) (by decide +kernel)) (by decide +kernel)

/-- Without these two patterns at work, equality of types is transitive, over any number of
versions. Missing: unions, and types compared with casts ignored. -/
theorem C128_transitive_partial (c : TyPats) (size₁ size₂ size₃ : NTy → Nat) (p : Nat)
    (s t u : NTy) (hc : c.casts = false)
    (hu : c.structAlign = false ∨
      noUnions s = true ∧ noUnions t = true ∧ noUnions u = true)
    (h1 : cmpNamed c size₁ size₂ p s t = 0) (h2 : cmpNamed c size₂ size₃ p t u = 0) :
    cmpNamed c size₁ size₃ p s u = 0 :=
  cmpNamed_trans hc size₁ size₂ size₃ p (hu.elim .inl fun h => .inr h.1)
    (hu.elim .inl fun h => .inr h.2.1) (hu.elim .inl fun h => .inr h.2.2) h1 h2

/-- Every type is equal to itself, whatever the patterns and layouts are. -/
theorem C128_reflexive (c : TyPats) (sizeL sizeR : NTy → Nat) (p : Nat) (t : NTy) :
    cmpNamed c sizeL sizeR p t t = 0 := cmpNamed_refl c sizeL sizeR p t

example : cmpNamed ⟨true, false⟩ size64 size64 64 (.array 2 (.ptr 0)) (.array 2 (.int 64)) = 0 ∧
    cmpNamed ⟨true, false⟩ size64 size64 64 (.array 2 (.int 64)) (.array 2 (.ptr 0)) = 0 ∧
    cmpNamed ⟨true, false⟩ size64 size64 64 (.array 2 (.int 64)) (.array 3 (.int 64)) ≠ 0 := by
  decide +kernel

/-! ### C129: integer constants of different widths -/

def C129_statement : Prop :=
  ∀ (casts : Bool) (a b : Nat × Nat), a.2 < 2 ^ a.1 → b.2 < 2 ^ b.1 →
    (casts = true ∨ a.1 = b.1) →
    (cmpAPIntCasts casts a b = some 0 ↔ signedVal a = signedVal b)

/-- `-1` of eight and of 32 bits are not equal, although one is a cast of the other. -/
theorem C129_fails : ¬ C129_statement := fun h =>
  absurd ((h true (8, 255) (32, 2 ^ 32 - 1) (by decide) (by decide) (.inl rfl)).2
    (by decide +kernel)) (by decide +kernel)

/-- `-1` of eight bits is equal to `255` of 32 bits. -/
theorem C129_fails_sign : ¬ C129_statement := fun h =>
  absurd ((h true (8, 255) (32, 255) (by decide) (by decide) (.inl rfl)).1
    (by decide +kernel)) (by decide +kernel)

/-- Different constants of more than 64 bits make the comparison fail. -/
theorem C129_fails_wide : cmpAPIntCasts true (128, 2 ^ 64) (128, 1) = none := by decide +kernel

/-- Constants of the same width, and constants without a sign in signed types that fit in 64
bits, are found equal exactly if they stand for the same number. Missing: negative constants of
different widths and constants of more than 64 bits. -/
theorem C129_constants_partial (casts : Bool) (a b : Nat × Nat) (ha : a.2 < 2 ^ a.1)
    (hb : b.2 < 2 ^ b.1) (hc : casts = true ∨ a.1 = b.1)
    (h64 : a.2 < 2 ^ 64 ∧ b.2 < 2 ^ 64)
    (hs : a.1 = b.1 ∨ a.2 < 2 ^ (a.1 - 1) ∧ b.2 < 2 ^ (b.1 - 1)) :
    cmpAPIntCasts casts a b = some 0 ↔ signedVal a = signedVal b := by
  obtain ⟨w, v⟩ := a
  obtain ⟨w', v'⟩ := b
  dsimp only at *
  have key : cmpAPIntCasts casts (w, v) (w', v') = some 0 ↔ v = v' := by
    unfold cmpAPIntCasts cmpAPInt
    dsimp only
    by_cases h0 : thenCmp (cmpNum w w') (cmpNum v v') = 0
    · simp only [h0, decide_true, Bool.or_true, if_true, true_iff]
      rw [thenCmp_eq, cmpNum_eq, cmpNum_eq] at h0
      exact h0.2
    · rcases hc with rfl | rfl
      · simp [h0, h64, cmpNum_eq]
      · cases casts
        · simp only [Bool.not_false, Bool.true_or, if_true, Option.some.injEq]
          rw [thenCmp_eq, cmpNum_eq, cmpNum_eq]; simp
        · simp [h0, h64, cmpNum_eq]
  rw [key]
  constructor
  · rintro rfl
    rcases hs with rfl | ⟨h1, h2⟩
    · rfl
    · simp [signedVal, h1, h2]
  · intro h
    rcases hs with rfl | ⟨h1, h2⟩
    · unfold signedVal at h
      dsimp only at h
      have e : ((2 : Int) ^ w) = ((2 ^ w : Nat) : Int) := by simp
      split_ifs at h with h1 h2 h2
      · omega
      · rw [e] at h; omega
      · rw [e] at h; omega
      · omega
    · simp only [signedVal, h1, h2, if_true] at h
      omega

example : cmpAPIntCasts true (8, 100) (32, 100) = some 0 ∧ signedVal (8, 100) = 100 ∧
    cmpAPIntCasts true (8, 100) (32, 101) ≠ some 0 ∧
    cmpAPIntCasts false (8, 255) (8, 255) = some 0 ∧ signedVal (8, 255) = -1 := by decide +kernel

end DK
