import Verif.Model.KernelGlobals

/-!
Specification of the simplification of kernel globals and of the names of anonymous structures.
-/

set_option autoImplicit false

namespace DK.Spec

open DK

/-- A name that the compile-time assertions of the kernel have. -/
def AssertNumber (n : Str) : Prop := ∃ d : Str, n = str! "__compiletime_assert_" ++ d ∧ d ≠ [] ∧ ∀ c ∈ d, c.isDigit = true

/-- Part `o'` is the same as part `o`, up to the number of a compile-time assertion that the module only declares. -/
def SamePart (m : KgMod) (o o' : KgOp) : Prop :=
  o' = o ∨ ∃ n, o = .ref n ∧ AssertNumber n ∧ (⟨n, none⟩ : KgFun) ∈ m.funs ∧ o' = .ref (str! "__compiletime_assert")

/-- What becomes of a part of code: references to removed variables are null, and references to compile-time assertions
have one name. -/
def replaced (ksyms asserts : List Str) (o : KgOp) : KgOp :=
  match o with
  | .ref n => if n ∈ ksyms then .null else if n ∈ asserts then .ref (str! "__compiletime_assert") else .ref n
  | _ => o

/-- The name of a structure that has no name in C. -/
def Anonymous (name : Str) : Prop :=
  ∃ p, (p = str! "struct.anon" ∨ p = str! "union.anon") ∧ (name = p ∨ ∃ d : Str, name = p ++ '.' :: d ∧ ∀ c ∈ d, c.isDigit = true)

/-- Types of two versions are declared in the same way: the relation matches their fields; fields with other names are the
same by name. -/
structure SameDecls (l r : List HashType) (R : Nat → Nat → Prop) : Prop where
  anon : ∀ i j, R i j → ∃ x y fs gs, l[i]? = some x ∧ r[j]? = some y ∧ Anonymous x.name ∧ Anonymous y.name ∧
    x.fields = some fs ∧ y.fields = some gs ∧ List.Forall₂ (fun f g =>
      (∃ t, f = .text t ∧ g = .text t) ∨
      (∃ a b, f = .struct a ∧ g = .struct b ∧ R a b) ∨
      (∃ a b u v, f = .struct a ∧ g = .struct b ∧ l[a]? = some u ∧ r[b]? = some v ∧ u.name = v.name ∧ ¬ Anonymous u.name)) fs gs
  kind : ∀ i j x y, R i j → l[i]? = some x → r[j]? = some y → x.name.head? = y.name.head?

end DK.Spec
