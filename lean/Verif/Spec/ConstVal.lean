import Verif.Model.ConstVal

/-! Specification: the value of a constant. -/

set_option autoImplicit false

namespace DK.Spec
open DK

/-- Number of bits of a type; pointers have 64. -/
def kBits : KTy → Nat
  | .int w => w
  | .ptr => 64

/-- A number with `w` bits, extended by its sign to `w'` bits. -/
def signExtend (w w' x : Nat) : Nat := if 2 * x < 2 ^ w then x % 2 ^ w' else (x + (2 ^ w' - 2 ^ w)) % 2 ^ w'

/-- The value of a constant, as a number without sign, given the addresses of global values. -/
def kValue (addr : Str → Nat) : VConst → Nat
  | .int w v => v % 2 ^ w
  | .null => 0
  | .glob n => addr n % 2 ^ 64
  | .cast .trunc w c => kValue addr c % 2 ^ w
  | .cast .zext w c => kValue addr c % 2 ^ w
  | .cast .sext w c => signExtend (kBits c.ty) w (kValue addr c)
  | .cast .ptrToInt w c => kValue addr c % 2 ^ w
  | .cast .intToPtr _ c => kValue addr c % 2 ^ 64
  | .bin .add a b => (kValue addr a + kValue addr b) % 2 ^ kBits a.ty
  | .bin .sub a b => (kValue addr a + (2 ^ kBits a.ty - kValue addr b % 2 ^ kBits a.ty)) % 2 ^ kBits a.ty
  | .bin .mul a b => (kValue addr a * kValue addr b) % 2 ^ kBits a.ty
  | .gep e a b => (kValue addr a + e * signExtend (kBits b.ty) 64 (kValue addr b)) % 2 ^ 64

/-- The operations in a constant besides casts. -/
inductive KOps where
  | leaf
  | bin (op : KBin) (w : Nat) (a b : KOps)
  | gep (elem w : Nat) (a b : KOps)
  deriving DecidableEq

/-- The operations of a constant besides casts, with the widths of operations and indices and the sizes of elements. -/
def kOps : VConst → KOps
  | .cast _ _ c => kOps c
  | .bin op a b => .bin op (kBits a.ty) (kOps a) (kOps b)
  | .gep e a b => .gep e (kBits b.ty) (kOps a) (kOps b)
  | _ => .leaf

/-- A constant with null pointers in place of all integers and global values: what is left are the operations and casts. -/
def kForm : VConst → VConst
  | .cast op w c => .cast op w (kForm c)
  | .bin op a b => .bin op (kForm a) (kForm b)
  | .gep e a b => .gep e (kForm a) (kForm b)
  | _ => .null

/-- No cast in the constant changes the value. -/
def CastsKeep (addr : Str → Nat) : VConst → Prop
  | .cast op w c => kValue addr (.cast op w c) = kValue addr c ∧ CastsKeep addr c
  | .bin _ a b => CastsKeep addr a ∧ CastsKeep addr b
  | .gep _ a b => CastsKeep addr a ∧ CastsKeep addr b
  | _ => True

/-- Integers are given by numbers that fit. -/
def IntsFit : VConst → Prop
  | .int w v => v < 2 ^ w
  | .cast _ _ c => IntsFit c
  | .bin _ a b => IntsFit a ∧ IntsFit b
  | .gep _ a b => IntsFit a ∧ IntsFit b
  | _ => True

end DK.Spec
