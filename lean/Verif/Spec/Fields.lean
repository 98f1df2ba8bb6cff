import Verif.Model.Fields

/-!
Specification for members of structures (C121-C123): layouts of structures with bit fields, the
position of a member, and when two accesses reach the same member.
-/

set_option autoImplicit false

namespace DK.Spec
open DK

/-- The offset of the storage unit of a member: for a bit field that of its unit, for other members
their own offset. -/
def unitOf (m : DMember) : Nat :=
  match m.storage with
  | some s => s
  | none => m.offset

/-- Members after one that ends at `next` and whose storage unit begins at `unit`: they do not
overlap, are aligned as required, and each begins a storage unit or continues that of the member
before. -/
def LaidOut (unit next : Nat) : List DMember → Prop
  | [] => True
  | m :: ms =>
    next ≤ m.offset ∧ (m.align ≠ 0 → m.offset % m.align = 0) ∧
      (unitOf m = m.offset ∨ unitOf m = unit ∧ unit < m.offset) ∧
      LaidOut (unitOf m) (m.offset + m.size) ms

/-- The members of a structure: the first one is at offset zero. -/
def ValidStruct : List DMember → Prop
  | [] => True
  | m :: ms => m.offset = 0 ∧ unitOf m = 0 ∧ LaidOut 0 m.size ms

/-- Names of members are different (anonymous members have an empty name and are not looked up). -/
def DistinctMembers (ms : List DMember) : Prop := (ms.map DMember.name).Nodup

/-- Plain members: no explicit alignment, not empty. -/
def PlainMembers (ms : List DMember) : Prop := ∀ m ∈ ms, m.align = 0 ∧ 0 < m.size

/-- The position of a member among the elements of the LLVM type of a plain structure: how many
storage units begin inside of the structure up to the unit of the member. -/
def placeOf (ms : List DMember) (m : DMember) : Nat :=
  (ms.filter fun x => unitOf x == x.offset && decide (0 < x.offset) &&
    decide (x.offset ≤ unitOf m)).length

/-- `name` is the name of a member at the element `index` of a structure. -/
def MemberAt (ms : List DMember) (index : Nat) (name : Str) : Prop :=
  ∃ m ∈ ms, m.name = name ∧ placeOf ms m = index

/-- Two sequences of constant indices into two types reach the same member: at each level the
indexed types are both structures and the indices belong to members with the same name, or neither
is a structure and the indices are equal. `field` is the name of the member of a structure at an
index (`none` for anonymous members). -/
def SameMember (field : Nat → Nat → Option Str) : FTy → FTy → List Nat → List Nat → Prop
  | _, _, [], [] => True
  | .struct a _ es, .struct b _ fs, i :: is, j :: js =>
    (∃ x, field a i = some x ∧ field b j = some x) ∧
      match es[i]?, fs[j]? with
      | some t, some u => SameMember field t u is js
      | _, _ => False
  | .arr _ e, .arr _ f, i :: is, j :: js => i = j ∧ SameMember field e f is js
  | _, _, _, _ => False

/-- Two accesses with constant indices reach the same member of the same element: the first indices
step over the pointer and are equal. -/
def SameAccess (field : Nat → Nat → Option Str) (l r : FTy) (is js : List Nat) : Prop :=
  is.head? = js.head? ∧ SameMember field l r is.tail js.tail

end DK.Spec

namespace DK.Spec
open DK

/-! ### Collected names -/

/-- A structure type of debug information that is used in the theorem on collected names. -/
def PlainStruct (ms : List DMember) : Prop :=
  ValidStruct ms ∧ PlainMembers ms ∧ DistinctMembers ms ∧ ms.length < 2 ^ 32

/-- The structure types inside a type have the names given by `names`. -/
def HasNames (names : Nat → Option Str) (t : FTy) : Prop :=
  ∀ is id name es, t.walk is = some (.struct id name es) → names id = some name

/-- `name` is the name of a member at index `n` of the structure type `id`, according to the debug
information of the module that the type belongs to; `namesL` and `namesR` are the names of the
structure types of the two modules. -/
def TrueName (E : NameEnv) (namesL namesR : Nat → Option Str) (id n : Nat) (name : Str) : Prop :=
  (∃ s ms, namesL id = some s ∧ E.first (cTypeName s) = some ms ∧ MemberAt ms n name) ∨
  (∃ s ms, namesR id = some s ∧ E.second (cTypeName s) = some ms ∧ MemberAt ms n name)

/-- The name of the structure type that a GEP starts with. -/
def sourceName : FTy → Option Str
  | .struct _ name _ => some name
  | _ => none

/-! ### Comparison of accesses -/

/-- Two indices are the same constant, or variables with equal values. -/
def SameIndex (valueEq : Nat → Nat → Bool) : GIdx → GIdx → Prop
  | .const a, .const b => a = b
  | .var a, .var b => valueEq a b = true
  | _, _ => False

mutual
/-- Size and alignment in bytes; the alignment of a simple type is its size. -/
def sizeAlign : FTy → Nat × Nat
  | .leaf n => (n, n)
  | .arr n e => (n * (sizeAlign e).1, (sizeAlign e).2)
  | .struct _ _ es =>
    let r := sizeAligns (0, 1) es
    ((r.1 + r.2 - 1) / r.2 * r.2, r.2)
/-- Size so far and largest alignment after some elements. -/
def sizeAligns : Nat × Nat → List FTy → Nat × Nat
  | acc, [] => acc
  | acc, e :: es =>
    let s := sizeAlign e
    sizeAligns ((acc.1 + s.2 - 1) / s.2 * s.2 + s.1, max acc.2 s.2) es
end

/-- The offset of an element of a structure. -/
def elemOffset (es : List FTy) (i : Nat) : Nat :=
  let before := (sizeAligns (0, 1) (es.take i)).1
  match es[i]? with
  | some e => (before + (sizeAlign e).2 - 1) / (sizeAlign e).2 * (sizeAlign e).2
  | none => before

/-- The offset in bytes after the first index. -/
def innerOffset : FTy → List Nat → Int
  | .struct _ _ es, i :: is =>
    elemOffset es i + (match es[i]? with | some e => innerOffset e is | none => 0)
  | .arr _ e, i :: is => i * (sizeAlign e).1 + innerOffset e is
  | _, _ => 0

/-- The offset in bytes that a GEP with constant indices adds to its pointer. -/
def byteOffset (t : FTy) : List Nat → Int
  | [] => 0
  | i :: is => i * (sizeAlign t).1 + innerOffset t is

/-- As `SameMember`, but members at the same index are accepted too, and so are equal indices if one
of the types is not a structure. -/
def SameMemberOrIndex (field : Nat → Nat → Option Str) : FTy → FTy → List Nat → List Nat → Prop
  | _, _, [], [] => True
  | .struct a _ es, .struct b _ fs, i :: is, j :: js =>
    ((∃ x, field a i = some x ∧ field b j = some x) ∨ i = j) ∧
      match es[i]?, fs[j]? with
      | some t, some u => SameMemberOrIndex field t u is js
      | _, _ => True
  | .struct _ _ es, .arr _ f, i :: is, j :: js => i = j ∧
      match es[i]? with
      | some t => SameMemberOrIndex field t f is js
      | _ => True
  | .arr _ e, .struct _ _ fs, i :: is, j :: js => i = j ∧
      match fs[j]? with
      | some u => SameMemberOrIndex field e u is js
      | _ => True
  | .arr _ e, .arr _ f, i :: is, j :: js => i = j ∧ SameMemberOrIndex field e f is js
  | _, _, _, _ => True

end DK.Spec
