import Verif.Model.SrcTypes

/-! Specification: types of expressions in C. -/

set_option autoImplicit false

namespace DK.Spec
open DK

/-- The declaration that a name refers to, given the blocks around a place from the innermost to the outermost one
(each with its variables): that of the innermost block that declares it, otherwise the global variable. -/
inductive Visible (globals : Str → Option DITy) (x : Str) : List (List (Str × DITy)) → DITy → Prop
  | glob {t : DITy} : globals x = some t → Visible globals x [] t
  | here {b : List (Str × DITy)} {bs : List (List (Str × DITy))} {t : DITy} : (x, t) ∈ b → Visible globals x (b :: bs) t
  | outer {b : List (Str × DITy)} {bs : List (List (Str × DITy))} {t : DITy} : (∀ u, (x, u) ∉ b) → Visible globals x bs t →
      Visible globals x (b :: bs) t

/-- A type is a pointer, possibly behind names of types. -/
inductive PointsTo : DITy → DITy → Prop
  | ptr (t : DITy) : PointsTo (.ptr t) t
  | name {n : Str} {b t : DITy} : PointsTo b t → PointsTo (.typedef n b) t

/-- The type of an expression that consists of an identifier and of the operators `*` and `&` before it. -/
inductive CTypeOf (globals : Str → Option DITy) (blocks : List (List (Str × DITy))) : Str → DITy → Prop
  | ident {x : Str} {t : DITy} : (∀ c ∈ x, identChar c = true) → Visible globals x blocks t → CTypeOf globals blocks x t
  | addr {e : Str} {t : DITy} : CTypeOf globals blocks e t → CTypeOf globals blocks ('&' :: e) (.ptr t)
  | deref {e : Str} {t u : DITy} : CTypeOf globals blocks e t → PointsTo t u → CTypeOf globals blocks ('*' :: e) u

/-- The functions have different names, which are those of C functions (with the suffixes of LLVM): without colons. -/
def NamedFuns (fns : List DbgFun) : Prop := (fns.map DbgFun.name).Nodup ∧ ∀ f ∈ fns, ':' ∉ f.name

/-- The blocks around a place in a function: each variable of them has debug information, and no block declares a name
twice. -/
def BlocksOf (f : DbgFun) (blocks : List (List (Str × DITy))) : Prop :=
  (∀ b ∈ blocks, ∀ v ∈ b, v ∈ f.vars) ∧ ∀ b ∈ blocks, (b.map Prod.fst).Nodup

/-- No variable of the function hides another variable of another type. -/
def NothingHidden (globals : Str → Option DITy) (f : DbgFun) : Prop :=
  (∀ x t u, (x, t) ∈ f.vars → (x, u) ∈ f.vars → t = u) ∧ ∀ x t, (x, t) ∈ f.vars → globals x = none

/-- No name stands for a pointer type. -/
def noNamedPointer : DITy → Bool
  | .ptr t => noNamedPointer t
  | .typedef _ (.ptr _) => false
  | .typedef _ t => noNamedPointer t
  | _ => true

end DK.Spec
