import Verif.Model.Globals
import Verif.Spec.IRSem

/-!
What a global value stands for: constant variables stand for their content, in which other global values may occur
(also in cycles); all others are symbols. The content is a tree that may be infinite; `contentOf n` is its part up to
depth `n`.
-/

set_option autoImplicit false

namespace DK.Spec

/-- The content of constants, cut off at some depth. -/
inductive CTree where
  | cut
  | leaf (c : Const)
  | sym (name : Str)
  | asm (code constraints : Str)
  | content (c : CTree)
  | node (kind : Fin 3) (ty : Ty) (cs : List CTree)
  | expr (op : Nat) (ty : Ty) (cs : List CTree)

mutual
/-- The content of a constant, given what global values stand for. -/
def treeOf (p : Nat) (gl : Nat → CTree) : Const → CTree
  | .global g => gl g
  | .aggr k t es => .node k (contentTy p t) (treesOf p gl es)
  | .expr op t es => .expr op (normTy p t) (treesOf p gl es)
  | c => .leaf (normConst p c)
def treesOf (p : Nat) (gl : Nat → CTree) : List Const → List CTree
  | [] => []
  | c :: cs => treeOf p gl c :: treesOf p gl cs
end

/-- What a global value stands for, up to a depth. Symbols with the same `cls` are not distinguished. -/
def contentOf (cls : Str → Str) (p : Nat) (G : Nat → GVal) : Nat → Nat → CTree
  | 0, _ => .cut
  | n + 1, g =>
    match (G g).kind with
    | .var true (some c) => .content (treeOf p (contentOf cls p G n) c)
    | .var _ _ => .sym (cls (G g).name)
    | .func a c => if startsWith (G g).name (str! "simpll__inlineasm.") then .asm a c else .sym (cls (G g).name)

/-- Two global values stand for the same. -/
def SameContent (cls : Str → Str) (p : Nat) (G H : Nat → GVal) (l r : Nat) : Prop :=
  ∀ n, contentOf cls p G n l = contentOf cls p H n r

mutual
/-- A constant only refers to global values with numbers below `m`. -/
def RefsBelow (m : Nat) : Const → Prop
  | .global g => g < m
  | .aggr _ _ es => AllBelow m es
  | .expr _ _ es => AllBelow m es
  | _ => True
def AllBelow (m : Nat) : List Const → Prop
  | [] => True
  | c :: cs => RefsBelow m c ∧ AllBelow m cs
end

end DK.Spec
