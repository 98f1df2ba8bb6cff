import Verif.Model.Text

/-! Attributes of copied calls and functions (simpll/Utils.cpp 43-57, 303-332 and 721-776). -/

set_option autoImplicit false

namespace DK

/-- Kinds of attributes. `other` stands for the ones that are not named here. -/
inductive AttrKind where
  | byVal | inAlloca | nest | noAlias | noCapture | nonNull | readNone | readOnly | sExt | structRet | zExt
  | dereferenceable | dereferenceableOrNull | noUndef | alignment | noReturn
  | other (n : Nat)
  deriving DecidableEq, Repr

/-- An attribute with its value (such as a number of bytes or a type). -/
structure AttrVal where
  kind : AttrKind
  val : Nat
  deriving DecidableEq, Repr

/-- `AttributeList`: attributes of the result, the function and the arguments. -/
structure AttrList where
  ret : List AttrVal
  fn : List AttrVal
  args : List (List AttrVal)
  deriving DecidableEq, Repr

/-- `badVoidAttributes`, 43-57. -/
def badVoid : List AttrKind :=
  [.byVal, .inAlloca, .nest, .noAlias, .noCapture, .nonNull, .readNone, .readOnly, .sExt, .structRet, .zExt, .dereferenceable,
   .dereferenceableOrNull]

/-- `removeAttributeAtIndex` for the result and the function, 733-741 and 754-763, for one kind. -/
def removeKind (a : AttrList) (k : AttrKind) : AttrList :=
  { a with ret := a.ret.filter fun x => x.kind ≠ k, fn := a.fn.filter fun x => x.kind ≠ k }

/-- `cleanAttributeList`, 304-332: the attributes of the first argument, the function and the result are copied. Empty sets
are not distinguished from missing ones. -/
def cleanAttributes (a : AttrList) : AttrList := { ret := a.ret, fn := a.fn, args := a.args.take 1 }

/-- A call with its properties: whether its type is void, calling convention, place in the source, marked as a tail call. -/
structure CallProps where
  isVoid : Bool
  attrs : AttrList
  conv : Nat
  loc : Nat
  tail : Bool
  deriving DecidableEq, Repr

/-- `copyCallInstProperties`, 722-746. -/
def copyCallProps (src dest : CallProps) : CallProps :=
  { isVoid := dest.isVoid
    attrs := if !src.isVoid && dest.isVoid then cleanAttributes (badVoid.foldl removeKind src.attrs) else src.attrs
    conv := src.conv
    loc := src.loc
    tail := if src.tail then true else dest.tail }

/-- A function: whether its result is void, its attributes, the properties copied by `copyAttributesFrom` (calling
convention, alignment, section and others, as one number), the debug information and the names of the arguments. -/
structure FunProps where
  isVoid : Bool
  attrs : AttrList
  props : Nat
  subprogram : Nat
  argNames : List Str
  deriving DecidableEq, Repr

/-- `getType()->isVoidTy()` for a function: the type of the value is a pointer, never void (753). -/
def FunProps.valueTypeVoid (_ : FunProps) : Bool := false

/-- `copyFunctionProperties`, 749-776. -/
def copyFunProps (src dest : FunProps) : FunProps :=
  { isVoid := dest.isVoid
    attrs :=
      if !src.valueTypeVoid && dest.valueTypeVoid then cleanAttributes (badVoid.foldl removeKind src.attrs) else src.attrs
    props := src.props
    subprogram := src.subprogram
    argNames := src.argNames }

end DK
