import Verif.Model.IR

/-!
Model of the basic function comparator (diffkemp/simpll/llvm-lib/16/FunctionComparator.cpp). The
serial-number maps only grow in it, so each is the list of the values in the order of insertion and
the serial number of a value is its position.
-/

set_option autoImplicit false

namespace DK

/-- `FunctionComparator::cmpNumbers`, lines 53-59 (also `cmpAligns`, `cmpOrderings`, 61-75). -/
def cmpNum (a b : Nat) : Int := if a < b then -1 else if a > b then 1 else 0

/-- `if (int Res = a) return Res; return b` -/
def thenCmp (a b : Int) : Int := if a = 0 then b else a

/-- Comparison of two lists of numbers: sizes first, then elements (lines 622-642, 681-690). -/
def cmpNums (l r : List Nat) : Int :=
  thenCmp (cmpNum l.length r.length)
    (match l, r with
     | [], _ => 0
     | _, [] => 0
     | a :: as, b :: bs => thenCmp (cmpNum a b) (cmpNums as bs))

/-- `FunctionComparator::cmpAPInts`, lines 77-85, on pairs of width and value. -/
def cmpAPInt (a b : Nat × Nat) : Int := thenCmp (cmpNum a.1 b.1) (cmpNum a.2 b.2)

/-- `FunctionComparator::cmpMem`, lines 106-114. -/
def cmpMem (l r : Str) : Int := cmpNums (l.map Char.toNat) (r.map Char.toNat)

/-- `Type::getTypeID` after pointers of the default address space were replaced. -/
def tyId : Ty → Nat
  | .prim id => id.val
  | .int _ => 13
  | .func _ _ _ => 14
  | .ptr s => if s = 0 then 13 else 15
  | .struct _ _ => 16
  | .array _ _ => 17
  | .vec s _ _ => if s then 19 else 18

/-- What is compared for types of the same kind without components: the width of integers (for
pointers of the default address space the pointer size) and the address space of others. -/
def tyNum (ptrBits : Nat) : Ty → Nat
  | .int w => w
  | .ptr s => if s = 0 then ptrBits else s
  | _ => 0

mutual
/-- `FunctionComparator::cmpTypes`, lines 430-524: pointers of the default address space are
compared as integers of the pointer size. The shortcut for identical types (440) is subsumed
(`cmpTypes_refl`). -/
def cmpTypes (p : Nat) : Ty → Ty → Int
  | .struct k es, .struct k' es' =>
    thenCmp (cmpNum es.length es'.length) (thenCmp (cmpNum k.toNat k'.toNat) (cmpTypeList p es es'))
  | .func r ps v, .func r' ps' v' =>
    thenCmp (cmpNum ps.length ps'.length)
      (thenCmp (cmpNum v.toNat v'.toNat) (thenCmp (cmpTypes p r r') (cmpTypeList p ps ps')))
  | .array n e, .array n' e' => thenCmp (cmpNum n n') (cmpTypes p e e')
  | .vec s n e, .vec s' n' e' =>
    thenCmp (cmpNum s.toNat s'.toNat) (thenCmp (cmpNum n n') (cmpTypes p e e'))
  | l, r => thenCmp (cmpNum (tyId l) (tyId r)) (cmpNum (tyNum p l) (tyNum p r))
/-- The loops over element and parameter types, lines 477-481 and 496-499. -/
def cmpTypeList (p : Nat) : List Ty → List Ty → Int
  | a :: as, b :: bs => thenCmp (cmpTypes p a b) (cmpTypeList p as bs)
  | _, _ => 0
end

/-- `Type::getPrimitiveSizeInBits` of the types without parameters. -/
def primBits (id : Fin 13) : Nat :=
  [16, 16, 32, 64, 80, 128, 128, 0, 0, 0, 64].getD id.val 0

/-- The width of a vector type, 0 for other types (lines 240-246). -/
def vecWidth : Ty → Nat
  | .vec _ n (.int w) => n * w
  | .vec _ n (.prim id) => n * primBits id
  | _ => 0

/-- Whether a type is a pointer type. -/
def Ty.isPtr : Ty → Bool
  | .ptr _ => true
  | _ => false

/-- Address space of a pointer type. -/
def Ty.space : Ty → Nat
  | .ptr s => s
  | _ => 0

/-- Whether a type is an array type. -/
def Ty.isArray : Ty → Bool
  | .array _ _ => true
  | _ => false

/-- `Value::getValueID` of the constants that are compared by content. -/
def valueId : Const → Nat
  | .global _ => 0
  | .expr _ _ _ => 4
  | .aggr k _ _ => 8 + k.val
  | .undef _ => 11
  | .poison _ => 12
  | .null _ => 13
  | .data t _ => if t.isArray then 14 else 15
  | .int _ _ => 16
  | .fp _ _ => 17

/-- Lines 222-270: `some r` when the types of the constants already decide. (Constants always have
first-class types.) -/
def typesDecide (p : Nat) (tl tr : Ty) : Option Int :=
  let res := cmpTypes p tl tr
  if res = 0 then none
  else if vecWidth tl ≠ vecWidth tr then some (cmpNum (vecWidth tl) (vecWidth tr))
  else if vecWidth tl = 0 then
    some (if tl.isPtr && tr.isPtr && cmpNum tl.space tr.space ≠ 0 then cmpNum tl.space tr.space
      else if tl.isPtr then 1 else if tr.isPtr then -1 else res)
  else none

mutual
/-- `FunctionComparator::cmpConstants`, lines 214-419. The opcodes of constant expressions are not
compared (357-370). Globals are numbered by identity (the numbers of `GlobalNumbers` are given out
on first use; only their equality matters here). The number of elements of an aggregate is the
length of its list. -/
def cmpConst (p : Nat) : Const → Const → Int
  | l, r =>
    match typesDecide p l.ty r.ty with
    | some res => res
    | none =>
      let res := cmpTypes p l.ty r.ty
      if l.isNull && r.isNull then res
      else if l.isNull then 1
      else if r.isNull then -1
      else
        match l, r with
        | .global g, .global h => cmpNum g h
        | .int w v, .int w' v' => cmpAPInt (w, v) (w', v')
        | .fp t b, .fp t' b' => thenCmp (cmpNum t.val t'.val) (cmpNum b b')
        | .undef _, .undef _ => res
        | .poison _, .poison _ => res
        | .data t bs, .data t' bs' =>
          thenCmp (cmpNum (valueId (.data t bs)) (valueId (.data t' bs'))) (cmpNums bs bs')
        | .aggr k _ es, .aggr k' _ es' =>
          thenCmp (cmpNum k.val k'.val) (thenCmp (cmpNum es.length es'.length) (cmpConstList p es es'))
        | .expr _ _ es, .expr _ _ es' =>
          thenCmp (cmpNum es.length es'.length) (cmpConstList p es es')
        | l, r => cmpNum (valueId l) (valueId r)
/-- The loops over the elements, lines 322-326, 336-340, 350-354 and 364-368. -/
def cmpConstList (p : Nat) : List Const → List Const → Int
  | a :: as, b :: bs => thenCmp (cmpConst p a b) (cmpConstList p as bs)
  | _, _ => 0
end

/-- `FunctionComparator::cmpInlineAsm`, lines 738-758 (the shortcut for identical ones is subsumed). -/
def cmpAsm (p : Nat) (l r : Asm) : Int :=
  thenCmp (cmpTypes p l.ty r.ty) <| thenCmp (cmpMem l.text r.text) <|
  thenCmp (cmpMem l.constraints r.constraints) <|
  thenCmp (cmpNum l.sideEffects.toNat r.sideEffects.toNat) <|
  thenCmp (cmpNum l.alignStack.toNat r.alignStack.toNat) (cmpNum l.dialect r.dialect)

/-- One pair of attributes, lines 127-150. -/
def cmpAttr (p : Nat) : Attr → Attr → Int
  | .ty k t, .ty k' t' => thenCmp (cmpNum k k')
    (match t, t' with
     | some t, some t' => cmpTypes p t t'
     | none, none => 0
     | none, some _ => -1
     | some _, none => 1)
  | .num k v, .num k' v' => thenCmp (cmpNum k k') (cmpNum v v')
  | .num _ _, .ty _ _ => -1
  | .ty _ _, .num _ _ => 1

/-- One pair of attribute sets, lines 122-155. -/
def cmpAttrSet (p : Nat) : List Attr → List Attr → Int
  | [], [] => 0
  | _ :: _, [] => 1
  | [], _ :: _ => -1
  | a :: as, b :: bs => thenCmp (cmpAttr p a b) (cmpAttrSet p as bs)

/-- The loop over attribute sets, lines 121-156. -/
def cmpAttrSets (p : Nat) : List (List Attr) → List (List Attr) → Int
  | a :: as, b :: bs => thenCmp (cmpAttrSet p a b) (cmpAttrSets p as bs)
  | _, _ => 0

/-- `FunctionComparator::cmpAttrs`, lines 116-158. -/
def cmpAttrs (p : Nat) (l r : List (List Attr)) : Int :=
  thenCmp (cmpNum l.length r.length) (cmpAttrSets p l r)

/-- The loop of `cmpRangeMetadata`, lines 178-183. -/
def cmpAPInts : List (Nat × Nat) → List (Nat × Nat) → Int
  | a :: as, b :: bs => thenCmp (cmpAPInt a b) (cmpAPInts as bs)
  | _, _ => 0

/-- `FunctionComparator::cmpRangeMetadata`, lines 160-185. -/
def cmpRange : Option (List (Nat × Nat)) → Option (List (Nat × Nat)) → Int
  | none, none => 0
  | none, some _ => -1
  | some _, none => 1
  | some l, some r => thenCmp (cmpNum l.length r.length) (cmpAPInts l r)

/-- The loop of `cmpOperandBundlesSchema`, lines 195-204. -/
def cmpBundleList : List (Str × Nat) → List (Str × Nat) → Int
  | a :: as, b :: bs =>
    thenCmp (cmpMem a.1 b.1) (thenCmp (cmpNum a.2 b.2) (cmpBundleList as bs))
  | _, _ => 0

/-- `FunctionComparator::cmpOperandBundlesSchema`, lines 187-207. -/
def cmpBundles (l r : List (Str × Nat)) : Int :=
  thenCmp (cmpNum l.length r.length) (cmpBundleList l r)

/-- The serial numbers: values of the two functions in the order in which they were first seen. -/
structure CmpSt where
  l : List Key
  r : List Key

/-- `if (int Res = ...) return Res;` in code that changes the serial numbers. -/
def andThen (x : Int × CmpSt) (k : CmpSt → Int × CmpSt) : Int × CmpSt :=
  if x.1 = 0 then k x.2 else x

/-- `insert(std::make_pair(k, size()))` -/
def insertKey (k : Key) (l : List Key) : List Key := if k ∈ l then l else l ++ [k]

/-- Lines 800-803 of `cmpValues`. -/
def cmpKeys (k k' : Key) (st : CmpSt) : Int × CmpSt :=
  let l := insertKey k st.l
  let r := insertKey k' st.r
  (cmpNum (l.idxOf k) (r.idxOf k'), ⟨l, r⟩)

/-- `FunctionComparator::cmpValues`, lines 764-804. A value and a block are different at once; in the
code their types differ, which is seen before the operands are compared (565-569). -/
def cmpValues (p : Nat) (l r : Opnd) (st : CmpSt) : Int × CmpSt :=
  match l, r with
  | .self, .self => (0, st)
  | .self, _ => (-1, st)
  | _, .self => (1, st)
  | .const c, .const d => (cmpConst p c d, st)
  | .const _, _ => (1, st)
  | _, .const _ => (-1, st)
  | .asm a, .asm b => (cmpAsm p a b, st)
  | .asm _, _ => (1, st)
  | _, .asm _ => (-1, st)
  | .ref (.val a), .ref (.val b) => cmpKeys (.val a) (.val b) st
  | .ref (.blk a), .ref (.blk b) => cmpKeys (.blk a) (.blk b) st
  | .ref _, .ref _ => (1, st)

/-- The loops over operands, lines 730-733 and 819-826. -/
def cmpOperands (p : Nat) : List (Opnd × Ty) → List (Opnd × Ty) → CmpSt → Int × CmpSt
  | a :: as, b :: bs, st => andThen (cmpValues p a.1 b.1 st) (cmpOperands p as bs)
  | _, _, st => (0, st)

/-- The loop over incoming blocks of phis, lines 696-700. There are as many of them as operands, whose
numbers were compared before; different numbers would be a difference here. -/
def cmpIncoming : List Nat → List Nat → CmpSt → Int × CmpSt
  | a :: as, b :: bs, st => andThen (cmpKeys (.blk a) (.blk b) st) (cmpIncoming as bs)
  | [], [], st => (0, st)
  | _, _, st => (1, st)

/-- The loop over operand types, lines 565-569. -/
def cmpOpTypes (p : Nat) : List (Opnd × Ty) → List (Opnd × Ty) → Int
  | a :: as, b :: bs => thenCmp (cmpTypes p a.2 b.2) (cmpOpTypes p as bs)
  | _, _ => 0

/-- The special state, lines 572-702. Instructions of the same opcode have the same kind of special
state; otherwise the casts of the code fail (here: 1). -/
def cmpSpecial (p : Nat) (l r : Special) (st : CmpSt) : Int × CmpSt :=
  match l, r with
  | .none, .none => (0, st)
  | .alloca t a, .alloca t' a' => (thenCmp (cmpTypes p t t') (cmpNum a a'), st)
  | .load v a o s m, .load v' a' o' s' m' =>
    (thenCmp (cmpNum v.toNat v'.toNat) (thenCmp (cmpNum a a') (thenCmp (cmpNum o o')
      (thenCmp (cmpNum s s') (cmpRange m m')))), st)
  | .store v a o s, .store v' a' o' s' =>
    (thenCmp (cmpNum v.toNat v'.toNat) (thenCmp (cmpNum a a') (thenCmp (cmpNum o o')
      (cmpNum s s'))), st)
  | .cmp c, .cmp c' => (cmpNum c c', st)
  | .call c as bs t m, .call c' as' bs' t' m' =>
    (thenCmp (cmpNum c c') (thenCmp (cmpAttrs p as as') (thenCmp (cmpBundles bs bs')
      (thenCmp (cmpNum t t') (cmpRange m m')))), st)
  | .indices i, .indices i' => (cmpNums i i', st)
  | .fence o s, .fence o' s' => (thenCmp (cmpNum o o') (cmpNum s s'), st)
  | .cmpxchg v w a b s, .cmpxchg v' w' a' b' s' =>
    (thenCmp (cmpNum v.toNat v'.toNat) (thenCmp (cmpNum w.toNat w'.toNat) (thenCmp (cmpNum a a')
      (thenCmp (cmpNum b b') (cmpNum s s')))), st)
  | .rmw op v o s, .rmw op' v' o' s' =>
    (thenCmp (cmpNum op op') (thenCmp (cmpNum v.toNat v'.toNat) (thenCmp (cmpNum o o')
      (cmpNum s s'))), st)
  | .phi bs, .phi bs' => cmpIncoming bs bs' st
  | _, _ => (1, st)

/-- The constants among indices, if all of them are constant. -/
def constOps : List (Opnd × Ty) → Option (List Const)
  | [] => some []
  | (.const c, _) :: os => (constOps os).map (c :: ·)
  | _ :: _ => none

/-- `GEPOperator::accumulateConstantOffset`: the indices are the operands after the pointer. -/
def gepOffset (lay : Layout) (src : Ty) (ops : List (Opnd × Ty)) : Option Nat :=
  (constOps ops.tail).bind (lay.offset src)

/-- Address space of the pointer operand (the first one). -/
def ptrSpace (ops : List (Opnd × Ty)) : Nat :=
  match ops with
  | o :: _ => o.2.space
  | [] => 0

/-- `FunctionComparator::cmpGEPs`, lines 707-736. -/
def cmpGEPs (lay : Layout) (src src' : Ty) (ops ops' : List (Opnd × Ty)) (st : CmpSt) :
    Int × CmpSt :=
  if cmpNum (ptrSpace ops) (ptrSpace ops') ≠ 0 then (cmpNum (ptrSpace ops) (ptrSpace ops'), st)
  else
    match gepOffset lay src ops, gepOffset lay src' ops' with
    | some a, some b => (cmpNum a b, st)
    | _, _ =>
      andThen (thenCmp (cmpTypes lay.ptrBits src src') (cmpNum ops.length ops'.length), st)
        (cmpOperands lay.ptrBits ops ops')

/-- Comparison of the pointer operands, lines 547-549 (they exist; otherwise 1 here). -/
def cmpPtrs (p : Nat) (ops ops' : List (Opnd × Ty)) (st : CmpSt) : Int × CmpSt :=
  match ops, ops' with
  | o :: _, o' :: _ => cmpValues p o.1 o'.1 st
  | _, _ => (1, st)

/-- Lines 553-702 of `cmpOperations`, and the comparison of the operands that follows (819-826). -/
def cmpPlain (lay : Layout) (l r : Inst) (st : CmpSt) : Int × CmpSt :=
  andThen (thenCmp (cmpNum l.ops.length r.ops.length) (thenCmp (cmpTypes lay.ptrBits l.ty r.ty)
    (thenCmp (cmpNum l.flags r.flags) (cmpOpTypes lay.ptrBits l.ops r.ops))), st) fun st =>
  andThen (cmpSpecial lay.ptrBits l.special r.special st) fun st =>
  cmpOperands lay.ptrBits l.ops r.ops st

/-- Lines 544-702 of `cmpOperations`: address computations need no further comparison of operands. -/
def cmpBody (lay : Layout) (l r : Inst) (st : CmpSt) : Int × CmpSt :=
  match l.special, r.special with
  | .gep src, .gep src' =>
    andThen (cmpPtrs lay.ptrBits l.ops r.ops st) (cmpGEPs lay src src' l.ops r.ops)
  | _, _ => cmpPlain lay l r st

/-- `FunctionComparator::cmpOperations`, lines 530-703, and the comparison of the operands that
follows unless `needToCmpOperands` was reset (814-827). -/
def cmpInst (lay : Layout) (l r : Inst) (st : CmpSt) : Int × CmpSt :=
  andThen (cmpKeys (.val l.id) (.val r.id) st) fun st =>
  andThen (cmpNum l.opcode r.opcode, st) fun st => cmpBody lay l r st

/-- `FunctionComparator::cmpBasicBlocks`, lines 807-838. -/
def cmpCode (lay : Layout) : List Inst → List Inst → CmpSt → Int × CmpSt
  | [], [], st => (0, st)
  | _ :: _, [], st => (1, st)
  | [], _ :: _, st => (-1, st)
  | a :: as, b :: bs, st => andThen (cmpInst lay a b st) (cmpCode lay as bs)

/-- Optional names (`hasGC`/`getGC`, `hasSection`/`getSection`), lines 844-858. -/
def cmpOptName : Option Str → Option Str → Int
  | none, none => 0
  | none, some _ => -1
  | some _, none => 1
  | some a, some b => cmpMem a b

/-- The loop over arguments, lines 876-882 (that the arguments of a function are different is asserted
there and not checked here). -/
def cmpArgs : List (Nat × Ty) → List (Nat × Ty) → CmpSt → Int × CmpSt
  | a :: as, b :: bs, st => andThen (cmpKeys (.val a.1) (.val b.1) st) (cmpArgs as bs)
  | _, _, st => (0, st)

/-- `FunctionComparator::compareSignature`, lines 840-884. -/
def cmpSignature (lay : Layout) (l r : Fn) (st : CmpSt) : Int × CmpSt :=
  andThen (thenCmp (cmpAttrs lay.ptrBits l.attrs r.attrs) (thenCmp (cmpOptName l.gc r.gc)
    (thenCmp (cmpOptName l.sect r.sect) (thenCmp (cmpNum l.vararg.toNat r.vararg.toNat)
      (thenCmp (cmpNum l.cc r.cc) (cmpTypes lay.ptrBits l.ty r.ty))))), st)
    (cmpArgs l.args r.args)

/-- Lines 918-924: successors of the left function that were not visited are pushed together with
the successor of the right function at the same position. The work list has its top first. -/
def pushSuccs : List Nat → List Nat → List (Nat × Nat) → List Nat → List (Nat × Nat) × List Nat
  | a :: as, b :: bs, work, visited =>
    if a ∈ visited then pushSuccs as bs work visited
    else pushSuccs as bs ((a, b) :: work) (a :: visited)
  | _, _, work, visited => (work, visited)

/-- The loop of `FunctionComparator::compare`, lines 904-926; `none` if the fuel runs out (it does
not: `C44_equal`). A block that is not in its function is a difference (in the code blocks are
pointers). -/
def cmpLoop (lay : Layout) (l r : Fn) :
    Nat → List (Nat × Nat) → List Nat → CmpSt → Option (Int × CmpSt)
  | _, [], _, st => some (0, st)
  | 0, _ :: _, _, _ => none
  | n + 1, (b, b') :: work, visited, st =>
    match l.find b, r.find b' with
    | some B, some B' =>
      let res := andThen (cmpKeys (.blk b) (.blk b') st) (cmpCode lay B.code B'.code)
      if res.1 = 0 then
        let pushed := pushSuccs B.term.succs B'.term.succs work visited
        cmpLoop lay l r n pushed.1 pushed.2 res.2
      else some res
    | _, _ => some (1, st)

/-- `FunctionComparator::compare`, lines 887-927. -/
def compareFns (lay : Layout) (l r : Fn) : Option Int :=
  let sig := cmpSignature lay l r ⟨[], []⟩
  if sig.1 = 0 then
    (cmpLoop lay l r (l.blocks.length + 1) [(l.entry.id, r.entry.id)] [l.entry.id] sig.2).map
      Prod.fst
  else some sig.1

end DK
