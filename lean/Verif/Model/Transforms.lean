import Verif.Model.Text

/-!
Model of the transformations that SimpLL applies to modules before it compares them:
passes/UnifyMemcpyPass.cpp, passes/MergeNumberedFunctionsPass.cpp, passes/RemoveUnusedReturnValuesPass.cpp,
passes/FunctionAbstractionsGenerator.cpp and passes/SimplifyKernelFunctionCallsPass.cpp. Functions consist of
blocks of calls, other operations and phis. Not modelled: attributes, debug information, invokes, alignments,
LLVM's own simplification of functions.
-/

set_option autoImplicit false

namespace DK

/-! ### Modules -/

/-- Operands: arguments of the function, results of instructions (by number), constants, null, functions. -/
inductive PValue where
  | arg (i : Nat)
  | inst (n : Nat)
  | const (c : Int)
  | null
  | fn (name : Str)
  deriving DecidableEq, Repr

/-- What is called: a function, a function pointer, or inline assembly (text and constraints). -/
inductive PCallee where
  | fn (name : Str)
  | ptr (v : PValue)
  | asm (text constraint : Str)
  deriving DecidableEq, Repr

/-- A function type; the types are given as LLVM prints them. -/
structure PSig where
  ret : Str
  params : List Str
  vararg : Bool
  deriving DecidableEq, Repr

/-- Instructions with the number of their result. -/
inductive PInst where
  | call (id : Nat) (callee : PCallee) (sig : PSig) (args : List PValue)
  | op (id : Nat) (code : Nat) (args : List PValue)
  | phi (id : Nat) (incoming : List (Nat × PValue))
  deriving DecidableEq, Repr

inductive PTerm where
  | ret (v : Option PValue)
  | br (c : PValue) (t e : Nat)
  | jmp (t : Nat)
  | stop
  deriving DecidableEq, Repr

structure PBlock where
  insts : List PInst
  term : PTerm
  deriving DecidableEq, Repr

/-- What a generated function stands for: an indirect call through its last argument, or inline assembly
(the metadata `inlineasm`). -/
inductive PAbs where
  | indirect
  | asm (text constraint : Str)
  deriving DecidableEq, Repr

/-- A function; declarations have no blocks. -/
structure PFun where
  name : Str
  sig : PSig
  blocks : List PBlock
  abs : Option PAbs := none
  deriving DecidableEq, Repr

abbrev PMod := List PFun

/-- `Mod.getFunction(name)` -/
def PMod.fn? (P : PMod) (n : Str) : Option PFun := List.find? (fun f => f.name = n) P

/-- The names of all functions. -/
def PMod.names (P : PMod) : List Str := List.map PFun.name P

/-- Change the instructions of a block. -/
def PBlock.mapInsts (g : PInst → PInst) (b : PBlock) : PBlock := { b with insts := b.insts.map g }

/-- Change the instructions of a function. -/
def PFun.mapInsts (g : PInst → PInst) (f : PFun) : PFun := { f with blocks := f.blocks.map (PBlock.mapInsts g) }

/-- All instructions of a function in order. -/
def PFun.insts (f : PFun) : List PInst := f.blocks.flatMap PBlock.insts

/-- The number of the result. -/
def PInst.id : PInst → Nat
  | .call i _ _ _ => i
  | .op i _ _ => i
  | .phi i _ => i

/-- The operands, with the called value. -/
def PInst.operands : PInst → List PValue
  | .call _ (.ptr v) _ args => args ++ [v]
  | .call _ _ _ args => args
  | .op _ _ args => args
  | .phi _ inc => inc.map Prod.snd

/-- The operands of a terminator. -/
def PTerm.operands : PTerm → List PValue
  | .ret (some v) => [v]
  | .br c _ _ => [c]
  | _ => []

/-- All operands used in a function. -/
def PFun.operands (f : PFun) : List PValue :=
  f.blocks.flatMap fun b => b.insts.flatMap PInst.operands ++ b.term.operands

/-- `!I->use_empty()` for the result with number `n`. -/
def PFun.uses (f : PFun) (n : Nat) : Bool := f.operands.contains (.inst n)

/-! ### Replacing values -/

/-- `I->replaceAllUsesWith(v)` on an operand. -/
def substVal (n : Nat) (v : PValue) : PValue → PValue
  | .inst m => if m = n then v else .inst m
  | w => w

def substCallee (n : Nat) (v : PValue) : PCallee → PCallee
  | .ptr w => .ptr (substVal n v w)
  | c => c

def substInst (n : Nat) (v : PValue) : PInst → PInst
  | .call i c s args => .call i (substCallee n v c) s (args.map (substVal n v))
  | .op i k args => .op i k (args.map (substVal n v))
  | .phi i inc => .phi i (inc.map fun x => (x.1, substVal n v x.2))

def substTerm (n : Nat) (v : PValue) : PTerm → PTerm
  | .ret (some w) => .ret (some (substVal n v w))
  | .br c t e => .br (substVal n v c) t e
  | t => t

/-- `I->replaceAllUsesWith(v)` in a function. -/
def substFun (n : Nat) (v : PValue) (f : PFun) : PFun :=
  { f with blocks := f.blocks.map fun b => ⟨b.insts.map (substInst n v), substTerm n v b.term⟩ }

/-! ### UnifyMemcpyPass -/

/-- Is the instruction a call of `__memcpy`, UnifyMemcpyPass.cpp 24-29. -/
def isMemcpyCall : PInst → Bool
  | .call _ (.fn n) _ _ => n = str! "__memcpy"
  | _ => false

/-- The arguments of the call with number `n`. -/
def callArgs (f : PFun) (n : Nat) : List PValue :=
  match f.insts.find? (fun i => isMemcpyCall i && i.id == n) with
  | some (.call _ _ _ args) => args
  | _ => []

/-- `Call->replaceAllUsesWith(Call->getArgOperand(1))`, 46. -/
def unifyStep (f : PFun) (n : Nat) : PFun :=
  match (callArgs f n)[1]? with
  | some v => substFun n v f
  | none => f

/-- The call of the intrinsic that is created, 30-44; it is not volatile. Its number is the one of the removed
call. -/
def memcpyInst : PInst → PInst
  | .call i (.fn n) s args =>
    if n = str! "__memcpy" then
      .call i (.fn (str! "llvm.memcpy")) ⟨str! "void", s.params ++ [str! "i1"], false⟩ (args.take 3 ++ [.const 0])
    else .call i (.fn n) s args
  | i => i

/-- `UnifyMemcpyPass::run`, 19-83. The changed alignments (48-75) are not modelled. -/
def unifyMemcpy (f : PFun) : PFun :=
  ((((f.insts.filter isMemcpyCall).map PInst.id).foldl unifyStep f)).mapInsts memcpyInst

/-! ### MergeNumberedFunctionsPass -/

/-- Rename functions in operands. -/
def renVal (r : Str → Str) : PValue → PValue
  | .fn n => .fn (r n)
  | v => v

def renCallee (r : Str → Str) : PCallee → PCallee
  | .fn n => .fn (r n)
  | .ptr v => .ptr (renVal r v)
  | c => c

def renInst (r : Str → Str) : PInst → PInst
  | .call i c s args => .call i (renCallee r c) s (args.map (renVal r))
  | .op i k args => .op i k (args.map (renVal r))
  | .phi i inc => .phi i (inc.map fun x => (x.1, renVal r x.2))

def renTerm (r : Str → Str) : PTerm → PTerm
  | .ret (some v) => .ret (some (renVal r v))
  | .br c t e => .br (renVal r c) t e
  | t => t

def renBlock (r : Str → Str) (b : PBlock) : PBlock := ⟨b.insts.map (renInst r), renTerm r b.term⟩

/-- Rename functions in the body of a function. -/
def renBody (r : Str → Str) (f : PFun) : PFun := { f with blocks := f.blocks.map (renBlock r) }

/-- Rename the function itself and all uses of functions. -/
def renFun (r : Str → Str) (f : PFun) : PFun := { renBody r f with name := r f.name }

/-- The renaming of one function. -/
def ren1 (a b n : Str) : Str := if n = a then b else n

/-- `(*F)->replaceAllUsesWith(FirstF); (*F)->eraseFromParent();`, MergeNumberedFunctionsPass.cpp 53-54. -/
def mergeInto (P : PMod) (first other : Str) : PMod :=
  (P.filter (fun f => f.name ≠ other)).map (renBody (ren1 other first))

/-- The name that a function gets by `setName(name)`. If another function has the name, LLVM chooses another one:
`uniq`. -/
def newName (uniq : List Str → Str → Str) (P : PMod) (f name : Str) : Str :=
  if f = name then f else if P.names.contains name then uniq P.names name else name

/-- `FirstF->setName(name)`, 59-61. -/
def setName (uniq : List Str → Str → Str) (P : PMod) (f name : Str) : PMod :=
  if f = name then P else P.map (renFun (ren1 f (newName uniq P f name)))

/-- Prefixes of generated functions, FunctionAbstractionsGenerator.h 23-24. -/
def asmPrefix : Str := str! "simpll__inlineasm."
def indirectPrefix : Str := str! "simpll__indirect."

/-- `isSimpllAbstraction`, FunctionAbstractionsGenerator.cpp 163-173. -/
def isAbstraction (n : Str) : Bool := startsWith n indirectPrefix || startsWith n asmPrefix

/-- Functions that are grouped, MergeNumberedFunctionsPass.cpp 30-39, with their groups. -/
def mergeGroups (P : PMod) : Dict Str (List Str) :=
  (P.names.filter fun n => !(isAbstraction n || startsWith n (str! "llvm."))).foldl
    (fun (d : Dict Str (List Str)) n => d.set (stem n) ((d.get? (stem n)).getD [] ++ [n])) []

/-- The loop over a group, 50-55. -/
def mergeRest (P : PMod) (first : Str) (others : List Str) : PMod :=
  others.foldl (fun P n =>
    if (P.fn? first).map PFun.sig = (P.fn? n).map PFun.sig then mergeInto P first n else P) P

/-- The processing of a group, 42-62. -/
def mergeGroup (uniq : List Str → Str → Str) (P : PMod) (g : List Str) : PMod :=
  match g with
  | first :: second :: others => setName uniq (mergeRest P first (second :: others)) first (stem first)
  | _ => P

/-- `MergeNumberedFunctionsPass::run`, 21-65. The order of the groups in `std::unordered_map` is not known; the
model takes the order of the first functions. -/
def mergeNumbered (uniq : List Str → Str → Str) (P : PMod) : PMod :=
  (mergeGroups P).values.foldl (mergeGroup uniq) P

/-! ### RemoveUnusedReturnValuesPass -/

/-- Is it a call of `n` whose result is not used in `f`, RemoveUnusedReturnValuesPass.cpp 63-72. -/
def isUnusedCall (f : PFun) (n : Str) : PInst → Bool
  | .call i (.fn m) _ _ => m = n && !f.uses i
  | _ => false

/-- The replacement of calls, 155-178. -/
def voidCall (f : PFun) (n new : Str) (i : PInst) : PInst :=
  match i with
  | .call k (.fn m) s args =>
    if m = n ∧ f.uses k = false then .call k (.fn new) { s with ret := str! "void" } args
    else i
  | _ => i

/-- Replacement of calls in a function. -/
def voidCalls (n new : Str) (f : PFun) : PFun := f.mapInsts (voidCall f n new)

/-- `ret void`, 134-138. -/
def voidTerm : PTerm → PTerm
  | .ret _ => .ret none
  | t => t

/-- The new function, 110-147; its simplification by LLVM (149-151) is not modelled. -/
def voidFun (n new : Str) (f : PFun) : PFun :=
  { name := new
    sig := { f.sig with ret := str! "void" }
    blocks := (voidCalls n new f).blocks.map fun b => { b with term := voidTerm b.term }
    abs := f.abs }

/-- What is done for the function `n` if it has unused results, 81-184, without renaming: the original name is
kept by the clone, and the new function is added. -/
def splitVoid (P : PMod) (n new : Str) : PMod :=
  P.flatMap fun f => if f.name = n then [f, voidFun n new f] else [voidCalls n new f]

/-- The conditions, 42-59. `called`: the set of functions that are called from the compared one. -/
def wantsVoid (other : PMod) (called : Str → Bool) (f : PFun) : Bool :=
  !startsWith f.name (str! "llvm.") && f.sig.ret ≠ str! "void" &&
    (isAbstraction f.name ||
      (match other.fn? f.name with
       | some g => g.sig.ret = str! "void"
       | none => false) && called f.name)

/-- Is the function also an argument of such a call? Each use is added to the list, so the call is in it twice
(63-72), and is erased a second time after it was deleted (155-178). -/
def isErasedTwice (f : PFun) (n : Str) (i : PInst) : Bool :=
  isUnusedCall f n i && i.operands.contains (.fn n)

/-- What is done for one function, 41-185. The clone gets the name without suffix. `none`: memory is used after it
was freed. -/
def removeStep (uniq : List Str → Str → Str) (other : PMod) (called : Str → Bool) (P : PMod) (n : Str) :
    Option PMod :=
  match P.fn? n with
  | none => some P
  | some f =>
    if wantsVoid other called f && P.any (fun g => g.insts.any (isUnusedCall g n)) then
      if P.any (fun g => g.insts.any (isErasedTwice g n)) then none
      else
      let clone := newName uniq P n (stem n)
      let P1 := setName uniq P n (stem n)
      let v := stem n ++ str! ".void"
      some (splitVoid P1 clone (if P1.names.contains v then uniq P1.names v else v))
    else some P

/-- `RemoveUnusedReturnValuesPass::run`, 25-189. -/
def removeUnused (uniq : List Str → Str → Str) (other : PMod) (called : Str → Bool) (P : PMod) : Option PMod :=
  P.names.foldlM (removeStep uniq other called) P

/-! ### FunctionAbstractionsGenerator -/

/-- LLVM's text of a function type. -/
def sigText (s : PSig) : Str :=
  s.ret ++ str! " (" ++ List.intercalate (str! ", ") (s.params ++ if s.vararg then [str! "..."] else []) ++ str! ")"

/-- `typeName`, Utils.cpp 117-129. -/
def typeName (t : Str) : Str :=
  (t.filter (· ≠ ' ')).map fun c => if c = '(' ∨ c = ')' then '$' else if c = ',' then '_' else c

/-- `funHash`, FunctionAbstractionsGenerator.cpp 123-133. -/
def absHash (s : PSig) : PCallee → Str
  | .asm t c => typeName (sigText s) ++ str! "$" ++ t ++ str! "$" ++ c
  | _ => typeName (sigText s)

/-- The generated functions so far: their hashes and names, and the counter. -/
structure AbsSt where
  map : Dict Str Str := []
  next : Nat := 0
  funs : List PFun := []

/-- `isInlineAsm()` -/
def isAsm : PCallee → Bool
  | .asm _ _ => true
  | _ => false

/-- What a function stands for; for inline assembly it is the metadata that is added, 78-91. -/
def absOf : PCallee → PAbs
  | .asm t c => .asm t c
  | _ => .indirect

/-- `abstractionPrefix`, 135-140. -/
def absPrefix (c : PCallee) : Str := if isAsm c then asmPrefix else indirectPrefix

/-- The function for a call of the callee `c`, 56-94. -/
def absFunFor (st : AbsSt) (s : PSig) (c : PCallee) : Str × AbsSt :=
  match st.map.get? (absHash s c) with
  | some n => (n, st)
  | none =>
    let n := absPrefix c ++ Nat.toDigits 10 st.next
    let f : PFun :=
      { name := n
        sig := ⟨s.ret, s.params ++ (if isAsm c then [] else [str! "ptr"]), false⟩
        blocks := []
        abs := some (absOf c) }
    (n, { map := st.map.set (absHash s c) n, next := st.next + 1, funs := st.funs ++ [f] })

/-- The replacement of a call, 43-112. -/
def absInst (st : AbsSt) : PInst → PInst × AbsSt
  | .call i (.ptr v) s args =>
    let r := absFunFor st s (.ptr v)
    (.call i (.fn r.1) ⟨s.ret, s.params ++ [str! "ptr"], false⟩ (args ++ [v]), r.2)
  | .call i (.asm t c) s args =>
    let r := absFunFor st s (.asm t c)
    (.call i (.fn r.1) ⟨s.ret, s.params, false⟩ args, r.2)
  | i => (i, st)

/-- The instructions of a block. -/
def absInsts : AbsSt → List PInst → List PInst × AbsSt
  | st, [] => ([], st)
  | st, i :: l =>
    let r := absInst st i
    let q := absInsts r.2 l
    (r.1 :: q.1, q.2)

/-- The blocks of a function. -/
def absBlocks : AbsSt → List PBlock → List PBlock × AbsSt
  | st, [] => ([], st)
  | st, b :: l =>
    let r := absInsts st b.insts
    let q := absBlocks r.2 l
    ({ b with insts := r.1 } :: q.1, q.2)

/-- The functions of the module, 39-41. -/
def absFuns (called : Str → Bool) : AbsSt → List PFun → List PFun × AbsSt
  | st, [] => ([], st)
  | st, f :: l =>
    if called f.name then
      let r := absBlocks st f.blocks
      let q := absFuns called r.2 l
      ({ f with blocks := r.1 } :: q.1, q.2)
    else
      let q := absFuns called st l
      (f :: q.1, q.2)

/-- `FunctionAbstractionsGenerator::run`, 28-121: the changed functions and the generated ones. -/
def generateAbstractions (called : Str → Bool) (P : PMod) : PMod :=
  let r := absFuns called {} P
  r.1 ++ r.2.funs

/-! ### SimplifyKernelFunctionCallsPass -/

/-- `isKernelPrintFunction`, SimplifyKernelFunctionCallsPass.cpp 131-137. -/
def isKernelPrint (n : Str) : Bool :=
  [str! "_dev_info", str! "dev_warn", str! "dev_err", str! "sprintf", str! "printk"].contains n

/-- `isKernelWarnFunction`, 139-148. -/
def isKernelWarn (n : Str) : Bool :=
  [str! "warn_slowpath_null", str! "warn_slowpath_fmt", str! "__might_sleep", str! "__might_fault",
    str! "acpi_ut_predefined_warning"].contains n

/-- `replaceArgByZero`, 28-37: constants become zero. -/
def argZero (v : PValue) : PValue := match v with | .const _ => .const 0 | v => v

/-- `replaceArgByNull`, 39-48: pointers become null. `isPtr` tells which operands are pointers. -/
def argNull (isPtr : PValue → Bool) (v : PValue) : PValue := if isPtr v then .null else v

/-- Change of the first two arguments. -/
def hideArgs (isPtr : PValue → Bool) : List PValue → List PValue
  | a :: b :: l => argNull isPtr a :: argZero b :: l
  | l => l

/-- The body of the loop, 54-121. A call of a printing function is replaced by one with two null pointers. -/
def hidePrints (isPtr : PValue → Bool) : PInst → PInst
  | .call i (.asm t c) s args =>
    let args1 := if hasText (str! "__bug_table") t then hideArgs isPtr args else args
    let args2 :=
      if hasText (str! ".discard.reachable") t || hasText (str! ".discard.unreachable") t then
        match args1 with | a :: l => argZero a :: l | [] => []
      else args1
    .call i (.asm t c) s args2
  | .call i (.fn n) s args =>
    if isKernelPrint n then .call i (.fn n) s [.null, .null]
    else if isKernelWarn n then .call i (.fn n) s (hideArgs isPtr args)
    else .call i (.fn n) s args
  | i => i

/-- `SimplifyKernelFunctionCallsPass::run`, 50-129. -/
def simplifyPrints (isPtr : PValue → Bool) (f : PFun) : PFun := f.mapInsts (hidePrints isPtr)

end DK
