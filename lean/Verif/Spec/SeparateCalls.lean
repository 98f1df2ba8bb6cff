import Verif.Model.SeparateCalls

/-!
Specification: what functions with calls through casts do, and valid code.
-/

set_option autoImplicit false

namespace DK.Spec

/-- Where control goes after an instruction. -/
inductive CNext where
  | next
  | goto (b : Nat)
  | ret (v : Int)
  deriving DecidableEq

/-- What calls (of functions and of pointers) and other instructions do, given values and a memory. Nothing
is returned by calls that do not return. -/
structure CMach (Mem : Type) where
  call : Nat → List Int → Mem → Option (Int × Mem)
  callPtr : Int → List Int → Mem → Option (Int × Mem)
  other : Nat → List Int → Mem → Option (Int × Mem × CNext)

abbrev CEnv := Nat → Int

def CEnv.set (e : CEnv) (i : Nat) (v : Int) : CEnv := fun j => if j = i then v else e j

def evalC (e : CEnv) : BVal → Int
  | .ref i _ => e i
  | .const v _ => v

/-- One instruction. A call through a cast calls the function, a bitcast keeps the value. -/
def stepC {Mem : Type} (M : CMach Mem) (e : CEnv) (mem : Mem) : CIn → Option (CEnv × Mem × CNext)
  | .call i (.fn f) args _ => (M.call f (args.map (evalC e)) mem).map fun x => (e.set i x.1, x.2, .next)
  | .call i (.castFn f) args _ => (M.call f (args.map (evalC e)) mem).map fun x => (e.set i x.1, x.2, .next)
  | .call i (.other v) args _ => (M.callPtr (evalC e v) (args.map (evalC e)) mem).map fun x => (e.set i x.1, x.2, .next)
  | .cast i x _ => some (e.set i (evalC e x), mem, .next)
  | .other i k ops _ => (M.other k (ops.map (evalC e)) mem).map fun x => (e.set i x.1, x.2.1, x.2.2)

/-- Instructions of a block. -/
def codeC {Mem : Type} (M : CMach Mem) : List CIn → CEnv → Mem → Option (CEnv × Mem × CNext)
  | [], e, mem => some (e, mem, CNext.next)
  | i :: is, e, mem =>
    match stepC M e mem i with
    | none => none
    | some (e', mem', .next) => codeC M is e' mem'
    | some y => some y

/-- Phis take their values at once, from the values before. -/
def phisC (from_ : Nat) (old : CEnv) : List CPhi → CEnv → CEnv
  | [], e => e
  | p :: ps, e => phisC from_ old ps (match p.inc.lookup from_ with | some v => e.set p.id (evalC old v) | none => e)

/-- A run from a block, in at most the given number of blocks. -/
def blocksC {Mem : Type} (M : CMach Mem) (f : CFun) : Nat → Nat → Nat → CEnv → Mem → Option (Int × Mem)
  | 0, _, _, _, _ => none
  | n + 1, from_, b, e, mem =>
    match f.blocks[b]? with
    | none => none
    | some B =>
      match codeC M B.code (phisC from_ e B.phis e) mem with
      | some (e', mem', .goto b') => blocksC M f n b b' e' mem'
      | some (_, mem', .ret v) => some (v, mem')
      | _ => none

/-- The values of arguments; values of instructions are 0 before they are computed. -/
def argsC : List (Nat × CTy) → List Int → CEnv
  | a :: as, v :: vs => (argsC as vs).set a.1 v
  | _, _ => fun _ => 0

/-- The function returns a value with a memory. -/
def ReturnsC {Mem : Type} (M : CMach Mem) (f : CFun) (vals : List Int) (mem : Mem) (res : Int × Mem) : Prop :=
  ∃ n, blocksC M f n 0 0 (argsC f.args vals) mem = some res

/-- Both functions do the same on all machines. -/
def SameRuns (f g : CFun) : Prop :=
  ∀ (Mem : Type) (M : CMach Mem) (vals : List Int) (mem : Mem) (res : Int × Mem),
    ReturnsC M f vals mem res ↔ ReturnsC M g vals mem res

/-- Names with types: arguments, phis and instructions. -/
def defsC (f : CFun) : List (Nat × CTy) :=
  f.args ++ f.blocks.flatMap fun B => (B.phis.map fun p => (p.id, p.ty)) ++ B.code.map fun i => (i.id, i.ty)

/-- Operands of an instruction. -/
def operandsC : CIn → List BVal
  | .call _ (.other v) args _ => v :: args
  | .call _ _ args _ => args
  | .cast _ x _ => [x]
  | .other _ _ ops _ => ops

/-- Names are different, and every used value is defined with its type. -/
structure WellNamedC (f : CFun) : Prop where
  unique : ((defsC f).map Prod.fst).Nodup
  code : ∀ B ∈ f.blocks, ∀ i ∈ B.code, ∀ a t, BVal.ref a t ∈ operandsC i → (a, t) ∈ defsC f
  phis : ∀ B ∈ f.blocks, ∀ p ∈ B.phis, ∀ x ∈ p.inc, ∀ a t, x.2 = BVal.ref a t → (a, t) ∈ defsC f

/-- A bitcast between the types is allowed: between pointers, or between values of the same size. -/
def CanCast : CTy → CTy → Prop
  | .int w, .int w' => w = w'
  | .ptr _, .ptr _ => True
  | _, _ => False

/-- Arguments of these types can be passed to a function of this type. -/
def CanPass (t : FnTy) (args : List CTy) : Prop :=
  if t.vararg = true then t.params <+: args else t.params = args

/-- A valid instruction: calls fit the type of the called function, casts are allowed. -/
def ValidIn (sig : Nat → FnTy) : CIn → Prop
  | .call _ (.fn f) args ty => CanPass (sig f) (args.map BVal.ty) ∧ ty = (sig f).ret
  | .call _ _ _ _ => True
  | .cast _ x ty => CanCast x.ty ty
  | .other _ _ _ _ => True

/-- Valid code. -/
def ValidC (sig : Nat → FnTy) (f : CFun) : Prop :=
  WellNamedC f ∧ ∀ B ∈ f.blocks, ∀ i ∈ B.code, ValidIn sig i

/-- Arguments with these types can be bitcast to parameters; without a variable number of arguments there are
not more of them. -/
def ArgsFit (t : FnTy) (args : List CTy) : Prop :=
  (∀ x ∈ t.params.zip args, x.2 = x.1 ∨ CanCast x.2 x.1) ∧ (t.vararg = false → args.length ≤ t.params.length)

/-- Calls through casts: arguments fit, and the result has the type of the call or can be bitcast to it. -/
def CallsFit (sig : Nat → FnTy) (f : CFun) : Prop :=
  ∀ B ∈ f.blocks, ∀ i k args ty, CIn.call i (.castFn k) args ty ∈ B.code →
    ArgsFit (sig k) (args.map BVal.ty) ∧ ((sig k).ret = ty ∨ (sig k).ret = .void ∨ CanCast (sig k).ret ty)

end DK.Spec
