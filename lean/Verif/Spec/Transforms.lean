import Verif.Model.Transforms

/-!
What modules do: a semantics of modules for arbitrary machines. Memory, console and everything else that can be
observed is in the state `S`, on which operations, external functions and inline assembly may act arbitrarily.
-/

set_option autoImplicit false

namespace DK.Spec

/-- A machine with values `V` and states `S`. -/
structure PMach (V S : Type) where
  const : Int → V
  null : V
  undef : V
  /-- addresses of functions -/
  addr : Str → V
  /-- the function at an address -/
  target : V → Option Str
  isTrue : V → Bool
  op : Nat → List V → S → V × S
  ext : Str → List V → S → V × S
  asm : Str → Str → List V → S → V × S

variable {V S : Type}

/-- The value of an operand. -/
def evalP (M : PMach V S) (args : List V) (env : Nat → V) : PValue → V
  | .arg i => (args[i]?).getD M.undef
  | .inst n => env n
  | .const c => M.const c
  | .null => M.null
  | .fn n => M.addr n

/-- Set the result of an instruction. -/
def setEnv (env : Nat → V) (n : Nat) (v : V) : Nat → V := fun m => if m = n then v else env m

/-- A call of a value. -/
def callValue (M : PMach V S) (call : Str → List V → S → Option (V × S)) (v : V) (args : List V) (s : S) :
    Option (V × S) :=
  match M.target v with
  | some n => call n args s
  | none => none

/-- A call. -/
def callAny (M : PMach V S) (call : Str → List V → S → Option (V × S)) (args : List V) (env : Nat → V) :
    PCallee → List V → S → Option (V × S)
  | .fn n, as, s => call n as s
  | .ptr v, as, s => callValue M call (evalP M args env v) as s
  | .asm t c, as, s => some (M.asm t c as s)

/-- An instruction, in a block that was entered from block `prev`. -/
def runInst (M : PMach V S) (call : Str → List V → S → Option (V × S)) (args : List V) (prev : Nat) :
    PInst → (Nat → V) → S → Option ((Nat → V) × S)
  | .call i c _ as, env, s =>
    (callAny M call args env c (as.map (evalP M args env)) s).map fun r => (setEnv env i r.1, r.2)
  | .op i k as, env, s =>
    let r := M.op k (as.map (evalP M args env)) s
    some (setEnv env i r.1, r.2)
  | .phi i inc, env, s =>
    match inc.find? (fun x => x.1 = prev) with
    | some x => some (setEnv env i (evalP M args env x.2), s)
    | none => none

/-- The instructions of a block. -/
def runInsts (M : PMach V S) (call : Str → List V → S → Option (V × S)) (args : List V) (prev : Nat) :
    List PInst → (Nat → V) → S → Option ((Nat → V) × S)
  | [], env, s => some (env, s)
  | i :: l, env, s =>
    match runInst M call args prev i env s with
    | some r => runInsts M call args prev l r.1 r.2
    | none => none

/-- At most `fuel` blocks from block `cur` on. -/
def runPBlocks (M : PMach V S) (call : Str → List V → S → Option (V × S)) (blocks : List PBlock) (args : List V) :
    Nat → Nat → Nat → (Nat → V) → S → Option (V × S)
  | 0, _, _, _, _ => none
  | fuel + 1, prev, cur, env, s =>
    match blocks[cur]? with
    | none => none
    | some b =>
      match runInsts M call args prev b.insts env s with
      | none => none
      | some r =>
        match b.term with
        | .ret (some v) => some (evalP M args r.1 v, r.2)
        | .ret none => some (M.undef, r.2)
        | .br c t e =>
          runPBlocks M call blocks args fuel cur (if M.isTrue (evalP M args r.1 c) then t else e) r.1 r.2
        | .jmp t => runPBlocks M call blocks args fuel cur t r.1 r.2
        | .stop => none

/-- A call of a function of a module, with bounded depth and numbers of blocks. Declared functions are external;
generated functions do what they stand for. -/
def callFn (M : PMach V S) (P : PMod) : Nat → Str → List V → S → Option (V × S)
  | 0, _, _, _ => none
  | fuel + 1, n, args, s =>
    match P.fn? n with
    | none => some (M.ext n args s)
    | some f =>
      match f.abs with
      | some (.asm t c) => some (M.asm t c args s)
      | some .indirect =>
        match args.getLast? with
        | some v => callValue M (callFn M P fuel) v args.dropLast s
        | none => none
      | none =>
        match f.blocks with
        | [] => some (M.ext n args s)
        | _ => runPBlocks M (callFn M P fuel) f.blocks args fuel 0 0 (fun _ => M.undef) s

/-- A call of `n` with `args` in state `s` ends with result `v` in state `s'`. -/
def PEnds (M : PMach V S) (P : PMod) (n : Str) (args : List V) (s : S) (v : V) (s' : S) : Prop :=
  ∃ fuel, callFn M P fuel n args s = some (v, s')

/-- The call has the same outcome in both modules. -/
def SameCalls (M : PMach V S) (P P' : PMod) (n : Str) : Prop :=
  ∀ args s v s', PEnds M P n args s v s' ↔ PEnds M P' n args s v s'

/-- `__memcpy` copies like the intrinsic and returns the destination. -/
def MemcpyLaw (M : PMach V S) : Prop :=
  ∀ d s n m, M.ext (str! "__memcpy") [d, s, n] m =
    (d, (M.ext (str! "llvm.memcpy") [d, s, n, M.const 0] m).2)

/-- Calls of `__memcpy` have three arguments, and the two functions are not defined in the module. -/
structure MemcpyMod (P : PMod) : Prop where
  args : ∀ f ∈ P, ∀ i c s as, PInst.call i (.fn c) s as ∈ f.insts → c = str! "__memcpy" → as.length = 3
  ext : ∀ f ∈ P, f.name = str! "__memcpy" ∨ f.name = str! "llvm.memcpy" → f.blocks = [] ∧ f.abs = none

/-- Console functions: neither their result nor the state depends on what they print. -/
structure PrintLaw (M : PMach V S) : Prop where
  print : ∀ n ∈ [str! "_dev_info", str! "dev_warn", str! "dev_err", str! "printk"], ∀ a b s,
    M.ext n a s = M.ext n b s
  warn : ∀ n ∈ [str! "warn_slowpath_null", str! "warn_slowpath_fmt", str! "__might_sleep", str! "__might_fault",
    str! "acpi_ut_predefined_warning"], ∀ a a' b b' l s, M.ext n (a :: b :: l) s = M.ext n (a' :: b' :: l) s
  bug : ∀ t c, hasText (str! "__bug_table") t = true → ∀ a a' b b' l s,
    M.asm t c (a :: b :: l) s = M.asm t c (a' :: b' :: l) s
  discard : ∀ t c, hasText (str! ".discard.reachable") t = true ∨ hasText (str! ".discard.unreachable") t = true →
    ∀ a a' l s, M.asm t c (a :: l) s = M.asm t c (a' :: l) s

end DK.Spec
