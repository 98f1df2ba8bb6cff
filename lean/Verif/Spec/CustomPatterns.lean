import Verif.Model.CustomPatterns
import Verif.Spec.Text

/-! What a user expects of custom patterns, in terms of code, of the instructions found equal, and of the
matches. -/

set_option autoImplicit false

namespace DK.Spec

/-- The instruction at a position. -/
def InstAt (F : CusFun) (p : Pos) (i : CusInst) : Prop := (F.blocks.getD p.1 [])[p.2]? = some i

/-- Two values are operands at the same place of two instructions. -/
def OperandPair (L R : CusFun) (pl pr : Pos) (l r : CusVal) : Prop :=
  ∃ il ir, InstAt L pl il ∧ InstAt R pr ir ∧ ∃ k : Nat, il.args[k]? = some l ∧ ir.args[k]? = some r

/-- Operands are arguments of the function, or instructions that do not end a block. -/
def OperandsInside (F : CusFun) : Prop :=
  ∀ p i, InstAt F p i → (∀ n, CusVal.arg n ∈ i.args → n < F.params.length) ∧
    ∀ b j, CusVal.inst b j ∈ i.args → j + 1 < (F.blocks.getD b []).length

/-- No instruction of a pattern is marked as its start or as no input. -/
def Unmarked (F : CusFun) : Prop :=
  ∀ p i l, InstAt F p i → i.md = some l → some (str! "pattern-start") ∉ l ∧ some (str! "not-an-input") ∉ l

/-! ### Outputs -/

/-- Instructions of the two programs that a match and the output mapping of its pattern relate. -/
def OutputPair (m : PatMatch) (l r : Pos) : Prop :=
  ∃ p q, (p, q) ∈ m.pat.outMap ∧ (p, l) ∈ m.left ∧ (q, r) ∈ m.right

/-- Where instructions found equal use an output of a match in the first program, they use the related
output in the second one. -/
def OutputsAgree (L R : CusFun) (aligned : List (Pos × Pos)) (log : List PatMatch) : Prop :=
  ∀ pl pr, (pl, pr) ∈ aligned → ∀ l r : Pos, OperandPair L R pl pr (.inst l.1 l.2) (.inst r.1 r.2) →
    ∀ m ∈ log, ∀ r', OutputPair m l r' → r = r'

/-- Where instructions found equal use the result of an instruction found equal to another one, they use the
result of the other one. -/
def ResultsAgree (L R : CusFun) (aligned : List (Pos × Pos)) : Prop :=
  ∀ pl pr, (pl, pr) ∈ aligned → ∀ l r : Pos, OperandPair L R pl pr (.inst l.1 l.2) (.inst r.1 r.2) →
    ∀ r', (l, r') ∈ aligned → r = r'

/-- Two values of the two programs have the same number: they were found equal. -/
def SameNumber (s : CSt) (l r : CusVal) : Prop :=
  ∃ n, s.snL.lookup (true, l) = some n ∧ s.snR.lookup (false, r) = some n

/-! ### Occurrences -/

/-- A value `m` of the program stands for the value `p` of a pattern, if `f` gives the instructions of the
program by those of the pattern and `arg` the values for the arguments of the pattern. `pre` is the prefix
of the side. -/
def Stands (pre : Str) (M P : CusFun) (f : List (Pos × Pos)) (arg : Nat → Option CusVal) (m : CusVal) : CusVal → Prop
  | .inst b i => ∀ q : Pos, ((b, i), q) ∈ f → m = .inst q.1 q.2
  | .arg n => arg n = some m
  | .const c ptr => m = .const c ptr
  | .glob n _ => ∃ n' v, m = .glob n' v ∧ (NamesAgree pre n' n ∨ n' = M.name ∧ n = P.name)
  | .blk _ => m.isConst = false

/-- The instructions of the program given by `f` are those of the pattern: the same operations on values
that stand for those of the pattern. -/
def PatOccurs (pre : Str) (M P : CusFun) (f : List (Pos × Pos)) (arg : Nat → Option CusVal) : Prop :=
  ∀ p m, (p, m) ∈ f → ∃ ip im, InstAt P p ip ∧ InstAt M m im ∧ im.op = ip.op ∧ im.args.length = ip.args.length ∧
    ∀ (k : Nat) a b, im.args[k]? = some a → ip.args[k]? = some b → Stands pre M P f arg a b

/-- As `PatOccurs`, but nothing is said about operands that are instructions of the pattern outside of the
set `I`. -/
def PatOccursOn (I : CusVal → Prop) (pre : Str) (M P : CusFun) (f : List (Pos × Pos)) (arg : Nat → Option CusVal) : Prop :=
  ∀ p m, (p, m) ∈ f → ∃ ip im, InstAt P p ip ∧ InstAt M m im ∧ im.op = ip.op ∧ im.args.length = ip.args.length ∧
    ∀ (k : Nat) a b, im.args[k]? = some a → ip.args[k]? = some b →
      (∀ x y, b = .inst x y → I b) → Stands pre M P f arg a b

/-- All instructions of a pattern with one block from its start to its end have been matched. -/
def AllMatched (S : PSide) (f : List (Pos × Pos)) : Prop :=
  ∀ j, S.start.2 ≤ j → j < (S.fn.blocks.getD 0 []).length →
    (∀ k, S.start.2 ≤ k → k ≤ j → ∀ m, ((0, k), m) ∈ S.mds → m.stop = false) → ∃ m, ((0, j), m) ∈ f

/-- An argument of a pattern stands for the values `l` and `r` in a match: an instruction of each side of the
pattern has it as operand, and the matched instructions have these values in its place. -/
def InputPair (E : CusEnv) (m : PatMatch) (n : Nat) (l r : CusVal) : Prop :=
  (∃ p q, (p, q) ∈ m.left ∧ OperandPair m.pat.left.fn E.fnL p q (.arg n) l) ∧
  (∃ p q, (p, q) ∈ m.right ∧ OperandPair m.pat.right.fn E.fnR p q (.arg n) r)

/-- The map from numbers to pairs of values, from which the partner of a value is found, agrees with the numbers. -/
def PairsAgree (s : CSt) : Prop :=
  (∀ l n, s.snL.lookup (true, l) = some n → ∀ p, s.mapped.lookup n = some p →
    p.2.1 = false ∧ s.snR.lookup p.2 = some n) ∧
  (∀ r n, s.snR.lookup (false, r) = some n → ∀ p, s.mapped.lookup n = some p →
    p.1.1 = true ∧ s.snL.lookup p.1 = some n)

/-- A pattern of one block. Its first instruction is marked as the start, no other one is marked, and it ends with a
return, before which there are no outputs. -/
def SimplePattern (F : CusFun) : Prop :=
  ∃ first mid last, F.blocks = [first :: (mid ++ [last])] ∧ first.md = some [some (str! "pattern-start")] ∧
    (∀ i ∈ mid ++ [last], i.md = none) ∧ last.op = str! "ret" ∧ last.succs = [] ∧
    ∀ i ∈ first :: mid, i.op ≠ str! "ret" ∧
      (i.op = str! "call" → i.args.getLast? ≠ some (.glob (str! "diffkemp.output_mapping") false))

/-- The values of such a pattern: its block, its instructions before the return, and their operands. -/
def UsedValue (F : CusFun) (v : CusVal) : Prop :=
  v = .blk 0 ∨ ∃ k i, k + 1 < (F.blocks.getD 0 []).length ∧ InstAt F (0, k) i ∧ (v ∈ i.args ∨ v = .inst 0 k)

/-- A value `m` of a program can stand for a value of a pattern by itself. -/
def Fits (pre : Str) (M P : CusFun) (m : CusVal) : CusVal → Prop
  | .const c ptr => m = .const c ptr
  | .glob n _ => ∃ n' v, m = .glob n' v ∧ NamesAgree pre n' n ∧ n' ≠ M.name ∧ n ≠ P.name
  | _ => m.isConst = false

/-- The code of a pattern of one block is found in the block `b` of a program: the instruction `k` of the pattern at
the place `pos k`, in order, with different values of the program, given by `τ`, for different ones of the pattern. -/
def CodeOccurs (pre : Str) (M P : CusFun) (b : Nat) (pos : Nat → Nat) (τ : CusVal → CusVal) : Prop :=
  (∀ k l, k < l → pos k < pos l) ∧ τ (.blk 0) = .blk b ∧
  (∀ v, UsedValue P v → Fits pre M P (τ v) v) ∧ (∀ v w, UsedValue P v → UsedValue P w → τ v = τ w → v = w) ∧
  ∀ k, k + 1 < (P.blocks.getD 0 []).length → pos k + 1 < (M.blocks.getD b []).length ∧ τ (.inst 0 k) = .inst b (pos k) ∧
    ∃ ip im, InstAt P (0, k) ip ∧ InstAt M (b, pos k) im ∧ im.op = ip.op ∧ im.args = ip.args.map τ

/-- All instructions of the function are in one block without successors. -/
def OneBlockFn (F : CusFun) : Prop :=
  F.blocks.length = 1 ∧ ∀ t, (F.blocks.getD 0 []).getLast? = some t → t.succs = []

/-- An argument of a pattern with one block is an operand of an instruction between its start and its end. -/
def UsesArgument (F : CusFun) (n : Nat) : Prop :=
  ∃ j i, InstAt F (0, j) i ∧ CusVal.arg n ∈ i.args ∧ (initSide F).start.2 ≤ j ∧
    ∀ k, (initSide F).start.2 ≤ k → k ≤ j → ∀ m, ((0, k), m) ∈ (initSide F).mds → m.stop = false

/-- The first instruction of the pattern is matched: it is the start, and it neither ends the pattern nor its
block. -/
def StartsWithCode (F : CusFun) : Prop :=
  Unmarked F ∧ 2 ≤ (F.blocks.getD 0 []).length ∧ ∀ m, ((0, 0), m) ∈ (initSide F).mds → m.stop = false

/-- The entry block does not jump to another one without condition. -/
def NoJump (F : CusFun) : Prop := ∀ t, (F.blocks.getD 0 []).getLast? = some t → t.succs.length ≠ 1

/-! ### Value patterns -/

/-- An instruction loads the variable of a value pattern: by name, up to the prefix of the side. -/
def LoadsOf (pre : Str) (F : CusFun) (p : Pos) (v : CusVal) : Prop :=
  ∃ n m b i, v = .glob n true ∧ InstAt F p i ∧ i.op = str! "load" ∧ i.args.head? = some (.glob m b) ∧
    NamesAgree pre m n

/-- The two values are those of a value pattern: constants, or loads of variables. -/
def Described (L R : CusFun) (P : ValPat) (l r : CusVal) : Prop :=
  (l = P.valL ∨ ∃ p : Pos, l = .inst p.1 p.2 ∧ LoadsOf (str! "old.") L p P.valL) ∧
  (r = P.valR ∨ ∃ p : Pos, r = .inst p.1 p.2 ∧ LoadsOf (str! "new.") R p P.valR)

/-- Two values that do not depend on what was compared before are the same: equal constants, globals with the
same name up to suffixes, or the two functions themselves. -/
def SameConstant (L R : CusFun) (l r : CusVal) : Prop :=
  (∃ c b, l = .const c b ∧ r = .const c b) ∨
  ∃ m n v w, l = .glob m v ∧ r = .glob n w ∧ ((∃ a, Stem m a ∧ Stem n a) ∨ m = L.name ∧ n = R.name)

/-- Where instructions found equal use values that come before them, these are the results of instructions found
equal, or values of one of the value patterns. -/
def OperandsExplained (E : CusEnv) (aligned : List (Pos × Pos)) : Prop :=
  ∀ pl pr, (pl, pr) ∈ aligned → ∀ l r : Pos, OperandPair E.fnL E.fnR pl pr (.inst l.1 l.2) (.inst r.1 r.2) →
    l.1 = pl.1 → l.2 < pl.2 → r.1 = pr.1 → r.2 < pr.2 →
    (l, r) ∈ aligned ∨ ∃ P ∈ E.values, Described E.fnL E.fnR P (.inst l.1 l.2) (.inst r.1 r.2)

/-- The global values of a value pattern have names, other than those of its functions. -/
def ProperNames (P : ValPat) : Prop :=
  (∀ n v, P.valL = .glob n v → n ≠ P.fnL ∧ ¬ NamesAgree (str! "old.") [] n) ∧
  (∀ n v, P.valR = .glob n v → n ≠ P.fnR ∧ ¬ NamesAgree (str! "new.") [] n)

/-! ### Coverage -/

/-- An instruction of the first program is in one of the matches, or loads the variable of a value pattern. -/
def CoveredL (E : CusEnv) (log : List PatMatch) (p : Pos) : Prop :=
  (∃ m ∈ log, ∃ q, (q, p) ∈ m.left) ∨ ∃ P ∈ E.values, LoadsOf (str! "old.") E.fnL p P.valL

/-- The same for the second program. -/
def CoveredR (E : CusEnv) (log : List PatMatch) (p : Pos) : Prop :=
  (∃ m ∈ log, ∃ q, (q, p) ∈ m.right) ∨ ∃ P ∈ E.values, LoadsOf (str! "new.") E.fnR p P.valR

/-- The entry blocks of two functions correspond: every instruction has a partner or is described by a pattern, partners
come in the same order, and they are the same operations. -/
def BlocksCorrespond (E : CusEnv) (log : List PatMatch) (aligned : List (Pos × Pos)) : Prop :=
  (∀ i, i < (E.fnL.blocks.getD 0 []).length → (∃ j, ((0, i), (0, j)) ∈ aligned) ∨ CoveredL E log (0, i)) ∧
  (∀ j, j < (E.fnR.blocks.getD 0 []).length → (∃ i, ((0, i), (0, j)) ∈ aligned) ∨ CoveredR E log (0, j)) ∧
  aligned.Pairwise (fun a b => a.1.2 < b.1.2 ∧ a.2.2 < b.2.2) ∧
  ∀ pl pr, (pl, pr) ∈ aligned → ∃ il ir, InstAt E.fnL pl il ∧ InstAt E.fnR pr ir ∧ il.op = ir.op ∧
    il.args.length = ir.args.length

/-! ### Loading -/

/-- Two functions are the sides of a pattern. -/
def Sides (M : List CusFun) (name : Str) (L R : CusFun) : Prop :=
  L ∈ M ∧ R ∈ M ∧ L.blocks ≠ [] ∧ L.name = str! "diffkemp.old." ++ name ∧ R.name = str! "diffkemp.new." ++ name

/-- The `k`-th output of a side: an operand of a return or of a call of `diffkemp.output_mapping`. -/
def Output (F : CusFun) (k : Nat) (p : Pos) : Prop :=
  ∃ pos i, InstAt F pos i ∧ i.args[k]? = some (.inst p.1 p.2) ∧
    (i.op = str! "ret" ∨
     i.op = str! "call" ∧ i.args.getLast? = some (.glob (str! "diffkemp.output_mapping") false) ∧ k + 1 < i.args.length)

/-- An instruction that gives outputs. -/
def GivesOutputs (i : CusInst) : Prop :=
  i.op = str! "ret" ∨ i.op = str! "call" ∧ i.args.getLast? = some (.glob (str! "diffkemp.output_mapping") false)

/-- The outputs of a side of one block: the operands of the first return or call of `diffkemp.output_mapping`. -/
def SideOutputs (F : CusFun) (vs : List Pos) : Prop :=
  ∃ before i after, F.blocks = [before ++ i :: after] ∧ (∀ x ∈ before, ¬ GivesOutputs x) ∧
    (i.op = str! "ret" ∧ i.args = vs.map (fun p => .inst p.1 p.2) ∨
     i.op = str! "call" ∧ i.args = vs.map (fun p => .inst p.1 p.2) ++ [.glob (str! "diffkemp.output_mapping") false])

/-- All new sides of patterns have code, and sides with a single instruction return a value. -/
def Loadable (M : List CusFun) : Prop :=
  ∀ name L R, Sides M name L R → R.blocks ≠ [] ∧
    ∀ i j, L.blocks.head? = some [i] → R.blocks.head? = some [j] → i.args ≠ [] ∧ j.args ≠ []

/-- A pattern of instructions belongs to two functions of a module, and its outputs are the outputs of these. -/
def InstPatOf (M : List CusFun) (P : InstPat) : Prop :=
  ∃ L R, Sides M P.name L R ∧ P.left.fn = L ∧ P.right.fn = R ∧ L.params.length = R.params.length ∧
    ∀ p q, (p, q) ∈ P.outMap → ∃ k, Output L k p ∧ Output R k q

/-- A value pattern belongs to two functions of a module that only return the two values. -/
def ValPatOf (M : List CusFun) (V : ValPat) : Prop :=
  ∃ L R i j, Sides M V.name L R ∧ L.name = V.fnL ∧ R.name = V.fnR ∧ L.blocks.head? = some [i] ∧
    R.blocks.head? = some [j] ∧ i.args.head? = some V.valL ∧ j.args.head? = some V.valR

end DK.Spec
