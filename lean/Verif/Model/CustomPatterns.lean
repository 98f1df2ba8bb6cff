import Verif.Model.Text

/-!
Model of the custom patterns of differences: loading of patterns (CustomPatternSet.cpp), matching of a
pattern on one program (InstPatternComparator.cpp, ValuePatternComparator.cpp), matching on both
programs (CustomPatternComparator.cpp), and the comparison of two blocks with patterns
(DifferentialFunctionComparator.cpp, all of the built-in patterns switched off). Not modelled: reading of
the configuration and of the files, inline assembly, name comparison of structure types in address
computations, debug information, allocas and casts.
-/

set_option autoImplicit false

namespace DK

/-! ### Code -/

/-- Values: the instruction at a position of a block, an argument, a constant (its text, and whether it is
a pointer), a global (its name, and whether it is a variable), a block. -/
inductive CusVal where
  | inst (b i : Nat)
  | arg (n : Nat)
  | const (c : Str) (ptr : Bool)
  | glob (name : Str) (isVar : Bool)
  | blk (b : Nat)
  deriving DecidableEq, Repr

/-- An instruction. `op` stands for the opcode with types, flags and attributes. The incoming blocks of a
phi come first in `args`, as `cmpOperations` of LLVM compares them before the operands. `md` are the
operands of the metadata node `diffkemp.pattern`, `none` for operands that are not strings. -/
structure CusInst where
  op : Str
  args : List CusVal
  succs : List Nat := []
  md : Option (List (Option Str)) := none
  deriving DecidableEq, Repr

/-- A function: its name, its arguments (whether they are pointers), and its blocks; a declaration has no
blocks. The last instruction of a block is its terminator. -/
structure CusFun where
  name : Str
  params : List Bool
  blocks : List (List CusInst)
  deriving DecidableEq, Repr

def CusFun.block (F : CusFun) (b : Nat) : List CusInst := F.blocks.getD b []

def CusFun.instAt (F : CusFun) (b i : Nat) : Option CusInst := (F.block b)[i]?

/-- The instruction that a value is. -/
def CusFun.instOf (F : CusFun) : CusVal → Option CusInst
  | .inst b i => F.instAt b i
  | _ => none

/-- `isTerminator`: the last instruction of a block. -/
def CusFun.isTerm (F : CusFun) (b i : Nat) : Bool := decide (i + 1 = (F.block b).length)

/-- `getTerminator()->successors` -/
def CusFun.succsOf (F : CusFun) (b : Nat) : List Nat :=
  match (F.block b).getLast? with
  | some t => t.succs
  | none => []

/-- `getSingleSuccessor` -/
def CusFun.single (F : CusFun) (b : Nat) : Option Nat :=
  match F.succsOf b with
  | [s] => some s
  | _ => none

/-- All instructions with their positions, in the order of the code. -/
def CusFun.positions (F : CusFun) : List (Nat × Nat × CusInst) :=
  (F.blocks.zipIdx.map fun p => p.1.zipIdx.map fun q => (p.2, q.2, q.1)).flatten

/-- The number of operands. -/
def CusFun.operands (F : CusFun) : Nat := (F.positions.map fun p => p.2.2.args.length).sum

/-! ### Loading -/

/-- `CustomPatternMetadata`, CustomPatternSet.h 36-54. -/
structure PMeta where
  start : Bool := false
  stop : Bool := false
  groupStart : Bool := false
  groupEnd : Bool := false
  noNames : Bool := false
  notInput : Bool := false
  noValue : Bool := false
  deriving DecidableEq, Repr

/-- One operand of the metadata, CustomPatternSet.cpp 96-127: `none` for an unknown one. -/
def setMeta (m : PMeta) (s : Str) : Option PMeta :=
  if s = str! "pattern-start" then some { m with start := true }
  else if s = str! "pattern-end" then some { m with stop := true }
  else if s = str! "group-start" then some { m with groupStart := true }
  else if s = str! "group-end" then some { m with groupEnd := true }
  else if s = str! "disable-name-comparison" then some { m with noNames := true }
  else if s = str! "not-an-input" then some { m with notInput := true }
  else if s = str! "no-value-pattern-detection" then some { m with noValue := true }
  else none

/-- The loop of `getPatternMetadata`, CustomPatternSet.cpp 93-137. All kinds of metadata have no further
operands (lines 45-52). -/
def readMeta : List (Option Str) → PMeta → Option PMeta
  | [], m => some m
  | none :: _, _ => none
  | some s :: r, m =>
    match setMeta m s with
    | some m' => readMeta r m'
    | none => none

/-- `getPatternMetadata`, CustomPatternSet.cpp 87-139. -/
def CusInst.metadata (i : CusInst) : Option PMeta :=
  match i.md with
  | none => none
  | some l => readMeta l {}

/-- A position in a function: block and number in the block. -/
abbrev Pos := Nat × Nat

/-- One side of an instruction pattern after `initializeInstPatternSide`: the function, the metadata map,
the inputs, the start position; with the instruction of the output mapping and the number of its
operands. -/
structure PSide where
  fn : CusFun
  mds : List (Pos × PMeta)
  input : List CusVal
  start : Pos
  out : Option Pos
  outs : Nat
  deriving Repr

/-- The metadata of a pattern instruction. -/
def PSide.meta (S : PSide) (b i : Nat) : PMeta := (S.mds.lookup (b, i)).getD {}

/-- The start position found so far, the inputs, the metadata, whether an end was found, the output
mapping instruction. -/
structure SideSt where
  start : Option Pos := none
  input : List CusVal := []
  mds : List (Pos × PMeta) := []
  stop : Bool := false
  out : Option Pos := none

/-- Whether an instruction gives the output mapping, CustomPatternSet.cpp 345-354: a return or a call of
`diffkemp.output_mapping`. The called function is the last operand of a call. -/
def isOutputInst (i : CusInst) : Bool :=
  decide (i.op = str! "ret")
    || (decide (i.op = str! "call")
        && decide (i.args.getLast? = some (.glob (str! "diffkemp.output_mapping") false)))

/-- One instruction in the loop of `initializeInstPatternSide`, CustomPatternSet.cpp 317-355. -/
def sideStep (F : CusFun) (s : SideSt) (p : Nat × Nat × CusInst) : SideSt :=
  let pos : Pos := (p.1, p.2.1)
  let s := match p.2.2.metadata with
    | none => s
    | some m =>
      { s with
        mds := s.mds ++ [(pos, m)]
        start := if m.start && s.start.isNone then some pos else s.start
        stop := s.stop || m.stop }
  let s :=
    if s.start.isNone && !F.isTerm p.1 p.2.1 && !((p.2.2.metadata.map PMeta.notInput).getD false) then
      { s with input := s.input ++ [.inst p.1 p.2.1] }
    else s
  if s.out.isNone && isOutputInst p.2.2 then { s with out := some pos } else s

/-- Set the end in the metadata of an instruction, CustomPatternSet.cpp 366-378. -/
def addStop (pos : Pos) (mds : List (Pos × PMeta)) : List (Pos × PMeta) :=
  match mds.lookup pos with
  | none => mds ++ [(pos, { stop := true })]
  | some m => mds.map fun p => if p.1 = pos then (pos, { m with stop := true }) else p

/-- The number of operands that give outputs, CustomPatternSet.cpp 380-386. -/
def outCount (i : CusInst) : Nat := if i.op = str! "call" then i.args.length - 1 else i.args.length

/-- `initializeInstPatternSide`, CustomPatternSet.cpp 294-391. -/
def initSide (F : CusFun) : PSide :=
  let s := F.positions.foldl (sideStep F)
    { input := (List.range F.params.length).map .arg }
  { fn := F
    mds := match s.out with
      | some o => if s.stop then s.mds else addStop o s.mds
      | none => s.mds
    input := s.input
    start := s.start.getD (0, 0)
    out := s.out
    outs := match s.out.bind fun o => F.instAt o.1 o.2 with
      | some i => outCount i
      | none => 0 }

/-- An instruction pattern. Arguments with equal numbers are mapped to each other. -/
structure InstPat where
  name : Str
  left : PSide
  right : PSide
  outMap : List (Pos × Pos)
  deriving Repr

structure ValPat where
  name : Str
  fnL : Str
  fnR : Str
  valL : CusVal
  valR : CusVal
  deriving DecidableEq, Repr

/-- `OutputMapping[L] = R` for pairs of output operands, CustomPatternSet.cpp 272-287: `none` if an operand
is not an instruction. -/
def outPairs : List (CusVal × CusVal) → List (Pos × Pos) → Option (List (Pos × Pos))
  | [], acc => some acc
  | (.inst b i, .inst b' i') :: r, acc =>
    outPairs r (acc.filter (fun p => decide (p.1 ≠ (b, i))) ++ [((b, i), (b', i'))])
  | _ :: _, _ => none

/-- `initializeInstPattern`, CustomPatternSet.cpp 241-292. -/
def initInstPat (name : Str) (L R : CusFun) : Option InstPat :=
  let l := initSide L
  let r := initSide R
  if L.params.length ≠ R.params.length then none
  else if l.outs ≠ r.outs then none
  else
    match l.out.bind fun o => L.instAt o.1 o.2, r.out.bind fun o => R.instAt o.1 o.2 with
    | some ol, some or =>
      (outPairs ((ol.args.zip or.args).take l.outs) []).map fun m => ⟨name, l, r, m⟩
    | _, _ => some ⟨name, l, r, []⟩

/-- Whether a value is no pointer or a global variable, CustomPatternSet.cpp 405-408. -/
def validPtr (F : CusFun) : CusVal → Bool
  | .const _ ptr => !ptr
  | .glob _ isVar => isVar
  | .arg n => !(F.params.getD n false)
  | _ => true

/-- What loading of one pair of functions gives: a crash, nothing, or a pattern. -/
inductive Loaded where
  | crash
  | skip
  | inst (p : InstPat)
  | value (p : ValPat)

/-- `getPatternType` and the initialization, CustomPatternSet.cpp 196-218, 222-239, 393-414. The entry block of
a declaration does not exist; the operand of a return without value does not exist. -/
def loadPair (name : Str) (L R : CusFun) : Loaded :=
  match L.blocks, R.blocks with
  | eL :: _, eR :: _ =>
    let noVal := fun (i : CusInst) => (i.metadata.map PMeta.noValue).getD false
    match eL, eR with
    | [iL], [iR] =>
      if !noVal iL && !noVal iR then
        match iL.args, iR.args with
        | vL :: _, vR :: _ =>
          if validPtr L vL && validPtr R vR then .value ⟨name, L.name, R.name, vL, vR⟩ else .skip
        | _, _ => .crash
      else match initInstPat name L R with
        | some p => .inst p
        | none => .skip
    | _, _ => match initInstPat name L R with
        | some p => .inst p
        | none => .skip
  | _, _ => .crash

/-- `FullPrefixL` and `FullPrefixR`, CustomPatternSet.cpp 61-65. -/
def fullPrefix (isLeft : Bool) : Str := defaultPrefix ++ sidePrefix isLeft

structure PatSet where
  insts : List InstPat
  values : List ValPat

/-- `addPatternFromModule`, CustomPatternSet.cpp 181-223: `none` for a crash. Patterns of one module differ in
the names of their functions. -/
def loadModule (M : List CusFun) : List CusFun → PatSet → Option PatSet
  | [], s => some s
  | f :: r, s =>
    if f.blocks = [] ∨ startsWith f.name (fullPrefix true) = false then loadModule M r s
    else
      let name := f.name.drop (fullPrefix true).length
      match M.find? (fun g => decide (g.name = fullPrefix false ++ name)) with
      | none => loadModule M r s
      | some g =>
        match loadPair name f g with
        | .crash => none
        | .skip => loadModule M r s
        | .inst p => loadModule M r ⟨s.insts ++ [p], s.values⟩
        | .value p => loadModule M r ⟨s.insts, s.values ++ [p]⟩

/-! ### Matching on one side -/

/-- What a comparison with one side of a pattern knows: the function of the program, the side of the
pattern, whether it is the left one. -/
structure PEnv where
  modFn : CusFun
  side : PSide
  isLeft : Bool

/-- The state of an `InstPatternComparator`: serial numbers, newly mapped values, inputs mapped in both
directions, newly mapped inputs, matched instructions, positions, group depth. -/
structure PCmp where
  snL : List (CusVal × Nat) := []
  snR : List (CusVal × Nat) := []
  newL : List CusVal := []
  newR : List CusVal := []
  patIn : List (CusVal × CusVal) := []
  modIn : List (CusVal × CusVal) := []
  newModIn : List CusVal := []
  newPatIn : List CusVal := []
  matched : List (Pos × Pos) := []
  modPos : Pos := (0, 0)
  patPos : Pos := (0, 0)
  depth : Int := 0
  deriving Repr

/-- `insert({v, n})` -/
def numInsert (v : CusVal) (n : Nat) (m : List (CusVal × Nat)) : List (CusVal × Nat) :=
  if (m.lookup v).isSome then m else m ++ [(v, n)]

/-- `map[k] = v` for maps whose order does not matter. -/
def mapSet {α β : Type} [DecidableEq α] (k : α) (v : β) (m : List (α × β)) : List (α × β) :=
  m.filter (fun p => decide (p.1 ≠ k)) ++ [(k, v)]

/-- `erase` of some keys. -/
def eraseKeys {α β : Type} [DecidableEq α] (ks : List α) (m : List (α × β)) : List (α × β) :=
  m.filter fun p => decide (p.1 ∉ ks)

def CusVal.isConst : CusVal → Bool
  | .const _ _ => true
  | .glob _ _ => true
  | _ => false

/-- Whether a value is the global with a name. -/
def CusVal.hasName : CusVal → Str → Bool
  | .glob n _, m => decide (n = m)
  | _, _ => false

/-- Whether a value is a global variable. -/
def CusVal.isVar : CusVal → Bool
  | .glob _ b => b
  | _ => false

/-- `cmpConstants`, with `cmpGlobalValues` of InstPatternComparator.cpp 322-338. -/
def constMatch (isLeft : Bool) : CusVal → CusVal → Bool
  | .const c p, .const d q => decide (c = d ∧ p = q)
  | .glob m _, .glob n _ => namesMatch m n isLeft
  | _, _ => false

/-- `FunctionComparator::cmpValues` of LLVM, for a value of the program and a value of the pattern. -/
def PEnv.baseValues (E : PEnv) (s : PCmp) (m p : CusVal) : Bool × PCmp :=
  let selfL := m.hasName E.modFn.name
  let selfR := p.hasName E.side.fn.name
  if selfL || selfR then (selfL && selfR, s)
  else if m.isConst && p.isConst then (constMatch E.isLeft m p, s)
  else if m.isConst || p.isConst then (false, s)
  else
    let snL := numInsert m s.snL.length s.snL
    let snR := numInsert p s.snR.length s.snR
    (decide (snL.lookup m = snR.lookup p), { s with snL := snL, snR := snR })

/-- The loop of `mapInputValues`, InstPatternComparator.cpp 603-641; `work` is the stack, `seen` are the visited
values of the program. Every visited value is put on the stack at most once, so that the number of
operands of the function bounds the number of steps. -/
def PEnv.mapInputLoop (E : PEnv) : Nat → List (CusVal × CusVal) → List CusVal → PCmp → Bool × PCmp
  | 0, _, _, s => (true, s)
  | _ + 1, [], _, s => (true, s)
  | fuel + 1, (m, p) :: work, seen, s =>
    if p ∉ E.side.input then E.mapInputLoop fuel work seen s
    else
      let s := { s with
        patIn := mapSet p m s.patIn
        modIn := mapSet m p s.modIn
        newModIn := s.newModIn ++ [m]
        newPatIn := s.newPatIn ++ [p] }
      match E.modFn.instOf m, E.side.fn.instOf p with
      | some im, some ip =>
        if im.args.length ≠ ip.args.length then (false, s)
        else
          let (work, seen) := (im.args.zip ip.args).foldl
            (fun (ws : List (CusVal × CusVal) × List CusVal) q =>
              if (s.patIn.lookup q.2).isSome || decide (q.1 ∈ ws.2) then ws
              else (q :: ws.1, q.1 :: ws.2)) (work, seen)
          E.mapInputLoop fuel work seen s
      | _, _ => E.mapInputLoop fuel work seen s

/-- `mapInputValues`, InstPatternComparator.cpp 579-644. -/
def PEnv.mapInput (E : PEnv) (s : PCmp) (m p : CusVal) : Bool × PCmp :=
  match s.patIn.lookup p with
  | some m' => (decide (m' = m), s)
  | none => E.mapInputLoop (E.modFn.operands + 2) [(m, p)] [m] s

/-- `cmpValues`, InstPatternComparator.cpp 341-358. Reading of the number of a constant inserts it with the
number 0. The left operand of `==` is evaluated first. -/
def PEnv.cmpVal (E : PEnv) (s : PCmp) (m p : CusVal) : Bool × PCmp :=
  match E.baseValues s m p with
  | (false, s) => (false, s)
  | (true, s) =>
    let snL := numInsert m 0 s.snL
    let snR := numInsert p 0 s.snR
    let s := { s with
      snL := snL
      snR := snR
      newL := if snL.lookup m = some (snL.length - 1) then s.newL ++ [m] else s.newL
      newR := if snR.lookup p = some (snR.length - 1) then s.newR ++ [p] else s.newR }
    E.mapInput s m p

/-- The comparison of operands in `cmpOperationsWithOperands`. -/
def PEnv.cmpArgs (E : PEnv) : List (CusVal × CusVal) → PCmp → Bool × PCmp
  | [], s => (true, s)
  | (m, p) :: r, s =>
    match E.cmpVal s m p with
    | (true, s) => E.cmpArgs r s
    | (false, s) => (false, s)

/-- `cmpOperationsWithOperands`, InstPatternComparator.cpp 227-257, with `cmpOperations` of LLVM: compares the
results, the operation and the operands. -/
def PEnv.cmpInst (E : PEnv) (s : PCmp) (mp pp : Pos) : Bool × PCmp :=
  let s := { s with newL := [], newR := [], newModIn := [], newPatIn := [] }
  match E.modFn.instAt mp.1 mp.2, E.side.fn.instAt pp.1 pp.2 with
  | some im, some ip =>
    match E.cmpVal s (.inst mp.1 mp.2) (.inst pp.1 pp.2) with
    | (false, s) => (false, s)
    | (true, s) =>
      if im.op ≠ ip.op ∨ im.args.length ≠ ip.args.length then (false, s)
      else
        match E.cmpArgs (im.args.zip ip.args) s with
        | (false, s) => (false, s)
        | (true, s) => (true, { s with matched := mapSet pp mp s.matched })
  | _, _ => (false, s)

/-- `eraseNewlyMapped`, InstPatternComparator.cpp 476-491. -/
def PCmp.eraseNew (s : PCmp) : PCmp :=
  { s with
    snL := eraseKeys s.newL s.snL
    snR := eraseKeys s.newR s.snR
    patIn := eraseKeys s.newPatIn s.patIn
    modIn := eraseKeys s.newModIn s.modIn }

/-- `updateGroupDepth`, InstPatternComparator.cpp 654-662. -/
def PCmp.group (s : PCmp) (m : PMeta) : PCmp :=
  { s with depth := s.depth + (if m.groupStart then 1 else 0) - (if m.groupEnd then 1 else 0) }

/-- The loop of `cmpBasicBlocks`, InstPatternComparator.cpp 260-319, on the instructions that remain in the
block of the program. `first` is the position of `FirstModInst`. When the pattern is at its terminator
and has not one successor, the terminators are compared and the comparison ends. -/
def PEnv.cmpBlock (E : PEnv) (mb pb first : Nat) : List CusInst → Nat → Nat → PCmp → Bool × PCmp
  | [], _, j, s => (decide ((E.side.fn.block pb).length ≤ j), s)
  | m :: rest, i, j, s =>
    match (E.side.fn.block pb)[j]? with
    | none => (false, s)
    | some p =>
      let s := { s with modPos := (mb, i), patPos := (pb, j) }
      let md := E.side.meta pb j
      let termP := E.side.fn.isTerm pb j
      if md.stop then (true, s)
      else if rest.isEmpty && !termP && decide (m.succs.length = 1) then (false, s)
      else if !rest.isEmpty && termP then
        if p.succs.length = 1 then (true, s)
        else
          let last := (E.modFn.block mb).length - 1
          let s := { s with modPos := (mb, last) }
          match E.cmpInst s (mb, last) (pb, j) with
          | (false, s) => (false, s.eraseNew)
          | (true, s) => (true, s.group md)
      else
        match E.cmpInst s (mb, i) (pb, j) with
        | (false, s) =>
          let s := s.eraseNew
          if s.depth > 0 ∨ i = first then (false, s)
          else E.cmpBlock mb pb first rest (i + 1) j s
        | (true, s) => E.cmpBlock mb pb first rest (i + 1) (j + 1) (s.group md)

/-- `cmpBasicBlocks`: from the current positions. -/
def PEnv.cmpBlocks (E : PEnv) (mb pb : Nat) (s : PCmp) : Bool × PCmp :=
  E.cmpBlock mb pb s.modPos.2 ((E.modFn.block mb).drop s.modPos.2) s.modPos.2 s.patPos.2 s

/-- The visited blocks of both functions. -/
structure Visit where
  mod : List Nat
  pat : List Nat
  deriving Repr

/-- The comparison of blocks that follow each other without condition, `matchPattern`, InstPatternComparator.cpp
403-442: gives the last blocks of both sides. -/
def PEnv.chain (E : PEnv) : Nat → Nat → Nat → Visit → PCmp → Option (Nat × Nat × Visit) × PCmp
  | 0, _, _, _, s => (none, s)
  | fuel + 1, mb, pb, v, s =>
    let s := { s with modPos := if s.modPos.1 ≠ mb then (mb, 0) else s.modPos
                      patPos := if s.patPos.1 ≠ pb then (pb, 0) else s.patPos }
    match E.cmpBlocks mb pb s with
    | (false, s) =>
      match E.modFn.single mb with
      | some n =>
        if n ∈ v.mod then (none, s)
        else E.chain fuel n pb { v with mod := n :: v.mod } { s with modPos := (n, 0) }
      | none => (none, s)
    | (true, s) =>
      match E.side.fn.single pb with
      | some n =>
        if n ∈ v.pat then (some (mb, pb, v), s)
        else
          let v := { v with pat := n :: v.pat }
          if (E.side.meta pb ((E.side.fn.block pb).length - 1)).stop then (some (mb, pb, v), s)
          else E.chain fuel mb n v { s with patPos := (n, 0) }
      | none => (some (mb, pb, v), s)

/-- The last block of the program in a group of blocks that follow each other, lines 444-450. -/
def PEnv.lastMod (E : PEnv) : Nat → Nat → Visit → Nat × Visit
  | 0, mb, v => (mb, v)
  | fuel + 1, mb, v =>
    match E.modFn.single mb with
    | none => (mb, v)
    | some n => if n ∈ v.mod then (n, v) else E.lastMod fuel n { v with mod := n :: v.mod }

/-- The queueing of successors, lines 460-470. -/
def queueSuccs : List (Nat × Nat) → List (Nat × Nat) → Visit → List (Nat × Nat) × Visit
  | [], work, v => (work, v)
  | (m, p) :: r, work, v =>
    if m ∈ v.mod then queueSuccs r work v
    else
      let v := { v with mod := m :: v.mod }
      if p ∈ v.pat then queueSuccs r work v
      else queueSuccs r ((m, p) :: work) { v with pat := p :: v.pat }

/-- The walk over blocks of `matchPattern`, InstPatternComparator.cpp 394-473. Every block of the program is
queued at most once, so that the number of blocks bounds the number of rounds. -/
def PEnv.walk (E : PEnv) : Nat → List (Nat × Nat) → Visit → PCmp → Bool × PCmp
  | 0, _, _, s => (true, s)
  | _ + 1, [], _, s => (true, s)
  | fuel + 1, (mb, pb) :: work, v, s =>
    match E.cmpVal s (.blk mb) (.blk pb) with
    | (false, s) => (false, s)
    | (true, s) =>
      match E.chain (E.modFn.blocks.length + E.side.fn.blocks.length + 2) mb pb v { s with depth := 0 } with
      | (none, s) => (false, s)
      | (some (mb, pb, v), s) =>
        let (mb, v) := E.lastMod (E.modFn.blocks.length + 1) mb v
        if (E.side.meta pb ((E.side.fn.block pb).length - 1)).stop || (E.side.fn.succsOf pb).isEmpty then
          E.walk fuel work v s
        else
          let (work, v) := queueSuccs ((E.modFn.succsOf mb).zip (E.side.fn.succsOf pb)) work v
          E.walk fuel work v s

/-- `matchPattern`, InstPatternComparator.cpp 366-473, from the instruction `start` of the program. -/
def PEnv.matchPattern (E : PEnv) (start : Pos) (s : PCmp) : Bool × PCmp :=
  E.walk (E.modFn.blocks.length + 1) [(start.1, E.side.start.1)] ⟨[start.1], [E.side.start.1]⟩
    { s with modPos := start, patPos := E.side.start }

/-- Comparison of mapped arguments, `checkInputMapping`, InstPatternComparator.cpp 496-504. -/
def PEnv.checkArgs (E : PEnv) : List Nat → PCmp → Bool × PCmp
  | [], s => (true, s)
  | n :: r, s =>
    match s.patIn.lookup (.arg n) with
    | none => E.checkArgs r s
    | some m =>
      match E.cmpVal s m (.arg n) with
      | (true, s) => E.checkArgs r s
      | (false, s) => (false, s)

/-- Comparison of the mapped inputs in a block, lines 519-548: also tells whether the start was found. -/
def PEnv.checkInsts (E : PEnv) (pb : Nat) : Nat → Nat → PCmp → Option Bool × PCmp
  | 0, _, s => (some false, s)
  | k + 1, j, s =>
    if (E.side.meta pb j).start then (some true, s)
    else if (E.side.meta pb j).notInput then E.checkInsts pb k (j + 1) s
    else
      match s.patIn.lookup (.inst pb j) with
      | none => E.checkInsts pb k (j + 1) s
      | some (.inst b i) =>
        match E.cmpInst s (b, i) (pb, j) with
        | (true, s) => E.checkInsts pb k (j + 1) s
        | (false, s) => (none, s)
      | some m =>
        match E.cmpVal s m (.inst pb j) with
        | (true, s) => E.checkInsts pb k (j + 1) s
        | (false, s) => (none, s)

/-- The walk over the blocks of the pattern in `checkInputMapping`, lines 506-561. -/
def PEnv.checkWalk (E : PEnv) : Nat → List Nat → List Nat → PCmp → Bool × PCmp
  | 0, _, _, s => (true, s)
  | _ + 1, [], _, s => (true, s)
  | fuel + 1, pb :: work, seen, s =>
    match E.checkInsts pb (E.side.fn.block pb).length 0 s with
    | (none, s) => (false, s)
    | (some true, s) => E.checkWalk fuel work seen s
    | (some false, s) =>
      let (work, seen) := (E.side.fn.succsOf pb).foldl
        (fun (ws : List Nat × List Nat) n => if n ∈ ws.2 then ws else (n :: ws.1, n :: ws.2)) (work, seen)
      E.checkWalk fuel work seen s

/-- `checkInputMapping`, InstPatternComparator.cpp 495-575. -/
def PEnv.checkInput (E : PEnv) (s : PCmp) : Bool × PCmp :=
  match E.checkArgs (List.range E.side.fn.params.length) s with
  | (false, s) => (false, s)
  | (true, s) => E.checkWalk (E.side.fn.blocks.length + 1) [0] [0] s

/-- `beginCompare` of LLVM. -/
def PCmp.begin (s : PCmp) : PCmp := { s with snL := [], snR := [] }

/-- `compare`, InstPatternComparator.cpp 21-41. -/
def PEnv.compare (E : PEnv) (start : Pos) : Bool × PCmp :=
  match E.matchPattern start {} with
  | (false, s) => (false, s)
  | (true, s) => E.checkInput s.begin

/-! ### Inputs that were mapped on one side only -/

/-- The users of a value: simplified to the order of the code. -/
def CusFun.users (F : CusFun) (v : CusVal) : List Pos :=
  (F.positions.filter fun p => decide (v ∈ p.2.2.args)).map fun p => (p.1, p.2.1)

/-- The loop over users of `cmpInputValues`, InstPatternComparator.cpp 86-140. `all` are the users of the value
of the program. Gives the users of the pattern that remain and the pairs to be visited. -/
def PEnv.userLoop (E : PEnv) (all : List Pos) :
    Nat → List Pos → List Pos → List CusVal → List (CusVal × CusVal) → PCmp →
      List Pos × List CusVal × List (CusVal × CusVal) × PCmp
  | 0, _, ps, seen, work, s => (ps, seen, work, s)
  | _ + 1, [], ps, seen, work, s => (ps, seen, work, s)
  | _ + 1, _, [], seen, work, s => ([], seen, work, s)
  | fuel + 1, m :: ms, p :: ps, seen, work, s =>
    if (E.side.meta p.1 p.2).notInput then E.userLoop all fuel (m :: ms) ps seen work s
    else
      let found := fun (s : PCmp) =>
        if .inst m.1 m.2 ∈ seen then E.userLoop all fuel ms ps seen work s
        else E.userLoop all fuel ms ps (.inst m.1 m.2 :: seen)
          ((.inst m.1 m.2, .inst p.1 p.2) :: work) s
      match s.modIn.lookup (.inst m.1 m.2) with
      | some p' =>
        if p' ≠ .inst p.1 p.2 then E.userLoop all fuel ms (p :: ps) seen work s
        else found s
      | none =>
        match s.patIn.lookup (.inst p.1 p.2) with
        | some m' =>
          if all.any (fun q => decide (CusVal.inst q.1 q.2 = m')) then
            E.userLoop all fuel (m :: ms) ps seen work s
          else (p :: ps, seen, work, s)
        | none =>
          match E.cmpInst s m p with
          | (false, s) => E.userLoop all fuel ms (p :: ps) seen work s.eraseNew
          | (true, s) => found s

/-- The loop of `cmpInputValues`, InstPatternComparator.cpp 69-152. The values that are mapped in every round are
the given ones, not the current ones. -/
def PEnv.inputLoop (E : PEnv) (mv pv : CusVal) :
    Nat → List (CusVal × CusVal) → List CusVal → PCmp → Bool × PCmp
  | 0, _, _, s => (true, s)
  | _ + 1, [], _, s => (true, s)
  | fuel + 1, (m, p) :: work, seen, s =>
    let s := { s with patIn := mapSet pv mv s.patIn, modIn := mapSet mv pv s.modIn }
    let all := E.modFn.users m
    let us := E.side.fn.users p
    match E.userLoop all (all.length + us.length) all us (mv :: seen) work s with
    | (rest, seen, work, s) =>
      if rest.all (fun q => match s.patIn.lookup (.inst q.1 q.2) with
          | some m' => all.any fun a => decide (CusVal.inst a.1 a.2 = m')
          | none => false) then
        E.inputLoop mv pv fuel work seen s
      else (false, s)

/-- `cmpInputValues`, InstPatternComparator.cpp 45-155. -/
def PEnv.cmpInput (E : PEnv) (s : PCmp) (mv : Option CusVal) (pv : CusVal) : Bool × PCmp :=
  match mv with
  | none => (false, s)
  | some mv =>
    match s.patIn.lookup pv with
    | some m => (decide (m = mv), s)
    | none => E.inputLoop mv pv (E.modFn.positions.length + 2) [(mv, pv)] [] s.begin

/-! ### Matching on both sides -/

/-- A value of one of the two programs: `true` for the first one. -/
abbrev Ref := Bool × CusVal

/-- A match of an instruction pattern: the instructions of both programs by those of the pattern. -/
structure PatMatch where
  pat : InstPat
  left : List (Pos × Pos)
  right : List (Pos × Pos)
  deriving Repr

/-- The state of the comparison of two functions: serial numbers, `mappedValuesBySn`, `AllInstMatches`,
`InstMappings`, and whether the program crashed. The maps are keyed by values of any program. `log` are
the matches found so far; it is for statements only. -/
structure CSt where
  snL : List (Ref × Nat)
  snR : List (Ref × Nat)
  mapped : List (Nat × (Ref × Ref)) := []
  all : List Ref := []
  mappings : List (Ref × Ref) := []
  crash : Bool := false
  log : List PatMatch := []
  deriving Repr

/-- Two functions, and the patterns in the order in which they are tried. -/
structure CusEnv where
  fnL : CusFun
  fnR : CusFun
  insts : List InstPat
  values : List ValPat

/-- `cmpValuesByMapping`, DifferentialFunctionComparator.cpp 69-78: whether the values are mapped to each
other. -/
def CSt.byMapping (s : CSt) (l r : CusVal) : Bool :=
  match s.snL.lookup (true, l), s.snR.lookup (false, r) with
  | some a, some b => decide (a = b)
  | _, _ => false

/-- `getMappedValue`, DifferentialFunctionComparator.cpp 1954-1967. The result is a value of the other program. -/
def CSt.other (s : CSt) (v : CusVal) (fromL : Bool) : Option CusVal :=
  match (if fromL then s.snL else s.snR).lookup (fromL, v) with
  | none => none
  | some n =>
    match s.mapped.lookup n with
    | none => none
    | some p => if fromL then some p.2.2 else some p.1.2

/-- `inputMappingValid`, CustomPatternComparator.cpp 161-214, over the numbers of the arguments. -/
def inputsValid (EL ER : PEnv) (s : CSt) : List Nat → PCmp → PCmp → Bool × PCmp × PCmp
  | [], cl, cr => (true, cl, cr)
  | n :: r, cl, cr =>
    match cl.patIn.lookup (.arg n), cr.patIn.lookup (.arg n) with
    | some l, some r' => if s.byMapping l r' then inputsValid EL ER s r cl cr else (false, cl, cr)
    | some l, none =>
      match ER.cmpInput cr (s.other l true) (.arg n) with
      | (true, cr) => inputsValid EL ER s r cl cr
      | (false, cr) => (false, cl, cr)
    | none, some r' =>
      match EL.cmpInput cl (s.other r' false) (.arg n) with
      | (true, cl) => inputsValid EL ER s r cl cr
      | (false, cl) => (false, cl, cr)
    | none, none => inputsValid EL ER s r cl cr

/-- `processPatternMatch`, CustomPatternComparator.cpp 218-241: marks the matched instructions; the mappings of
outputs have the instructions of the second program as keys (line 232). An output that was not matched
in the second program gives a null pointer, for which the model has no entry. -/
def processMatch (P : InstPat) (cl cr : PCmp) (s : CSt) : CSt :=
  { s with
    all := s.all ++ cl.matched.map (fun p => (true, CusVal.inst p.2.1 p.2.2))
      ++ cr.matched.map (fun p => (false, CusVal.inst p.2.1 p.2.2))
    mappings := cl.matched.filterMap fun p =>
      match P.outMap.lookup p.1 with
      | none => none
      | some pr =>
        match cr.matched.lookup pr with
        | none => none
        | some mr => some ((false, .inst mr.1 mr.2), (true, .inst p.2.1 p.2.2))
    log := s.log ++ [⟨P, cl.matched, cr.matched⟩] }

/-- The comparators of both sides. -/
def CusEnv.envL (E : CusEnv) (P : InstPat) : PEnv := ⟨E.fnL, P.left, true⟩
def CusEnv.envR (E : CusEnv) (P : InstPat) : PEnv := ⟨E.fnR, P.right, false⟩

/-- `matchInstPattern`, CustomPatternComparator.cpp 62-91. -/
def CusEnv.matchInst (E : CusEnv) (pl pr : Pos) (s : CSt) : List InstPat → Option CSt
  | [] => none
  | P :: r =>
    match (E.envL P).compare pl, (E.envR P).compare pr with
    | (true, cl), (true, cr) =>
      match inputsValid (E.envL P) (E.envR P) s (List.range P.left.fn.params.length) cl cr with
      | (true, cl, cr) => some (processMatch P cl cr s)
      | (false, _, _) => E.matchInst pl pr s r
    | _, _ => E.matchInst pl pr s r

/-- `matchLoadInst`, CustomPatternComparator.cpp 136-156, for an instruction that may not be a load. Values
without a name have the empty name. -/
def matchLoad (i : Option CusInst) (v : CusVal) (isLeft : Bool) : Bool :=
  match i with
  | none => false
  | some i =>
    if i.op = str! "load" then
      match v with
      | .glob n true =>
        match i.args.head? with
        | some (.glob m _) => namesMatch m n isLeft
        | _ => namesMatch [] n isLeft
      | _ => false
    else false

/-- `matchValuePattern`, CustomPatternComparator.cpp 95-132. -/
def CusEnv.matchValue (E : CusEnv) (pl pr : Pos) (s : CSt) : List ValPat → Option CSt
  | [] => none
  | P :: r =>
    let ml := matchLoad (E.fnL.instAt pl.1 pl.2) P.valL true
    let mr := matchLoad (E.fnR.instAt pr.1 pr.2) P.valR false
    if ml || mr then
      some { s with
        all := s.all ++ (if ml then [(true, CusVal.inst pl.1 pl.2)] else [])
          ++ (if mr then [(false, CusVal.inst pr.1 pr.2)] else [])
        mappings := if ml && mr then [((true, .inst pl.1 pl.2), (false, .inst pr.1 pr.2))] else s.mappings }
    else E.matchValue pl pr s r

/-- `matchPattern`, CustomPatternComparator.cpp 26-30. -/
def CusEnv.matchPattern (E : CusEnv) (pl pr : Pos) (s : CSt) : Option CSt :=
  match E.matchInst pl pr s E.insts with
  | some s => some s
  | none => E.matchValue pl pr s E.values

/-- `ValuePatternComparator::compare`, ValuePatternComparator.cpp 21-80: whether a value of a program is that of
the pattern. Two globals are compared by the `cmpGlobalValues` of LLVM, which dereferences the null
pointer given to the constructor (ValuePatternComparator.h 38): `none`. -/
def valueMatches (F : CusFun) (patFn : Str) (v pat : CusVal) (isLeft : Bool) : Option Bool :=
  match F.instOf v with
  | some i =>
    if i.op = str! "load" && pat.isVar then some (matchLoad (some i) pat isLeft) else some false
  | none =>
    let selfL := v.hasName F.name
    let selfR := pat.hasName patFn
    if selfL || selfR then some (selfL && selfR)
    else if v.isConst && pat.isConst then
      match v, pat with
      | .const c p, .const d q => some (decide (c = d ∧ p = q))
      | .glob _ _, .glob _ _ => none
      | _, _ => some false
    else some false

/-- Whether a value is a load. -/
def CusFun.isLoad (F : CusFun) (v : CusVal) : Bool :=
  match F.instOf v with
  | some i => decide (i.op = str! "load")
  | none => false

/-- `matchValues`, CustomPatternComparator.cpp 34-58: `none` for a crash. -/
def CusEnv.matchValues (E : CusEnv) (s : CSt) (l r : CusVal) : List ValPat → Option Bool
  | [] => some false
  | P :: t =>
    match valueMatches E.fnL P.fnL l P.valL true with
    | none => none
    | some false => E.matchValues s l r t
    | some true =>
      match valueMatches E.fnR P.fnR r P.valR false with
      | none => none
      | some false => E.matchValues s l r t
      | some true =>
        if E.fnL.isLoad l && E.fnR.isLoad r && !s.byMapping l r then E.matchValues s l r t
        else some true

/-- The result of `matchValues` for values that differ, with a mark for a crash. -/
def CusEnv.tryValues (E : CusEnv) (s : CSt) (l r : CusVal) : Bool × CSt :=
  match E.matchValues s l r E.values with
  | some b => (b, s)
  | none => (false, { s with crash := true })

/-! ### The comparison of two blocks -/

/-- `cmpConstants` of the compared functions: globals by name without suffix, DifferentialFunctionComparator.cpp
1259-1275. Initializers of constant globals are not modelled. -/
def constSame : CusVal → CusVal → Bool
  | .const c p, .const d q => decide (c = d ∧ p = q)
  | .glob m _, .glob n _ => decide (stem m = stem n)
  | _, _ => false

/-- `insert({key, n})` -/
def refInsert (k : Ref) (n : Nat) (m : List (Ref × Nat)) : List (Ref × Nat) :=
  if (m.lookup k).isSome then m else m ++ [(k, n)]

/-- `cmpValues`, DifferentialFunctionComparator.cpp 1500-1595, with `cmpValues` of LLVM: constants and numbered
values, then value patterns. -/
def CusEnv.cmpVal (E : CusEnv) (s : CSt) (l r : CusVal) : Bool × CSt :=
  let selfL := l.hasName E.fnL.name
  let selfR := r.hasName E.fnR.name
  if selfL || selfR then if selfL && selfR then (true, s) else E.tryValues s l r
  else if l.isConst && r.isConst then if constSame l r then (true, s) else E.tryValues s l r
  else if l.isConst || r.isConst then E.tryValues s l r
  else
    let snL := refInsert (true, l) s.snL.length s.snL
    let snR := refInsert (false, r) s.snR.length s.snR
    let s' := { s with snL := snL, snR := snR }
    if snL.lookup (true, l) = snR.lookup (false, r) then
      (true, if snL.length = s.snL.length + 1 then
          { s' with mapped := mapSet s.snL.length ((true, l), (false, r)) s.mapped }
        else s')
    else E.tryValues s' l r

def CusEnv.cmpArgs (E : CusEnv) : List (CusVal × CusVal) → CSt → Bool × CSt
  | [], s => (true, s)
  | (l, r) :: t, s =>
    match E.cmpVal s l r with
    | (true, s) => E.cmpArgs t s
    | (false, s) => (false, s)

/-- `cmpOperationsWithOperands` of the compared functions. -/
def CusEnv.cmpInst (E : CusEnv) (s : CSt) (pl pr : Pos) : Bool × CSt :=
  match E.fnL.instAt pl.1 pl.2, E.fnR.instAt pr.1 pr.2 with
  | some il, some ir =>
    match E.cmpVal s (.inst pl.1 pl.2) (.inst pr.1 pr.2) with
    | (false, s) => (false, s)
    | (true, s) =>
      if il.op ≠ ir.op ∨ il.args.length ≠ ir.args.length then (false, s)
      else E.cmpArgs (il.args.zip ir.args) s
  | _, _ => (false, s)

/-- `undoLastInstCompare`, DifferentialFunctionComparator.cpp 811-819. -/
def CSt.undo (s : CSt) (pl pr : Pos) : CSt :=
  let snL := eraseKeys [(true, .inst pl.1 pl.2)] s.snL
  { s with
    snL := snL
    snR := eraseKeys [(false, .inst pr.1 pr.2)] s.snR
    mapped := eraseKeys [snL.length] s.mapped }

/-- `createPatternMapping`, DifferentialFunctionComparator.cpp 787-799. -/
def createMapping : List (Ref × Ref) → CSt → CSt
  | [], s => s
  | (k, v) :: r, s =>
    if (s.snL.lookup k).isSome || (s.snR.lookup v).isSome then createMapping r s
    else createMapping r { s with
      mapped := mapSet s.snL.length (k, v) s.mapped
      snL := s.snL ++ [(k, s.snL.length)]
      snR := s.snR ++ [(v, s.snR.length)] }

/-- `isPartOfPattern`, DifferentialFunctionComparator.cpp 803-807. -/
def CSt.part (s : CSt) (fromL : Bool) (b i : Nat) : Bool := decide ((fromL, CusVal.inst b i) ∈ s.all)

/-- The first position from `i` on that is not part of a pattern, lines 930-939. -/
def skipPart (s : CSt) (fromL : Bool) (b : Nat) : Nat → Nat → Nat
  | 0, i => i
  | k + 1, i => if s.part fromL b i then skipPart s fromL b k (i + 1) else i

/-- How the comparison of two blocks ends. -/
inductive Outcome where
  | equal (aligned : List (Pos × Pos)) (s : CSt)
  | differ
  | crash
  deriving Repr

/-- The loop of `cmpBasicBlocks`, DifferentialFunctionComparator.cpp 911-1165, with all of the built-in patterns
switched off, for `fuel` rounds: `none` if the loop has not ended by then. `done` are the pairs of
instructions that were found equal. -/
def CusEnv.cmpBlock (E : CusEnv) (bl br : Nat) : Nat → Nat → Nat → List (Pos × Pos) → CSt → Option Outcome
  | 0, _, _, _, _ => none
  | fuel + 1, i, j, done, s =>
    let nl := (E.fnL.block bl).length
    let nr := (E.fnR.block br).length
    if i < nl ∧ j < nr then
      if s.part true bl i || s.part false br j then
        E.cmpBlock bl br fuel (skipPart s true bl (nl - i) i) (skipPart s false br (nr - j) j) done s
      else
        match E.cmpInst s (bl, i) (br, j) with
        | (true, s) => E.cmpBlock bl br fuel (i + 1) (j + 1) (done ++ [((bl, i), (br, j))]) s
        | (false, s) =>
          if s.crash then some .crash
          else
          match E.matchPattern (bl, i) (br, j) s with
          | none => some .differ
          | some s =>
            let s := s.undo (bl, i) (br, j)
            E.cmpBlock bl br fuel i j done (createMapping s.mappings s)
    else if i < nl ∨ j < nr then some .differ
    else some (.equal done s)

/-- The state at the start of the comparison of two functions: arguments and entry blocks are mapped to
each other, FunctionComparator.cpp of LLVM. -/
def CusEnv.init (E : CusEnv) : CSt :=
  let n := min E.fnL.params.length E.fnR.params.length
  { snL := (List.range n).map (fun k => ((true, .arg k), k)) ++ [((true, .blk 0), n)]
    snR := (List.range n).map (fun k => ((false, .arg k), k)) ++ [((false, .blk 0), n)]
    mapped := (List.range n).map (fun k => (k, ((true, .arg k), (false, .arg k))))
      ++ [(n, ((true, .blk 0), (false, .blk 0)))] }

/-- The comparison of the entry blocks of two functions. -/
def CusEnv.compareEntry (E : CusEnv) (fuel : Nat) : Option Outcome := E.cmpBlock 0 0 fuel 0 0 [] E.init

end DK
