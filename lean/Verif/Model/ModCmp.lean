import Verif.Model.Text

/-!
Model of diffkemp/simpll/ModuleComparator.cpp: verdicts for pairs of functions, with nested
comparisons of called functions and rounds of inlining. The comparator of function bodies
(DifferentialFunctionComparator), the search for calls, inlining and simplification are arbitrary
functions of the state of the two modules.
-/

set_option autoImplicit false

namespace DK

/-- Functions of the first and of the second module, in place of `ConstFunPair`. -/
abbrev Pair := Nat × Nat

/-- `Result::Kind` (Result.h). -/
inductive Verd where
  | unknown
  | equal
  | notEqual
  | assumedEqual
  deriving DecidableEq, Repr

/-- What is read of a function apart from its body: `getName`, `isDeclaration`, `isIntrinsic`,
`isSimpllAbstraction`, `isKernelSimplifiedFunction`. -/
structure FunHead where
  name : Str
  isDecl : Bool
  intrinsic : Bool
  abstraction : Bool
  simplified : Bool

/-- One run of `DifferentialFunctionComparator::compare` as seen by the module comparator; `W` is the
state of the modules, `C` are call instructions.
* `done`: the result (true: no difference);
* `inline`: `ModComparator->tryInline = {l, r}` (DifferentialFunctionComparator.cpp 53, 259, 438, 442,
  1829, 1831, 2031);
* `callee`: functions of the same name met in `cmpGlobalValues` (1280-1305).
The result of a nested comparison is not read by the comparator, but the state of the modules is. -/
inductive Run (W C : Type) where
  | done (equal : Bool) (w : W)
  | inline (l r : Option C) (k : Run W C)
  | callee (l r : Nat) (w : W) (k : W → Run W C)

/-- The parts of the program that are arbitrary. The side is `true` for the first module. -/
structure Engine (W C : Type) where
  info : Bool → Nat → FunHead
  /-- `ResCache.isFunctionPairCached` -/
  cached : Pair → Bool
  /-- `config.Patterns.ControlFlowOnly` -/
  controlFlowOnly : Bool
  /-- `config.Patterns.FunctionSplits` -/
  splits : Bool
  cmp : W → Pair → Run W C
  /-- `findCallInst(call, fun)` finds the call -/
  find : W → Bool → Nat → C → Bool
  /-- `getCalledFunction` -/
  called : W → Bool → C → Nat
  /-- `inlineCall`: the state after a successful inlining -/
  inlineCall : W → Bool → C → Option W
  /-- `simplifyFunction` -/
  simplify : W → Bool → Nat → W

/-- What happened (not in the code: for statements about executions).
* `ran`: a run of the comparator on a pair ended, with its result and the callees it met;
* `inlined`: calls of these functions were inlined into a pair;
* `dropped`: the result of the second pair was removed after the first was found equal. -/
inductive Ev where
  | ran (p : Pair) (equal : Bool) (callees : List Pair)
  | inlined (p : Pair) (q : Option Nat × Option Nat)
  | dropped (p q : Pair)

/-- The state of a `ModuleComparator`: `ComparedFuns` (kinds only), `MissingDefs` (functions only),
`tryInline`, the modules, and the events, last first. -/
structure MSt (W C : Type) where
  results : Pair → Option Verd
  missing : List (Option Nat × Option Nat)
  tryInline : Option C × Option C
  w : W
  log : List Ev

/-- Why there is no result: an exception (`std::out_of_range` of `ComparedFuns.at`), or the bound on
the depth of the recursion and the number of rounds was reached (only in the model). -/
inductive Stop where
  | crash
  | fuel
  deriving DecidableEq, Repr

variable {W C : Type}

/-- Assignment in `ComparedFuns`. -/
def putVerd (res : Pair → Option Verd) (p : Pair) (v : Option Verd) : Pair → Option Verd :=
  fun q => if q = p then v else res q

/-- `ComparedFuns.at(p).kind = v` -/
def putKind (p : Pair) (v : Verd) (st : MSt W C) : Except Stop (MSt W C) :=
  match st.results p with
  | some _ => .ok { st with results := putVerd st.results p (some v) }
  | none => .error .crash

/-- The verdict for functions of which at least one has no body, lines 57-95: the kind and the missing
definitions. -/
def declVerdict (cfo : Bool) (l r : FunHead) (p : Pair) : Verd × List (Option Nat × Option Nat) :=
  if cfo then (if stem l.name = stem r.name then .assumedEqual else .notEqual, [])
  else if l.isDecl && r.isDecl && decide (stem l.name = stem r.name) then (.assumedEqual, [])
  else if stem l.name ≠ stem r.name then (.notEqual, [])
  else (.assumedEqual, if l.isDecl then [(some p.1, none)] else if r.isDecl then [(none, some p.2)] else [])

/-- `InliningResult` -/
inductive InlRes where
  | notInlined
  | inlined
  | missingDef
  deriving DecidableEq

/-- `ModuleComparator::tryToInline`, lines 225-248. -/
def tryToInline (e : Engine W C) (w : W) (side : Bool) (call : Option C) : InlRes × W :=
  match call with
  | none => (.notInlined, w)
  | some c =>
    let f := e.info side (e.called w side c)
    if e.splits = false ∧ f.abstraction = false then (.notInlined, w)
    else if f.isDecl then
      (if f.intrinsic = false ∧ f.abstraction = false then .missingDef else .notInlined, w)
    else if f.simplified then (.notInlined, w)
    else
      match e.inlineCall w side c with
      | some w' => (.inlined, w')
      | none => (.notInlined, w)

/-- One run of the comparator, with the nested comparisons `rec` of pairs without result
(DifferentialFunctionComparator.cpp 1294-1304: `ComparedFuns.at` of the pair itself first). -/
def runCmp (rec : Pair → MSt W C → Except Stop (MSt W C)) (p : Pair) :
    Run W C → List Pair → MSt W C → Except Stop (Bool × MSt W C)
  | .done eq w, cs, st => .ok (eq, { st with w := w, log := .ran p eq cs :: st.log })
  | .inline l r k, cs, st => runCmp rec p k cs { st with tryInline := (l, r) }
  | .callee l r w k, cs, st =>
    match st.results p with
    | none => .error .crash
    | some _ =>
      match st.results (l, r) with
      | some _ => runCmp rec p (k w) ((l, r) :: cs) { st with w := w }
      | none =>
        match rec (l, r) { st with w := w } with
        | .ok st' => runCmp rec p (k st'.w) ((l, r) :: cs) st'
        | .error s => .error s

/-- Lines 200-201: the results of inlined pairs are erased. -/
def dropAll (p : Pair) : List (Option Nat × Option Nat) → MSt W C → MSt W C
  | [], st => st
  | (some l, some r) :: qs, st =>
    dropAll p qs { st with results := putVerd st.results (l, r) none,
                           log := .dropped p (l, r) :: st.log }
  | _ :: qs, st => dropAll p qs st

/-- A run of the comparator followed by the update of the statistics (118-119, 175-176), which needs
the result of the pair to exist. -/
def runFull (e : Engine W C) (rec : Pair → MSt W C → Except Stop (MSt W C)) (p : Pair)
    (st : MSt W C) : Except Stop (Bool × MSt W C) :=
  match runCmp rec p (e.cmp st.w p) [] st with
  | .error s => .error s
  | .ok (eq, st') =>
    match st'.results p with
    | some _ => .ok (eq, st')
    | none => .error .crash

/-- The call of `tryInline` in a function, if it is still there (lines 139-140). -/
def findCall (e : Engine W C) (w : W) (side : Bool) (f : Nat) (c : Option C) : Option C :=
  match c with
  | some c => if e.find w side f c then some c else none
  | none => none

/-- The loop of inlining and comparing again, lines 135-213. The marking of calls as weak is not
modelled here. -/
def rounds (e : Engine W C) (rec : Pair → MSt W C → Except Stop (MSt W C)) (p : Pair) :
    Nat → List (Option Nat × Option Nat) → MSt W C → Except Stop (MSt W C)
  | 0, _, _ => .error .fuel
  | n + 1, inlined, st =>
    if st.tryInline.1.isNone ∧ st.tryInline.2.isNone then .ok st
    else
      let c1 := findCall e st.w true p.1 st.tryInline.1
      let c2 := findCall e st.w false p.2 st.tryInline.2
      let q := (c1.map (e.called st.w true), c2.map (e.called st.w false))
      let r1 := tryToInline e st.w true c1
      let r2 := tryToInline e r1.2 false c2
      let missing := if r1.1 = .missingDef ∨ r2.1 = .missingDef then st.missing ++ [q] else st.missing
      let st := { st with w := r2.2, missing := missing }
      if r1.1 ≠ .inlined ∧ r2.1 ≠ .inlined then .ok st
      else
        let inlined := q :: inlined
        let st := { st with w := e.simplify (e.simplify st.w true p.1) false p.2,
                            log := .inlined p q :: st.log }
        match putKind p .unknown st with
        | .error s => .error s
        | .ok st =>
          match runFull e rec p st with
          | .error s => .error s
          | .ok (true, st) =>
            match putKind p .equal (dropAll p inlined st) with
            | .error s => .error s
            | .ok st => rounds e rec p n inlined st
          | .ok (false, st) =>
            match putKind p .notEqual st with
            | .error s => .error s
            | .ok st => rounds e rec p n inlined st

/-- Lines 46-47: `emplace` does not replace an existing result. -/
def emplace (p : Pair) (st : MSt W C) : MSt W C :=
  match st.results p with
  | some _ => st
  | none => { st with results := putVerd st.results p (some .unknown) }

/-- `ModuleComparator::compareFunctions`, lines 41-215. -/
def compareFunctions (e : Engine W C) : Nat → Pair → MSt W C → Except Stop (MSt W C)
  | 0, _, _ => .error .fuel
  | n + 1, p, st =>
    let st := emplace p st
    if e.cached p then putKind p .unknown st
    else if (e.info true p.1).isDecl || (e.info false p.2).isDecl then
      let d := declVerdict e.controlFlowOnly (e.info true p.1) (e.info false p.2) p
      match putKind p d.1 st with
      | .ok st => .ok { st with missing := st.missing ++ d.2 }
      | .error s => .error s
    else
      match runFull e (compareFunctions e n) p st with
      | .error s => .error s
      | .ok (true, st) => putKind p .equal st
      | .ok (false, st) =>
        match putKind p .notEqual st with
        | .error s => .error s
        | .ok st => rounds e (compareFunctions e n) p n [] st

/-- The state of a new `ModuleComparator`. -/
def newComparator (w : W) : MSt W C := ⟨fun _ => none, [], (none, none), w, []⟩

/-- The comparison of all pairs of functions of the same name (ModuleAnalysis.cpp 222-229), or of the
main functions only (194). -/
def compareAll (e : Engine W C) (n : Nat) : List Pair → MSt W C → Except Stop (MSt W C)
  | [], st => .ok st
  | p :: ps, st =>
    match compareFunctions e n p st with
    | .ok st => compareAll e n ps st
    | .error s => .error s

/-- ModuleAnalysis.cpp 197-211: no recorded pair is different. -/
def AllEqual (st : MSt W C) : Prop := ∀ p, st.results p ≠ some .notEqual

end DK
