import Verif.Model.ModCmp
import Verif.Spec.Text

/-! What the recorded verdicts of pairs of functions mean, in terms of what happened (C39, C40, C82,
C83). -/

set_option autoImplicit false

namespace DK.Spec

/-- The last run of the comparator on a pair: its result and the callees it met. Events are listed last
first. -/
def lastRun (p : Pair) : List Ev → Option (Bool × List Pair)
  | [] => none
  | .ran q eq cs :: l => if q = p then some (eq, cs) else lastRun p l
  | _ :: l => lastRun p l

/-- The names of two functions agree up to suffixes. -/
def SameName (l r : FunHead) : Prop := ∃ b, Stem l.name b ∧ Stem r.name b

/-- A recorded verdict is justified by what happened: pairs from the cache are unknown, functions
without bodies are judged by their names, and for functions with bodies the verdict is the result of
the last run of the comparator. -/
def Justified {W C : Type} (e : Engine W C) (log : List Ev) (q : Pair) (v : Verd) : Prop :=
  if e.cached q = true then v = .unknown
  else if (e.info true q.1).isDecl = true ∨ (e.info false q.2).isDecl = true then
    (v = .assumedEqual ∧ SameName (e.info true q.1) (e.info false q.2)) ∨
      (v = .notEqual ∧ ¬ SameName (e.info true q.1) (e.info false q.2))
  else
    (v = .equal ∧ ∃ cs, lastRun q log = some (true, cs)) ∨
      (v = .notEqual ∧ ∃ cs, lastRun q log = some (false, cs))

/-- Results are dropped only of pairs that were inlined into another one, right after the comparator
found no difference in the latter. -/
def DropsOk (log : List Ev) : Prop :=
  ∀ pre p q rest, log = pre ++ .dropped p q :: rest →
    (∃ cs, lastRun p rest = some (true, cs)) ∧ .inlined p (some q.1, some q.2) ∈ rest

/-- A pair was dropped at some moment. -/
def Dropped (log : List Ev) (q : Pair) : Prop := ∃ p, .dropped p q ∈ log

/-- A pair of callees is relied on: it was met in the last run of the comparator on some recorded pair. -/
def ReliedOn {W C : Type} (st : MSt W C) (c : Pair) : Prop :=
  ∃ q eq cs, st.results q ≠ none ∧ lastRun q st.log = some (eq, cs) ∧ c ∈ cs

/-- An entry of the list of missing definitions is right: it names a single function without a body, or
calls of which one is a call of a function without a body that is neither an intrinsic nor an
abstraction made by the tool. -/
def MissingOk {W C : Type} (e : Engine W C) (m : Option Nat × Option Nat) : Prop :=
  (∃ l, m = (some l, none) ∧ (e.info true l).isDecl = true) ∨
  (∃ r, m = (none, some r) ∧ (e.info false r).isDecl = true) ∨
  (∃ side f, (if side = true then m.1 else m.2) = some f ∧ (e.info side f).isDecl = true ∧
    (e.info side f).intrinsic = false ∧ (e.info side f).abstraction = false)

/-- A call may and can be inlined: function splits are allowed or the called function is an abstraction
of the tool, the called function has a body that was not simplified away, and inlining it succeeds. -/
def CanInline {W C : Type} (e : Engine W C) (w : W) (side : Bool) (c : C) : Prop :=
  (e.splits = true ∨ (e.info side (e.called w side c)).abstraction = true) ∧
    (e.info side (e.called w side c)).isDecl = false ∧
    (e.info side (e.called w side c)).simplified = false ∧ ∃ w', e.inlineCall w side c = some w'

/-- A run of the comparator meets only pairs of a list. -/
inductive RunIn {W C : Type} (U : List Pair) : Run W C → Prop where
  | done (eq : Bool) (w : W) : RunIn U (.done eq w)
  | inline (l r : Option C) (k : Run W C) : RunIn U k → RunIn U (.inline l r k)
  | callee (l r : Nat) (w : W) (k : W → Run W C) : (l, r) ∈ U → (∀ w, RunIn U (k w)) →
      RunIn U (.callee l r w k)

end DK.Spec
