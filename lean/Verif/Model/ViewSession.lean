import Verif.Model.Viewer

/-!
A session with the viewer: which components are kept when something else is selected, and which files arrive when
(view/src/components/ResultViewer.jsx, Difference.jsx, Code.jsx). React keeps the state of a component as long as it is
rendered at the same place with the same key. Every event renders the components again (React leaves this out if nothing
has changed). Not modelled: the second run of effects in the strict mode of development.
-/

set_option autoImplicit false

namespace DK

/-- `specification`, Difference.jsx 78-88. -/
structure CodeSpec where
  oldSrc : Str
  newSrc : Str
  diff : Option Str
  oldStart : Option Nat
  newStart : Option Nat
  oldEnd : Nat
  calling : Option (Int × Int)
  deriving DecidableEq, Repr

/-- The names and lines of a call stack. -/
def stackLines (l : List Call) : List (Str × Int) := l.map fun c => (c.name, (c.line : Int))

/-- Difference.jsx 42-88: what is to be shown of the selected function; `none`: a message is shown instead. `defs` are
the definitions of the YAML file, with the flag `diff`. -/
def codeSpec (defs : Str → Option (Defn × Bool)) (compare : Str) (x : YamlDiff) (shown : Str) : Option CodeSpec :=
  let name := shown.takeWhile (fun c => decide (c ≠ ' '))
  match defs name with
  | none => none
  | some (d, flag) =>
    match d.old.endLine, d.new.endLine with
    | some e, some _ =>
      some { oldSrc := d.old.file, newSrc := d.new.file, diff := if flag then some (name ++ str! ".diff") else none
             oldStart := d.old.line, newStart := d.new.line, oldEnd := e
             calling := callingLine compare shown (stackLines x.oldStack) (stackLines x.newStack) }
    | _, _ => none

/-- The initial state of `Difference`, Difference.jsx 34-38. -/
def initialShown (compare : Str) (x : YamlDiff) : Str :=
  match x.oldStack.getLast? with
  | some c => c.name
  | none => compare

/-- The component `Code`: its key (Difference.jsx 91), its property `specification` and its state (Code.jsx 43-44). -/
structure CodeSt where
  key : Str
  spec : CodeSpec
  code : Option Str
  diff : Option Str
  deriving DecidableEq, Repr

/-- The component `Difference`: its key (ResultViewer.jsx 48), its state `functionToShow` and its child. -/
structure DiffSt where
  key : Str
  shown : Str
  code : Option CodeSt
  deriving DecidableEq, Repr

/-- A request for a file. `run`: the number of the run of the effect (Code.jsx 46) that made it. -/
structure Fetch where
  run : Nat
  isDiff : Bool
  file : Str
  deriving DecidableEq, Repr

/-- `run` is the number of the last run of the effect: `ignoreFetchedFiles` is set for all earlier ones. -/
structure Session where
  nav : NavState
  difference : Option DiffSt
  run : Nat
  pending : List Fetch
  deriving DecidableEq, Repr

/-- The path of a diff, Code.jsx 58-60. -/
def diffPath (d : Str) : Str := str! "diffs/" ++ d

/-- The path of a source file, Code.jsx 51-53. -/
def srcPath (s : Str) : Str := str! "src/" ++ s

/-- The requests of one run of the effect, Code.jsx 49-72. -/
def fetchesOf (run : Nat) (sp : CodeSpec) : List Fetch :=
  ⟨run, false, srcPath sp.oldSrc⟩ ::
    match sp.diff with
    | some d => [⟨run, true, diffPath d⟩]
    | none => []

/-- The component `Code` after rendering and its effect, Code.jsx 43-77: the state is kept if the key is the same; without
a diff the state `diff` is set to the empty text (line 71). -/
def renderCode (old : Option CodeSt) (key : Str) (sp : CodeSpec) : CodeSt :=
  let kept := old.filter fun c => decide (c.key = key)
  { key := key, spec := sp, code := kept.bind CodeSt.code
    diff := match sp.diff with
      | some _ => kept.bind CodeSt.diff
      | none => some [] }

/-- Rendering `Difference` (lines 34-98) with the selected function. -/
def renderDifference (defs : Str → Option (Defn × Bool)) (s : Session) (key c : Str) (x : YamlDiff) (shown : Str)
    (old : Option CodeSt) : Session :=
  match codeSpec defs c x shown with
  | none => { s with difference := some ⟨key, shown, none⟩, run := s.run + 1 }
  | some sp =>
    { s with difference := some ⟨key, shown, some (renderCode old (c ++ str! "-" ++ shown) sp)⟩
             run := s.run + 1
             pending := s.pending ++ fetchesOf (s.run + 1) sp }

/-- Rendering `ResultViewer`, lines 42-85: a difference with the same key keeps its state. Components that are not shown
any more are removed, and their effects are cleaned up. -/
def renderViewer (v : ViewResult) (defs : Str → Option (Defn × Bool)) (s : Session) : Session :=
  match pageOf v s.nav with
  | .difference c d x =>
    match s.difference.filter fun p => decide (p.key = c ++ d) with
    | some p => renderDifference defs s (c ++ d) c x p.shown p.code
    | none => renderDifference defs s (c ++ d) c x (initialShown c x) none
  | _ => { s with difference := none, run := s.run + 1 }

/-- The state of `Code` after an answer, Code.jsx 55 and 62. -/
def setFile (isDiff : Bool) (text : Str) (c : CodeSt) : CodeSt :=
  if isDiff then { c with diff := some text } else { c with code := some text }

/-- A request is answered, Code.jsx 50-64. -/
def answer (files : Str → Str) (s : Session) (q : Fetch) : Session :=
  if q.run = s.run then
    { s with difference := s.difference.map fun p => { p with code := p.code.map (setFile q.isDiff (files q.file)) } }
  else s

/-- What happens in a session: a click in the navigation or a list, the selection of a function in the displayed call
stack (`onSelect`, Difference.jsx 113), an answer to the i-th open request, or its failure. -/
inductive SessEvent where
  | nav (e : NavEvent)
  | select (f : Str)
  | arrive (i : Nat)
  | fail (i : Nat)
  deriving DecidableEq, Repr

/-- The names that can be selected in a call stack: the compared function and those of both stacks. -/
def stackNames (c : Str) (x : YamlDiff) : List Str :=
  c :: (x.oldStack.map Call.name ++ x.newStack.map Call.name)

/-- One step of a session; `none`: the event is not possible. `files` are the texts of the answers (also of pages with
errors, App.jsx 28-31). -/
def sessStep (v : ViewResult) (defs : Str → Option (Defn × Bool)) (files : Str → Str) (s : Session) :
    SessEvent → Option Session
  | .nav e => (navStep v s.nav e).map fun n => renderViewer v defs { s with nav := n }
  | .select f =>
    match pageOf v s.nav, s.difference with
    | .difference c _ x, some p =>
      if (stackNames c x).contains f then some (renderDifference defs s p.key c x f p.code) else none
    | _, _ => none
  | .arrive i =>
    match s.pending[i]? with
    | some q => some (answer files { s with pending := s.pending.eraseIdx i } q)
    | none => none
  | .fail i =>
    match s.pending[i]? with
    | some _ => some { s with pending := s.pending.eraseIdx i }
    | none => none

/-- The first page. -/
def firstSession : Session := { nav := ⟨none, none⟩, difference := none, run := 0, pending := [] }

/-- What `Code` displays, Code.jsx 78-111: nothing until both files are there. -/
def displayed (s : Session) : Option (CodeSpec × Str × Str) :=
  match s.difference with
  | none => none
  | some p =>
    match p.code with
    | none => none
    | some c =>
      match c.code, c.diff with
      | some t, some d => some (c.spec, t, d)
      | _, _ => none

end DK
