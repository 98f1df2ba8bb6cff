import Verif.Model.ViewSession

/-! Specification of sessions with the viewer. -/

set_option autoImplicit false

namespace DK.Spec
open DK

/-- The sessions after any sequence of events. `fails`: requests may fail. -/
inductive SessReach (v : ViewResult) (defs : Str → Option (Defn × Bool)) (files : Str → Str) (fails : Bool) : Session → Prop
  | start : SessReach v defs files fails firstSession
  | step {s s' : Session} (e : SessEvent) : SessReach v defs files fails s → (∀ i, e = .fail i → fails = true) →
      sessStep v defs files s e = some s' → SessReach v defs files fails s'

/-- The name of the function that is selected in the displayed call stack. -/
def selected (s : Session) : Option Str := s.difference.map DiffSt.shown

/-- The name of a function without what follows the first space (the kind, e.g. `(macro)`). -/
def BareName (shown name : Str) : Prop := ' ' ∉ name ∧ (shown = name ∨ ∃ rest, shown = name ++ ' ' :: rest)

/-- What is displayed of the function `f`: places and text are those of its definition in the YAML file, and the diff is
the file of this function, if there is one. -/
def FilesOf (defs : Str → Option (Defn × Bool)) (files : Str → Str) (f : Str) (sp : CodeSpec) (text diff : Str) : Prop :=
  ∃ n d flag, BareName f n ∧ defs n = some (d, flag) ∧
    sp.oldSrc = d.old.file ∧ sp.newSrc = d.new.file ∧ sp.oldStart = d.old.line ∧ sp.newStart = d.new.line ∧
    some sp.oldEnd = d.old.endLine ∧
    text = files (str! "src/" ++ d.old.file) ∧
    diff = if flag = true then files (str! "diffs/" ++ (n ++ str! ".diff")) else []

/-- A sequence of answers in any order. -/
inductive Answers (v : ViewResult) (defs : Str → Option (Defn × Bool)) (files : Str → Str) : Session → Session → Prop
  | refl (s : Session) : Answers v defs files s s
  | step {s s' s'' : Session} (i : Nat) : sessStep v defs files s (.arrive i) = some s' → Answers v defs files s' s'' →
      Answers v defs files s s''

/-- The differences of the result are told apart by their names written one after the other. -/
def KeysDiffer (v : ViewResult) : Prop :=
  ∀ c d c' d' x x', v.getDiff c d = some x → v.getDiff c' d' = some x' → c ++ d = c' ++ d' → c = c' ∧ d = d'

end DK.Spec
