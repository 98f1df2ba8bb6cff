import Verif.Model.ProgInline
import Verif.Spec.Program
import Verif.Spec.ModCmp

/-! Changes of functions of a program, and what is assumed about inlining. -/

set_option autoImplicit false

namespace DK.Spec

/-- A body returns `res` when it is executed in a program. -/
def ReturnsIn {Mem : Type} (P : DProg) (M : DMach Mem) (l : DFun) (vals : List Int) (mem : Mem)
    (res : List (Option Int) × Mem) : Prop :=
  ∃ d n, runFun (progMach P M d) l n vals (some mem) = some (res.1, some res.2)

/-- Two bodies do the same when they are executed in a program, on every machine, for all arguments and
every memory. -/
def SameWithin (P : DProg) (l l' : DFun) : Prop :=
  ∀ (Mem : Type) (M : DMach Mem) (vals : List Int) (mem : Mem) (res : List (Option Int) × Mem),
    ReturnsIn P M l vals mem res ↔ ReturnsIn P M l' vals mem res

/-- A change of the function `f` of a program: no other function changes, it has a body as before, and the
new body does the same as the old one, in the old and in the new program. -/
structure SafeChange (f : Nat) (P P' : DProg) : Prop where
  others : ∀ g, g ≠ f → P' g = P g
  body : (P' f).isNone = (P f).isNone
  old : ∀ l l', P f = some l → P' f = some l' → SameWithin P l l'
  new : ∀ l l', P f = some l → P' f = some l' → SameWithin P' l l'

/-- Inlining a call and simplifying a function are safe. -/
structure SafeInliner {C : Type} (I : Inliner C) : Prop where
  inline : ∀ P f c P', I.has P f c = true → I.inline P c = some P' → SafeChange f P P'
  simplify : ∀ P f, SafeChange f P (I.simplify P f)

/-- No result was dropped: no function was inlined together with its namesake of the other program into
functions that were equal then. -/
def NothingDropped (log : List Ev) : Prop := ∀ f, ¬ Dropped log (f, f)

end DK.Spec
