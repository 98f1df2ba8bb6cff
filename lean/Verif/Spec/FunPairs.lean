import Verif.Spec.Graph
import Verif.Model.FunPairs

/-! What is to be listed for output (C08). -/

set_option autoImplicit false

namespace DK.Spec

/-- The calls shown for a chain of calls. -/
def shown (p : List (Vid × Edge)) : List Call := p.map (fun x => ⟨x.2.target, x.2.file, x.2.line⟩)

/-- The description of function `v` on side `s`; `p` is the call path to it. Its own entry has no call stack if it is the
compared function; it is covered iff it has non-function differences. -/
def functionEntry (h : Heap) (start : Str) (s : Side) (v : Vid) (p : List (Vid × Edge)) : Entity :=
  { name := (h v).names s, filename := (h v).files s, line := (h v).lines s
    callstack := if start = (h v).names s then none else some (shown p)
    kind := .function, covered := !(h v).nonfunDiffs.isEmpty }

/-- The description of a non-function difference found in a function with call path `p`. -/
def differenceEntry (start : Str) (s : Side) (p : List (Vid × Edge)) (d : NonFunDiff) : Entity :=
  let calls := (if d.parentFun = start then [] else shown p) ++ d.callstack s
  match d with
  | .syntax n _ _ _ => { name := n, callstack := some calls, kind := .syntactic }
  | .type n _ _ f l => { name := n, filename := some (f s), line := some (l s), callstack := some calls, kind := .type }

/-- A function whose difference is worth listing. -/
def Interesting (full : Bool) (k : Kind) : Prop := k ≠ .assumedEqual ∧ (k = .equal → full = true)

end DK.Spec
