import Verif.Model.Program
import Verif.Spec.DiffPhi

/-!
What programs of functions that call each other do, and what is assumed about two programs.
-/

set_option autoImplicit false

namespace DK.Spec

open Classical in
/-- The result of a call of a function, if it returns. -/
noncomputable def callResult {Mem : Type} (M : DMach Mem) (f : DFun) (vals : List Int) (mem : Mem) :
    Option (List (Option Int) × Mem) :=
  if h : ∃ res n, runFun M f n vals mem = some res then some h.choose else none

/-- The arguments of a call, if all of them are defined. -/
def definedArgs : List (Nat × Option Int) → Option (List Int)
  | [] => some []
  | (_, some v) :: l => (definedArgs l).map (v :: ·)
  | (_, none) :: _ => none

/-- The machine on which functions of a program run: a call of a function with a body runs the body
(`callee`), everything else is done by the given machine. The memory is `none` after a call that did not
return, or that had an undefined argument: then the program has no result. -/
def callMach {Mem : Type} (P : DProg) (M : DMach Mem)
    (callee : DFun → List Int → Mem → Option (List (Option Int) × Option Mem)) : DMach (Option Mem) where
  fcmp := M.fcmp
  pur := M.pur
  load ty mem ops := mem.bind fun m => M.load ty m ops
  eff c ty vals mem :=
    match mem with
    | none => (none, none)
    | some m =>
      match c with
      | .call f =>
        match P f with
        | none => ((M.eff (.call f) ty vals m).1, some (M.eff (.call f) ty vals m).2)
        | some g =>
          match (definedArgs vals).bind fun args => callee g args m with
          | some (res, mem') => (res.head?.join, mem')
          | none => (none, none)
      | c => ((M.eff c ty vals m).1, some (M.eff c ty vals m).2)

/-- The machine of a program where calls are nested at most `d` deep; deeper ones do not return. -/
noncomputable def progMach {Mem : Type} (P : DProg) (M : DMach Mem) : Nat → DMach (Option Mem)
  | 0 => callMach P M fun _ _ _ => none
  | d + 1 => callMach P M fun g args m => callResult (progMach P M d) g args (some m)

/-- A call of a function of a program, with calls nested at most `d` deep, returns `res`. -/
def ProgReturns {Mem : Type} (P : DProg) (M : DMach Mem) (d f : Nat) (vals : List Int) (mem : Mem)
    (res : List (Option Int) × Mem) : Prop :=
  ∃ g n, P f = some g ∧ runFun (progMach P M d) g n vals (some mem) = some (res.1, some res.2)

/-- A function does the same in two programs, on every machine, for all arguments and every memory: it
returns in the same cases, with the same values and the same memory. -/
def SameInPrograms (PL PR : DProg) (f : Nat) : Prop :=
  ∀ (Mem : Type) (M : DMach Mem) (vals : List Int) (mem : Mem) (res : List (Option Int) × Mem),
    (∃ d, ProgReturns PL M d f vals mem res) ↔ ∃ d, ProgReturns PR M d f vals mem res

/-- A function is as the compiler requires. -/
structure Valid (f : DFun) : Prop where
  wf : DWellFormed f
  dom : Dominated f
  reached : AllReached f
  phis : PhisOk f

/-- What the comparator of functions is sound for (see C41, C42, C155), depending on the patterns that are
switched on. -/
inductive SoundFor (cfg : DCfg) (l r : DFun) : Prop where
  | none (φ : Nat → Nat) (hc : cfg = ⟨false, false, false, false⟩) (vl : Valid l) (vr : Valid r)
      (cl : NoConversions l) (cr : NoConversions r) (ul : PhisUsed l) (ur : PhisUsed r) (hf : EqualFlow l r φ)
  | inverse (φ : Nat → Nat) (hc : cfg = ⟨false, true, false, false⟩) (vl : Valid l) (vr : Valid r)
      (cl : NoConversions l) (cr : NoConversions r) (nl : NoNegations l) (nr : NoNegations r)
      (ul : PhisUsed l) (ur : PhisUsed r) (hf : SameFlow l r φ)
  | reorder (φ : Nat → Nat) (hc : cfg.reloc = false) (wl : DWellFormed l) (wr : DWellFormed r)
      (dl : Dominated l) (dr : Dominated r) (pl : Plain l) (pr : Plain r) (fl : Folded l) (fr : Folded r)
      (tl : LocalTrees l) (tr : LocalTrees r) (hf : SameFlow l r φ)

end DK.Spec
