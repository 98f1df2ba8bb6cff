import Verif.Props.CustomPatterns

/-! Custom patterns: matched code that is no occurrence of the pattern, and inputs of a match that were not compared. -/

set_option autoImplicit false

namespace DK

open Spec

/-! ### C113: matched code need not be an occurrence -/

/-- A pattern with a marked start: the result of `f` is given to `use`. The strings of a module are named `.str`,
`.str.1` and so on. -/
def staleOld : CusFun := ⟨str! "diffkemp.old.p", [],
  [[{ cpCall (str! "puts") [.glob (str! ".str") true] with md := exStart },
    cpCall (str! "f") [.glob (str! ".str.1") true, .inst 0 0], cpCall (str! "use") [.inst 0 1], exRet []]]⟩
/-- The new code: a call of `other`. -/
def staleNew : CusFun := ⟨str! "diffkemp.new.p", [],
  [[{ cpCall (str! "other") [.glob (str! ".str") true] with md := exStart }, exRet []]]⟩
/-- The argument of the function, not the result of `f`, is given to `use`. -/
def staleFnL : CusFun := ⟨str! "fun", [false],
  [[cpCall (str! "puts") [.glob (str! ".str") true], cpCall (str! "f") [.glob (str! ".str") true, .arg 0],
    cpCall (str! "f") [.glob (str! ".str") true, .inst 0 0], cpCall (str! "use") [.arg 0], exRet []]]⟩
def staleFnR : CusFun := ⟨str! "fun", [false],
  [[cpCall (str! "other") [.glob (str! ".str") true], cpCall (str! "f") [.glob (str! ".str") true, .arg 0], exRet []]]⟩
def staleEnv : CusEnv := ⟨staleFnL, staleFnR, [exPat staleOld staleNew], []⟩

theorem stale_from : FromFunctions staleEnv := by
  intro P hP
  rw [List.mem_singleton.1 hP]
  exact ⟨staleOld, staleNew, exPat_left _ _, exPat_right _ _, inside_of (by decide +kernel), inside_of (by decide +kernel)⟩

/-- The matches of the functions that are found equal. -/
theorem stale_equal : isEqual (staleEnv.compareEntry 20) [((0, 1), (0, 1)), ((0, 4), (0, 2))]
    [([((0, 0), (0, 0)), ((0, 1), (0, 2)), ((0, 2), (0, 3))], [((0, 0), (0, 0))])] = true := by decide +kernel

/-- The failed comparison with the first call of `f` leaves a number of the argument behind, which the result of the
second call of `f` gets, too. So the argument is taken for the result. -/
theorem C113_fails : ¬ C113_statement := by
  intro h
  obtain ⟨s, hs, hlog⟩ := isEqual_iff stale_equal
  obtain ⟨m, hm⟩ : ∃ m, s.log = [m] := by
    match hl : s.log with
    | [] => rw [hl] at hlog; exact nomatch hlog
    | [m] => exact ⟨m, rfl⟩
    | _ :: _ :: _ => rw [hl] at hlog; simp at hlog
  rw [hm] at hlog
  simp only [List.map_cons, List.map_nil, List.cons.injEq, Prod.mk.injEq, and_true] at hlog
  obtain ⟨hp, argL, argR, hO, _⟩ := h staleEnv 20 _ s stale_from hs m (by rw [hm]; exact List.mem_singleton.2 rfl)
  rw [List.mem_singleton.1 hp, exPat_left, hlog.1] at hO
  obtain ⟨ip, im, h1, h2, _, _, h3⟩ := hO (0, 2) (0, 3) (by decide)
  cases h1
  cases h2
  have := h3 0 (.arg 0) (.inst 0 1) rfl rfl (0, 2) (by decide)
  exact absurd this (by decide)

/-! ### C119: inputs of a match that were not compared -/

/-- A pattern of code that uses the argument 1 in the old version and the argument 2 in the new one. Before the marked
start there are other uses of the arguments. -/
def inpOld : CusFun := ⟨str! "diffkemp.old.p", [false, false, false],
  [[cpCall (str! "f1") [.arg 2, .arg 0], { cpCall (str! "f2") [.arg 1] with md := exStart }, exRet []]]⟩
def inpNew : CusFun := ⟨str! "diffkemp.new.p", [false, false, false],
  [[cpCall (str! "g1") [.arg 1, .arg 0], { cpCall (str! "g2") [.arg 2] with md := exStart }, exRet []]]⟩
def inpFnL : CusFun := ⟨str! "fun", [false, false, false, false],
  [[cpCall (str! "f2") [.arg 1], cpCall (str! "f1") [.arg 2, .arg 0], exRet []]]⟩
/-- The argument 3 in place of the argument 0. -/
def inpFnR : CusFun := ⟨str! "fun", [false, false, false, false],
  [[cpCall (str! "g2") [.arg 2], cpCall (str! "g1") [.arg 1, .arg 3], exRet []]]⟩
def inpEnv : CusEnv := ⟨inpFnL, inpFnR, [exPat inpOld inpNew], []⟩

theorem inp_from : FromFunctions inpEnv := by
  intro P hP
  rw [List.mem_singleton.1 hP]
  exact ⟨inpOld, inpNew, exPat_left _ _, exPat_right _ _, inside_of (by decide +kernel), inside_of (by decide +kernel)⟩

/-- The functions are found equal. -/
theorem inp_equal : isEqual (inpEnv.compareEntry 20) [((0, 2), (0, 2))]
    [([((0, 1), (0, 0)), ((0, 0), (0, 1))], [((0, 1), (0, 0)), ((0, 0), (0, 1))])] = true := by decide +kernel

/-- `PairsAgree` follows from a test of the lists. -/
theorem pairsAgree_of {s : CSt}
    (h1 : ∀ x ∈ s.snL, ∀ y ∈ s.mapped, x.2 = y.1 → y.2.2.1 = false ∧ s.snR.lookup y.2.2 = some x.2)
    (h2 : ∀ x ∈ s.snR, ∀ y ∈ s.mapped, x.2 = y.1 → y.2.1.1 = true ∧ s.snL.lookup y.2.1 = some x.2) : PairsAgree s :=
  ⟨fun l n hl p hp => h1 _ (plookup_mem' hl) _ (plookup_mem' hp) rfl,
   fun l n hl p hp => h2 _ (plookup_mem' hl) _ (plookup_mem' hp) rfl⟩

theorem inp_pairs : PairsAgree inpEnv.init := pairsAgree_of (by decide +kernel) (by decide +kernel)

/-- The matches after a step. -/
def stepLog (o : Option CSt) : List (List (Pos × Pos) × List (Pos × Pos)) :=
  match o with
  | some s => s.log.map fun m => (m.left, m.right)
  | none => []

/-- The argument 0 of the pattern is not used by the code after the start. It gets values on each side when the users of
the other arguments are compared, and these values are not compared any more. -/
theorem C119_fails : ¬ C119_statement := by
  intro h
  have hE : stepLog (inpEnv.matchInst (0, 0) (0, 0) inpEnv.init inpEnv.insts) =
      [([((0, 1), (0, 0)), ((0, 0), (0, 1))], [((0, 1), (0, 0)), ((0, 0), (0, 1))])] := by decide +kernel
  match hM : inpEnv.matchInst (0, 0) (0, 0) inpEnv.init inpEnv.insts with
  | none => rw [hM] at hE; exact nomatch hE
  | some s' =>
    obtain ⟨m, h1, h2, h3⟩ := h inpEnv (0, 0) (0, 0) inpEnv.init s' inp_from inp_pairs hM
    have hl : s'.log = [m] := h1
    rw [hM] at hE
    unfold stepLog at hE
    dsimp only at hE
    rw [hl] at hE
    simp only [List.map_cons, List.map_nil, List.cons.injEq, Prod.mk.injEq, and_true] at hE
    have hp := List.mem_singleton.1 h2
    obtain ⟨n, a, b⟩ := h3 0 (.arg 0) (.arg 3) (by rw [hp, exPat_left]; decide) (by
      constructor
      · refine ⟨(0, 0), (0, 1), by rw [hE.1]; decide, ?_⟩
        rw [hp, exPat_left]
        exact ⟨_, _, rfl, rfl, 1, rfl, rfl⟩
      · refine ⟨(0, 0), (0, 1), by rw [hE.2]; decide, ?_⟩
        rw [hp, exPat_right]
        exact ⟨_, _, rfl, rfl, 1, rfl, rfl⟩)
    have a' : inpEnv.init.snL.lookup (true, .arg 0) = some 0 := by decide +kernel
    have b' : inpEnv.init.snR.lookup (false, .arg 3) = some 3 := by decide +kernel
    rw [a'] at a
    rw [b'] at b
    cases a
    cases b

end DK
