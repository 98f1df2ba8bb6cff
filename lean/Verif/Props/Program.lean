import Verif.Lemmas.Program

/-!
C164: the verdict about whole programs. If a function and everything it calls is found equal, it does the
same in both programs.
-/

set_option autoImplicit false

namespace DK

open Spec

/-- **C164** (fails): if a function is compared with the function of the same name of another program, no
pair of functions is found different and no definition is missing, the function does the same in both
programs. -/
def C164_statement : Prop :=
  ∀ (cfg : DCfg) (steps n : Nat) (seen : Pair → List Nat) (names : Nat → Str) (PL PR : DProg) (main : Nat)
    (st : MSt Swaps Unit), (∀ f l, PL f = some l → Valid l) → (∀ f r, PR f = some r → Valid r) →
    comparePrograms cfg steps n seen names PL PR main = .ok st → AllEqual st → st.missing = [] →
    SameInPrograms PL PR main

/-- Programs with one function. -/
def oneFun (l : DFun) : DProg := fun f => if f = 0 then some l else none

theorem compareOne {cfg : DCfg} {steps : Nat} {names : Nat → Str} {l r : DFun} (hl : l.calls = [])
    (h : compareD cfg steps l r [] = some (true, [])) :
    ∃ st, comparePrograms cfg steps 1 (fun _ => []) names (oneFun l) (oneFun r) 0 = .ok st ∧ AllEqual st ∧
      st.missing = [] := by
  refine ⟨⟨putVerd (putVerd (fun _ => none) (0, 0) (some .unknown)) (0, 0) (some .equal), [], (none, none),
    Swaps.put (fun _ => []) 0 [], [.ran (0, 0) true []]⟩, ?_, ?_, rfl⟩
  · simp [comparePrograms, compareAll, compareFunctions, runFull, runCmp, progEngine, progCmp, oneFun, h, hl, calleeRun,
      newComparator, emplace, putKind, putVerd]
  · intro p
    unfold putVerd
    dsimp only
    split
    · simp
    · simp_all

/-- Functions that call nothing do not depend on the depth of calls. -/
theorem progMach_noCalls {Mem : Type} (P : DProg) (M : DMach Mem) (d : Nat) :
    AgreeOn (progMach P M d) (progMach P M 0) [] := by
  have h : ∀ c c' : DFun → List Int → Mem → Option (List (Option Int) × Option Mem),
      AgreeOn (callMach P M c) (callMach P M c') [] := by
    intro c c'
    refine ⟨rfl, rfl, rfl, ?_⟩
    intro k hk ty vals mem
    cases k with
    | call f => exact absurd (hk f rfl) (by simp)
    | _ => rfl
  cases d with
  | zero => exact h _ _
  | succ d => exact h _ _

/-- A phi that is used only by another phi is never compared (C155). -/
theorem C164_fails : ¬ C164_statement := by
  intro h
  have hv : ∀ a b, (a, b) = (0, 1) ∨ (a, b) = (1, 0) → Valid (innerPhi (r32 a) (r32 b)) := by
    intro a b hab
    rcases hab with hab | hab <;> cases hab
    all_goals
      exact ⟨wfB_ok (by decide +kernel), domB_ok (fun _ => []) (by decide +kernel),
        reached_ok (fun b => if b = 1 ∨ b = 2 then [0] else if b = 3 then [1, 0] else
          if b = 4 ∨ b = 5 then [3, 1, 0] else if b = 6 then [4, 3, 1, 0] else []) (by decide +kernel),
        phisB_ok (by decide +kernel)⟩
  obtain ⟨st, h1, h2, h3⟩ := compareOne (cfg := cfgNone) (steps := 50) (names := fun _ => [])
    (l := innerPhi (r32 0) (r32 1)) (r := innerPhi (r32 1) (r32 0)) (by decide +kernel) (by decide +kernel)
  have hone : ∀ a b, (a, b) = (0, 1) ∨ (a, b) = (1, 0) → ∀ f l, oneFun (innerPhi (r32 a) (r32 b)) f = some l → Valid l := by
    intro a b hab f l hl
    unfold oneFun at hl
    split at hl
    · cases hl; exact hv a b hab
    · cases hl
  have hs := h _ _ _ _ _ _ _ _ st (hone 0 1 (.inl rfl)) (hone 1 0 (.inr rfl)) h1 h2 h3
  obtain ⟨d, g, n, hg, hn⟩ := (hs _ testMach [7, 8, -1, -1] [] ([some 7], [])).1
    ⟨0, innerPhi (r32 0) (r32 1), 9, rfl, by
      show runFun (callMach (oneFun (innerPhi (r32 0) (r32 1))) testMach fun _ _ _ => none) _ 9 _ _ = _
      decide +kernel⟩
  cases hg
  rw [runFun_agree (progMach_noCalls _ _ d)] at hn
  have h8 : runFun (progMach (oneFun (innerPhi (r32 1) (r32 0))) testMach 0) (innerPhi (r32 1) (r32 0)) 9
      [7, 8, -1, -1] (some []) = some ([some 8], some []) := by
    show runFun (callMach (oneFun (innerPhi (r32 1) (r32 0))) testMach fun _ _ _ => none) _ 9 _ _ = _
    decide +kernel
  have := run_unique _ _ hn h8
  revert this
  decide

/-- What is found equal does the same. -/
theorem soundFor_same {cfg : DCfg} {l r : DFun} (h : SoundFor cfg l r) {steps : Nat} {sw : List Nat}
    (hc : compareD cfg steps l r [] = some (true, sw)) : SameResults l r := by
  cases h with
  | none φ he vl vr cl cr ul ur hf =>
    subst he
    exact C155_phis_partial l r φ steps sw vl.wf vr.wf vl.dom vr.dom cl cr hf vl.reached vr.reached vl.phis vr.phis ul ur hc
  | inverse φ he vl vr cl cr nl nr ul ur hf =>
    subst he
    exact C42_phis_partial l r φ steps sw vl.wf vr.wf vl.dom vr.dom cl cr nl nr hf vl.reached vr.reached vl.phis vr.phis ul
      ur hc
  | reorder φ he wl wr dl dr pl pr fl fr tl tr hf =>
    exact C41_reorder_partial cfg he l r φ steps sw wl wr dl dr pl pr fl fr tl tr hf hc

/-- **C164** (partial): it holds if the bodies that are compared are ones for which the comparison of single
functions is sound (C41, C42, C155), even for the same depth of calls and for recursive functions. Missing:
other functions, inlining, and results from a cache. -/
theorem C164_program_partial (cfg : DCfg) (steps n : Nat) (seen : Pair → List Nat) (names : Nat → Str)
    (PL PR : DProg) (main : Nat) (st : MSt Swaps Unit)
    (hs : ∀ f l r, st.results (f, f) ≠ none → PL f = some l → PR f = some r → SoundFor cfg l r)
    (h : comparePrograms cfg steps n seen names PL PR main = .ok st) (he : AllEqual st) (hm : st.missing = []) :
    SameInPrograms PL PR main := by
  obtain ⟨hb, hmain⟩ := comparePrograms_same h he hm fun f l r hf hl hr sw hc => soundFor_same (hs f l r hf hl hr) hc
  intro Mem M vals mem res
  simp only [sameBodies_returns hb hmain M]

/-- Every function that was compared on the way does the same, too, with any depth of calls. -/
theorem C164_callees_partial (cfg : DCfg) (steps n : Nat) (seen : Pair → List Nat) (names : Nat → Str)
    (PL PR : DProg) (main : Nat) (st : MSt Swaps Unit)
    (hs : ∀ f l r, st.results (f, f) ≠ none → PL f = some l → PR f = some r → SoundFor cfg l r)
    (h : comparePrograms cfg steps n seen names PL PR main = .ok st) (he : AllEqual st) (hm : st.missing = [])
    (f : Nat) (hf : st.results (f, f) ≠ none) (Mem : Type) (M : DMach Mem) (d : Nat) (vals : List Int) (mem : Mem)
    (res : List (Option Int) × Mem) :
    ProgReturns PL M d f vals mem res ↔ ProgReturns PR M d f vals mem res :=
  sameBodies_returns (comparePrograms_same h he hm fun f l r hf hl hr sw hc => soundFor_same (hs f l r hf hl hr) hc).1 hf M d vals
    mem res

/-! ### Programs for examples -/

/-- `int f7(int n) { if (n == 0) return n; f9(n - 1); return f7(n - 1); }` -/
def downL : DFun := ⟨[(0, 32)],
  [⟨0, [⟨1, .cmp .eq, 1, [r32 0, c32 0], []⟩, ⟨2, .branch, 0, [r1 1, .blk 1, .blk 2], []⟩]⟩,
   ⟨1, [⟨3, .bin .add, 32, [r32 0, c32 (-1)], []⟩, ⟨4, .call 9, 0, [r32 3], []⟩,
        ⟨5, .call 7, 32, [r32 3], []⟩, ⟨6, .ret, 0, [r32 5], []⟩]⟩,
   ⟨2, [⟨7, .ret, 0, [r32 0], []⟩]⟩]⟩

/-- The same with other names, another order of blocks, and a number that is subtracted. -/
def downR (s : Int) : DFun := ⟨[(20, 32)],
  [⟨10, [⟨21, .cmp .eq, 1, [r32 20, c32 0], []⟩, ⟨22, .branch, 0, [r1 21, .blk 11, .blk 12], []⟩]⟩,
   ⟨12, [⟨27, .ret, 0, [r32 20], []⟩]⟩,
   ⟨11, [⟨23, .bin .add, 32, [r32 20, c32 s], []⟩, ⟨24, .call 9, 0, [r32 23], []⟩,
        ⟨25, .call 7, 32, [r32 23], []⟩, ⟨26, .ret, 0, [r32 25], []⟩]⟩]⟩

/-- A loop that calls a recursive function that calls an external one. -/
def twoFuns (l : DFun) (g : Option DFun) : DProg := fun f => if f = 0 then some l else if f = 7 then g else none

/-- What was recorded about some pairs, and the missing definitions. -/
def recorded (x : Except Stop (MSt Swaps Unit)) (ps : List Pair) :
    Option (List (Option Verd) × List (Option Nat × Option Nat)) :=
  match x with
  | .ok st => some (ps.map st.results, st.missing)
  | .error _ => none

/-- The programs are found equal, and the theorem applies to them. -/
example : SameInPrograms (twoFuns (loopStep 3) (some downL)) (twoFuns (loopStep' 3) (some (downR (-1)))) 0 := by
  have h1 : compareD cfgNone 50 (loopStep 3) (loopStep' 3) [] = some (true, []) := by decide +kernel
  have h2 : compareD cfgNone 50 downL (downR (-1)) [] = some (true, []) := by decide +kernel
  have c1 : (loopStep 3).calls = [7] := by decide +kernel
  have c2 : downL.calls = [9, 7] := by decide +kernel
  have hc : ∃ st, comparePrograms cfgNone 50 3 (fun _ => []) (fun _ => []) (twoFuns (loopStep 3) (some downL))
      (twoFuns (loopStep' 3) (some (downR (-1)))) 0 = .ok st ∧ AllEqual st ∧ st.missing = [] := by
    refine ⟨⟨fun p => if p = (0, 0) ∨ p = (7, 7) then some .equal else if p = (9, 9) then some .assumedEqual else none,
      [], (none, none), fun _ => [], [.ran (0, 0) true [(7, 7)], .ran (7, 7) true [(7, 7), (9, 9)]]⟩, ?_, ?_, rfl⟩
    · simp [comparePrograms, compareAll, compareFunctions, runFull, runCmp, progEngine, progCmp, twoFuns, h1, h2, c1, c2,
        calleeRun, newComparator, emplace, putKind, putVerd, declVerdict, Swaps.put]
      constructor
      · funext p
        by_cases a : p = (0, 0) <;> by_cases b : p = (7, 7) <;> by_cases c : p = (9, 9) <;> simp_all [putVerd]
      · funext f
        simp [Swaps.put]
    · intro p
      dsimp only
      split
      · simp
      · split <;> simp
  obtain ⟨st, hst, he, hm⟩ := hc
  refine C164_program_partial _ _ _ _ _ _ _ _ st ?_ hst he hm
  intro f l r _ hl hr
  unfold twoFuns at hl hr
  split at hl
  · rw [if_pos (by assumption)] at hr
    cases hl; cases hr
    exact .none (· + 10) rfl
      ⟨wfB_ok (by decide +kernel), domB_ok (fun b => if b = 1 then [0] else if b = 2 then [0, 1] else []) (by decide +kernel),
        reached_ok (fun b => if b = 1 then [0] else if b = 2 then [1, 0] else []) (by decide +kernel),
        phisB_ok (by decide +kernel)⟩
      ⟨wfB_ok (by decide +kernel), domB_ok (fun b => if b = 11 then [10] else if b = 12 then [10, 11] else [])
        (by decide +kernel),
        reached_ok (fun b => if b = 11 then [10] else if b = 12 then [11, 10] else []) (by decide +kernel),
        phisB_ok (by decide +kernel)⟩
      (noConversions_of (by decide +kernel)) (noConversions_of (by decide +kernel)) (usedB_ok (by decide +kernel))
      (usedB_ok (by decide +kernel)) (equalFlowB_ok (by decide +kernel))
  · rw [if_neg (by assumption)] at hr
    split at hl
    · rw [if_pos (by assumption)] at hr
      cases hl; cases hr
      exact .none (· + 10) rfl
        ⟨wfB_ok (by decide +kernel), domB_ok (fun b => if b = 1 then [0] else if b = 2 then [0] else []) (by decide +kernel),
          reached_ok (fun b => if b = 1 then [0] else if b = 2 then [0] else []) (by decide +kernel),
          phisB_ok (by decide +kernel)⟩
        ⟨wfB_ok (by decide +kernel), domB_ok (fun b => if b = 11 then [10] else if b = 12 then [10] else [])
          (by decide +kernel),
          reached_ok (fun b => if b = 11 then [10] else if b = 12 then [10] else []) (by decide +kernel),
          phisB_ok (by decide +kernel)⟩
        (noConversions_of (by decide +kernel)) (noConversions_of (by decide +kernel)) (usedB_ok (by decide +kernel))
        (usedB_ok (by decide +kernel)) (equalFlowB_ok (by decide +kernel))
    · cases hl

/-- If the called function is different, this is recorded about it, while its caller is still equal. -/
example : recorded (comparePrograms cfgNone 50 3 (fun _ => []) (fun _ => []) (twoFuns (loopStep 3) (some downL))
    (twoFuns (loopStep' 3) (some (downR (-2)))) 0) [(0, 0), (7, 7)] =
    some ([some .equal, some .notEqual], []) := by decide +kernel

/-- If the called function has a body in one program only, nothing is different, but a definition is
missing. -/
example : recorded (comparePrograms cfgNone 50 3 (fun _ => []) (fun _ => []) (twoFuns (loopStep 3) (some downL))
    (twoFuns (loopStep' 3) none) 0) [(0, 0), (7, 7)] =
    some ([some .equal, some .assumedEqual], [(none, some 7)]) := by decide +kernel

end DK
