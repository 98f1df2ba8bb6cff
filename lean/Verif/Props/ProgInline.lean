import Verif.Lemmas.ProgInline
import Verif.Props.Program

/-!
C165: the verdict about whole programs if calls are inlined during the comparison.
-/

set_option autoImplicit false

namespace DK

open Spec

/-- **C165** (fails): if a function is compared with the function of the same name of another program, with
inlining of calls, no pair of functions is recorded as different, no definition is missing, inlining and
simplification are safe and the comparison of single functions is sound for the bodies at the end, the
function does the same in both programs. -/
def C165_statement : Prop :=
  ∀ (C : Type) (cfg : DCfg) (steps n : Nat) (diff : ProgSt → Pair → List Nat × Option C × Option C)
    (names : Nat → Str) (I : Inliner C) (PL PR : DProg) (main : Nat) (st : MSt ProgSt C), SafeInliner I →
    (∀ f l r, st.results (f, f) ≠ none → st.w.L f = some l → st.w.R f = some r → SoundFor cfg l r) →
    compareInlining cfg steps n diff names I PL PR main = .ok st → AllEqual st → st.missing = [] →
    SameInPrograms PL PR main

/-- A body that does the same as the old one in the old and in the new program: whatever calls the function,
also the function itself, does the same as before. -/
theorem C165_change (f : Nat) (P P' : DProg) (h : SafeChange f P P') (g : Nat) : SameInPrograms P P' g :=
  safeChange_same h g

/-- **C165** (partial): it holds if no result was dropped. Missing: inlining of a function together with its
namesake, which drops the result of the pair, and other functions than the ones of C164. -/
theorem C165_inlined_partial {C : Type} (cfg : DCfg) (steps n : Nat)
    (diff : ProgSt → Pair → List Nat × Option C × Option C) (names : Nat → Str) (I : Inliner C) (PL PR : DProg)
    (main : Nat) (st : MSt ProgSt C) (hI : SafeInliner I)
    (hs : ∀ f l r, st.results (f, f) ≠ none → st.w.L f = some l → st.w.R f = some r → SoundFor cfg l r)
    (h : compareInlining cfg steps n diff names I PL PR main = .ok st) (he : AllEqual st) (hm : st.missing = [])
    (hd : NothingDropped st.log) :
    SameInPrograms PL PR main ∧ ∀ f, st.results (f, f) ≠ none → SameInPrograms PL PR f := by
  obtain ⟨hi, hmain⟩ := compareInlining_inv hI h hd
  have hb := compareInlining_same hI h he hm hd fun f l r hf hl hr sw hc => soundFor_same (hs f l r hf hl hr) hc
  have key : ∀ f, st.results (f, f) ≠ none → SameInPrograms PL PR f := by
    intro f hf
    refine sameIn_trans (hi.sameL f) (sameIn_trans ?_ (sameIn_symm (hi.sameR f)))
    intro Mem M vals mem res
    simp only [sameBodies_returns hb hf M]
  exact ⟨key main hmain, key⟩

/-! ### Code that was moved out of a function -/

deriving instance DecidableEq for DBlock, DFun

/-- `int f3(void) { return asm5() + 1; }` -/
def helperF : DFun := ⟨[],
  [⟨0, [⟨1, .other 5, 32, [], []⟩, ⟨2, .bin .add, 32, [r32 1, c32 1], []⟩, ⟨3, .ret, 0, [r32 2], []⟩]⟩]⟩

/-- `int f0(int x) { return f3() + x; }` -/
def withCall : DFun := ⟨[(0, 32)],
  [⟨0, [⟨1, .call 3, 32, [], []⟩, ⟨2, .bin .add, 32, [r32 1, r32 0], []⟩, ⟨3, .ret, 0, [r32 2], []⟩]⟩]⟩

/-- `int f0(int x) { return asm5() + 1 + x; }` -/
def withCode : DFun := ⟨[(0, 32)],
  [⟨0, [⟨4, .other 5, 32, [], []⟩, ⟨5, .bin .add, 32, [r32 4, c32 1], []⟩, ⟨2, .bin .add, 32, [r32 5, r32 0], []⟩,
    ⟨3, .ret, 0, [r32 2], []⟩]⟩]⟩

/-- Inlines the call of `f3` in `f0`. -/
def inlineHelper : Inliner Unit where
  has P f _ := decide (f = 0 ∧ P 0 = some withCall ∧ P 3 = some helperF)
  called _ _ := 3
  inline P _ := some fun g => if g = 0 then some withCode else P g
  simplify P _ := P

theorem safeChange_same_body (f : Nat) (P : DProg) : SafeChange f P P := by
  refine ⟨fun _ _ => rfl, rfl, ?_, ?_⟩ <;>
  · intro l l' h h'
    rw [h] at h'; cases h'
    exact fun _ _ _ _ _ => Iff.rfl

theorem returnsIn_withCode {Mem : Type} (P : DProg) (M : DMach Mem) (vals : List Int) (mem : Mem)
    (res : List (Option Int) × Mem) :
    ReturnsIn P M withCode vals mem res ↔
      res = ([both (binInt .add 32) (both (binInt .add 32) (M.eff (.other 5) 32 [] mem).1 (some 1)) (argEnv withCode vals 0)],
        (M.eff (.other 5) 32 [] mem).2) := by
  have hrun : ∀ d n, runFun (progMach P M d) withCode (n + 1) vals (some mem) =
      some ([both (binInt .add 32) (both (binInt .add 32) (M.eff (.other 5) 32 [] mem).1 (some 1)) (argEnv withCode vals 0)],
        some (M.eff (.other 5) 32 [] mem).2) := by
    intro d n
    cases d <;> rfl
  constructor
  · rintro ⟨d, n, h⟩
    cases n with
    | zero => cases h
    | succ n =>
      rw [hrun] at h
      simp only [Option.some.injEq, Prod.mk.injEq] at h
      exact (Prod.ext h.1 h.2).symm
  · rintro rfl
    exact ⟨0, 1, hrun 0 0⟩

theorem returnsIn_withCall {Mem : Type} (P : DProg) (hP : P 3 = some helperF) (M : DMach Mem) (vals : List Int) (mem : Mem)
    (res : List (Option Int) × Mem) :
    ReturnsIn P M withCall vals mem res ↔
      res = ([both (binInt .add 32) (both (binInt .add 32) (M.eff (.other 5) 32 [] mem).1 (some 1)) (argEnv withCall vals 0)],
        (M.eff (.other 5) 32 [] mem).2) := by
  have hcall : ∀ d, callResult (progMach P M d) helperF [] (some mem) =
      some ([both (binInt .add 32) (M.eff (.other 5) 32 [] mem).1 (some 1)], some (M.eff (.other 5) 32 [] mem).2) := by
    intro d
    rw [callResult_iff]
    exact ⟨1, by cases d <;> rfl⟩
  have heff : ∀ d, (progMach P M (d + 1)).eff (.call 3) 32 [] (some mem) =
      (both (binInt .add 32) (M.eff (.other 5) 32 [] mem).1 (some 1), some (M.eff (.other 5) 32 [] mem).2) := by
    intro d
    simp only [progMach, callMach, hP, definedArgs, Option.bind_some, hcall]
    rfl
  have hrun : ∀ d n, runFun (progMach P M (d + 1)) withCall (n + 1) vals (some mem) =
      some ([both (binInt .add 32) ((progMach P M (d + 1)).eff (.call 3) 32 [] (some mem)).1 (argEnv withCall vals 0)],
        ((progMach P M (d + 1)).eff (.call 3) 32 [] (some mem)).2) := by
    intro d n
    rfl
  have hrun0 : ∀ n, runFun (progMach P M 0) withCall (n + 1) vals (some mem) =
      some ([both (binInt .add 32) ((progMach P M 0).eff (.call 3) 32 [] (some mem)).1 (argEnv withCall vals 0)],
        ((progMach P M 0).eff (.call 3) 32 [] (some mem)).2) := by
    intro n
    rfl
  have heff0 : (progMach P M 0).eff (.call 3) 32 [] (some mem) = (none, none) := by
    simp [progMach, callMach, hP, definedArgs]
  constructor
  · rintro ⟨d, n, h⟩
    cases n with
    | zero => cases h
    | succ n =>
      cases d with
      | zero =>
        rw [hrun0, heff0] at h
        simp at h
      | succ d =>
        rw [hrun, heff] at h
        simp only [Option.some.injEq, Prod.mk.injEq] at h
        exact (Prod.ext h.1 h.2).symm
  · rintro rfl
    exact ⟨1, 1, by rw [hrun, heff]⟩

theorem inlineHelper_safe : SafeInliner inlineHelper := by
  refine ⟨?_, fun P f => safeChange_same_body f P⟩
  intro P f c P' hh hi
  simp only [inlineHelper, decide_eq_true_eq] at hh
  obtain ⟨rfl, h0, h3⟩ := hh
  cases hi
  refine ⟨fun g hg => if_neg hg, by simp [h0], ?_, ?_⟩
  all_goals
    intro l l' hl hl'
    rw [h0] at hl; cases hl
    simp only [if_true] at hl'; cases hl'
    intro Mem M vals mem res
    rw [returnsIn_withCode, returnsIn_withCall _ (by simp [h3])]
    rfl

/-- Code was moved to a new function. The call is inlined, the functions are equal then, and nothing is
dropped. -/
example : SameInPrograms (fun f => if f = 0 then some withCall else if f = 3 then some helperF else none)
    (fun f => if f = 0 then some withCode else none) 0 := by
  have h1 : compareD cfgNone 50 withCall withCode [] = some (false, []) := by decide +kernel
  have h2 : compareD cfgNone 50 withCode withCode [] = some (true, []) := by decide +kernel
  have c2 : withCode.calls = [] := by decide +kernel
  have hne : withCode ≠ withCall := by decide +kernel
  have hc : ∃ st : MSt ProgSt Unit, compareInlining cfgNone 50 3 (fun _ _ => ([], some (), none)) (fun _ => []) inlineHelper
      (fun f => if f = 0 then some withCall else if f = 3 then some helperF else none)
      (fun f => if f = 0 then some withCode else none) 0 = .ok st ∧ AllEqual st ∧ st.missing = [] ∧ NothingDropped st.log ∧
      (st.w.L 0 = some withCode ∧ st.w.R 0 = some withCode ∧ ∀ f, f ≠ 0 → st.w.R f = none) := by
    refine ⟨⟨fun p => if p = (0, 0) then some .equal else none, [], (some (), none),
      ⟨fun f => if f = 0 then some withCode else if f = 3 then some helperF else none,
        fun f => if f = 0 then some withCode else none⟩,
      [.ran (0, 0) true [], .inlined (0, 0) (some 3, none), .ran (0, 0) false []]⟩, ?_, ?_, rfl, ?_, rfl, rfl, ?_⟩
    · simp [compareInlining, compareAll, compareFunctions, runFull, runCmp, inlineEngine, inlineCmp, h1, h2, c2, hne, calleesThen,
        newComparator, emplace, putKind, putVerd, rounds, findCall, tryToInline, dropAll, inlineHelper, ProgSt.get, ProgSt.put]
      constructor
      · funext p
        by_cases a : p = (0, 0) <;> simp_all [putVerd]
      · funext f
        by_cases a : f = 0 <;> simp_all
    · intro p
      dsimp only
      split <;> simp
    · rintro f ⟨p, hp⟩
      simp at hp
    · intro f hf
      exact if_neg hf
  obtain ⟨st, hst, he, hm, hd, hl0, hr0, hr⟩ := hc
  refine (C165_inlined_partial _ _ _ _ _ _ _ _ _ st inlineHelper_safe ?_ hst he hm hd).1
  intro f l r _ hl hrr
  by_cases hf : f = 0
  · subst hf
    rw [hl0] at hl; rw [hr0] at hrr
    cases hl; cases hrr
    have hv : Valid withCode := ⟨wfB_ok (by decide +kernel), domB_ok (fun _ => []) (by decide +kernel),
      reached_ok (fun _ => []) (by decide +kernel), phisB_ok (by decide +kernel)⟩
    exact .none id rfl hv hv (noConversions_of (by decide +kernel)) (noConversions_of (by decide +kernel))
      (usedB_ok (by decide +kernel)) (usedB_ok (by decide +kernel)) (equalFlowB_ok (by decide +kernel))
  · rw [hr f hf] at hrr; cases hrr

/-! ### A difference that is lost -/

/-- `int f0(int x, int y) { int a = f1(x, y); f2(); return a; }` -/
def hideMain : DFun := ⟨[(0, 32), (1, 32)],
  [⟨0, [⟨2, .call 1, 32, [r32 0, r32 1], []⟩, ⟨3, .call 2, 32, [], []⟩, ⟨4, .ret, 0, [r32 2], []⟩]⟩]⟩

/-- `int f1(int x, int y) { return f3(x, y); }` -/
def hideSecond : DFun := ⟨[(0, 32), (1, 32)],
  [⟨0, [⟨2, .call 3, 32, [r32 0, r32 1], []⟩, ⟨3, .ret, 0, [r32 2], []⟩]⟩]⟩

/-- `int f2(void) { return f3(a, b); }` -/
def hideFirst (a b : Int) : DFun := ⟨[],
  [⟨0, [⟨2, .call 3, 32, [c32 a, c32 b], []⟩, ⟨3, .ret, 0, [r32 2], []⟩]⟩]⟩

/-- `int f3(int x, int y) { return x; }`, or `return y`. -/
def hidePick (n : Nat) : DFun := ⟨[(0, 32), (1, 32)], [⟨0, [⟨2, .ret, 0, [r32 n], []⟩]⟩]⟩

/-- `int f2(void) { return 1; }` -/
def hideOne : DFun := ⟨[], [⟨0, [⟨2, .ret, 0, [c32 1], []⟩]⟩]⟩

def hideProg (two three : DFun) : DProg := fun f =>
  if f = 0 then some hideMain else if f = 1 then some hideSecond else if f = 2 then some two else
    if f = 3 then some three else none

/-- Inlines the call of `f3` in `f2`. -/
def hideInliner : Inliner Unit where
  has P f _ := decide (f = 2 ∧ (P 2 = some (hideFirst 1 2) ∧ P 3 = some (hidePick 0) ∨
    P 2 = some (hideFirst 2 1) ∧ P 3 = some (hidePick 1)))
  called _ _ := 3
  inline P _ := some fun g => if g = 2 then some hideOne else P g
  simplify P _ := P

theorem returnsIn_hideOne {Mem : Type} (P : DProg) (M : DMach Mem) (vals : List Int) (mem : Mem)
    (res : List (Option Int) × Mem) : ReturnsIn P M hideOne vals mem res ↔ res = ([some 1], mem) := by
  have hrun : ∀ d n, runFun (progMach P M d) hideOne (n + 1) vals (some mem) = some ([some 1], some mem) := fun _ _ => rfl
  constructor
  · rintro ⟨d, n, h⟩
    cases n with
    | zero => cases h
    | succ n =>
      rw [hrun] at h
      simp only [Option.some.injEq, Prod.mk.injEq] at h
      exact (Prod.ext h.1 h.2).symm
  · rintro rfl
    exact ⟨0, 1, hrun 0 0⟩

theorem hidePick_result {Mem : Type} (M : DMach (Option Mem)) (k : Nat) (hk : k = 0 ∨ k = 1) (a b : Int) (mem : Option Mem) :
    callResult M (hidePick k) [a, b] mem = some ([some (if k = 0 then a else b)], mem) := by
  rw [callResult_iff]
  rcases hk with rfl | rfl <;> exact ⟨1, rfl⟩

theorem returnsIn_hideFirst {Mem : Type} (P : DProg) {a b : Int} {k : Nat} (hk : k = 0 ∨ k = 1)
    (hP : P 3 = some (hidePick k)) (M : DMach Mem) (vals : List Int) (mem : Mem) (res : List (Option Int) × Mem) :
    ReturnsIn P M (hideFirst a b) vals mem res ↔ res = ([some (if k = 0 then a else b)], mem) := by
  have heff : ∀ d, (progMach P M (d + 1)).eff (.call 3) 32 [(32, some a), (32, some b)] (some mem) =
      (some (if k = 0 then a else b), some mem) := by
    intro d
    simp only [progMach, callMach, hP, definedArgs, Option.map_some, Option.bind_some, hidePick_result _ k hk]
    rfl
  have heff0 : (progMach P M 0).eff (.call 3) 32 [(32, some a), (32, some b)] (some mem) = (none, none) := by
    simp [progMach, callMach, hP, definedArgs]
  have hrun : ∀ d n, runFun (progMach P M d) (hideFirst a b) (n + 1) vals (some mem) =
      some ([((progMach P M d).eff (.call 3) 32 [(32, some a), (32, some b)] (some mem)).1],
        ((progMach P M d).eff (.call 3) 32 [(32, some a), (32, some b)] (some mem)).2) := by
    intro d n
    rfl
  constructor
  · rintro ⟨d, n, h⟩
    cases n with
    | zero => cases h
    | succ n =>
      cases d with
      | zero =>
        rw [hrun, heff0] at h
        simp at h
      | succ d =>
        rw [hrun, heff] at h
        simp only [Option.some.injEq, Prod.mk.injEq] at h
        exact (Prod.ext h.1 h.2).symm
  · rintro rfl
    exact ⟨1, 1, by rw [hrun, heff]⟩

theorem hideInliner_safe : SafeInliner hideInliner := by
  refine ⟨?_, fun P f => safeChange_same_body f P⟩
  intro P f c P' hh hi
  simp only [hideInliner, decide_eq_true_eq] at hh
  obtain ⟨rfl, hh⟩ := hh
  cases hi
  rcases hh with ⟨h0, h3⟩ | ⟨h0, h3⟩
  all_goals
    refine ⟨fun g hg => if_neg hg, by simp [h0], ?_, ?_⟩
    all_goals
      intro l l' hl hl'
      rw [h0] at hl; cases hl
      simp only [if_true] at hl'; cases hl'
      intro Mem M vals mem res
      rw [returnsIn_hideOne]
  · exact returnsIn_hideFirst _ (.inl rfl) h3 M vals mem res
  · exact returnsIn_hideFirst _ (.inl rfl) (by simp [h3]) M vals mem res
  · exact returnsIn_hideFirst _ (.inr rfl) h3 M vals mem res
  · exact returnsIn_hideFirst _ (.inr rfl) (by simp [h3]) M vals mem res

/-- What the main function returns: its first or its second argument. -/
theorem hideMain_returns {Mem : Type} {a b : Int} {k : Nat} (hk : k = 0 ∨ k = 1) (M : DMach Mem) (x y : Int) (mem : Mem) :
    ProgReturns (hideProg (hideFirst a b) (hidePick k)) M 2 0 [x, y] mem ([some (if k = 0 then x else y)], mem) := by
  have e3 : ∀ d x y, (progMach (hideProg (hideFirst a b) (hidePick k)) M (d + 1)).eff (.call 3) 32
      [(32, some x), (32, some y)] (some mem) = (some (if k = 0 then x else y), some mem) := by
    intro d x y
    have hP : hideProg (hideFirst a b) (hidePick k) 3 = some (hidePick k) := rfl
    simp only [progMach, callMach, hP, definedArgs, Option.map_some, Option.bind_some, hidePick_result _ k hk]
    rfl
  have e1 : (progMach (hideProg (hideFirst a b) (hidePick k)) M 2).eff (.call 1) 32
      [(32, some x), (32, some y)] (some mem) = (some (if k = 0 then x else y), some mem) := by
    have hP : hideProg (hideFirst a b) (hidePick k) 1 = some hideSecond := rfl
    have hr : callResult (progMach (hideProg (hideFirst a b) (hidePick k)) M 1) hideSecond [x, y] (some mem) =
        some ([some (if k = 0 then x else y)], some mem) := by
      rw [callResult_iff]
      refine ⟨1, ?_⟩
      have : runFun (progMach (hideProg (hideFirst a b) (hidePick k)) M 1) hideSecond 1 [x, y] (some mem) =
          some ([((progMach (hideProg (hideFirst a b) (hidePick k)) M 1).eff (.call 3) 32 [(32, some x), (32, some y)]
            (some mem)).1], ((progMach (hideProg (hideFirst a b) (hidePick k)) M 1).eff (.call 3) 32
              [(32, some x), (32, some y)] (some mem)).2) := rfl
      rw [this, e3]
    rw [progMach]
    simp only [callMach, hP, definedArgs, Option.map_some, Option.bind_some, hr]
    rfl
  have e2 : (progMach (hideProg (hideFirst a b) (hidePick k)) M 2).eff (.call 2) 32 [] (some mem) =
      (some (if k = 0 then a else b), some mem) := by
    have hP : hideProg (hideFirst a b) (hidePick k) 2 = some (hideFirst a b) := rfl
    have hr : callResult (progMach (hideProg (hideFirst a b) (hidePick k)) M 1) (hideFirst a b) [] (some mem) =
        some ([some (if k = 0 then a else b)], some mem) := by
      rw [callResult_iff]
      refine ⟨1, ?_⟩
      have : runFun (progMach (hideProg (hideFirst a b) (hidePick k)) M 1) (hideFirst a b) 1 [] (some mem) =
          some ([((progMach (hideProg (hideFirst a b) (hidePick k)) M 1).eff (.call 3) 32 [(32, some a), (32, some b)]
            (some mem)).1], ((progMach (hideProg (hideFirst a b) (hidePick k)) M 1).eff (.call 3) 32
              [(32, some a), (32, some b)] (some mem)).2) := rfl
      rw [this, e3]
    rw [progMach]
    simp only [callMach, hP, definedArgs, Option.bind_some, hr]
    rfl
  refine ⟨hideMain, 1, rfl, ?_⟩
  have : runFun (progMach (hideProg (hideFirst a b) (hidePick k)) M 2) hideMain 1 [x, y] (some mem) =
      some ([((progMach (hideProg (hideFirst a b) (hidePick k)) M 2).eff (.call 1) 32 [(32, some x), (32, some y)]
        (some mem)).1],
        ((progMach (hideProg (hideFirst a b) (hidePick k)) M 2).eff (.call 2) 32 []
          ((progMach (hideProg (hideFirst a b) (hidePick k)) M 2).eff (.call 1) 32 [(32, some x), (32, some y)]
            (some mem)).2).2) := rfl
  rw [this, e1]
  simp only [e2]

/-- A call of a function returns at most one result. -/
theorem progReturns_unique {Mem : Type} {P : DProg} {M : DMach Mem} {d d' f : Nat} {vals : List Int} {mem : Mem}
    {res res' : List (Option Int) × Mem} (h : ProgReturns P M d f vals mem res) (h' : ProgReturns P M d' f vals mem res') :
    res = res' := by
  obtain ⟨l, n, hl, hn⟩ := h
  obtain ⟨l', n', hl', hn'⟩ := h'
  rw [hl] at hl'; cases hl'
  have hs : ∀ f l l', P f = some l → P f = some l' → ∀ vals mem res, ReturnsIn P M l vals mem res →
      ReturnsIn P M l' vals mem res := by
    intro f l l' h h' vals mem res hr
    rw [h] at h'; cases h'; exact hr
  obtain ⟨k, hk⟩ := runFun_within (progMach_within (fun _ => rfl) hs d) hn
  obtain ⟨k', hk'⟩ := runFun_within (progMach_within (fun _ => rfl) hs d') hn'
  have := run_unique _ _ (hk (max k k') (by omega)) (hk' (max k k') (by omega))
  simp only [Prod.mk.injEq, Option.some.injEq] at this
  exact Prod.ext this.1 this.2

/-- What is noted while `f2` is compared. -/
def hideDiff (_ : ProgSt) (p : Pair) : List Nat × Option Unit × Option Unit :=
  if p = (2, 2) then ([3], some (), some ()) else ([], none, none)

theorem hide_result : ∃ st : MSt ProgSt Unit, compareInlining cfgNone 50 5 hideDiff (fun _ => []) hideInliner
    (hideProg (hideFirst 1 2) (hidePick 0)) (hideProg (hideFirst 2 1) (hidePick 1)) 0 = .ok st ∧ AllEqual st ∧
    st.missing = [] ∧ st.results (3, 3) = none ∧ (∀ f, 3 < f → st.w.L f = none) ∧
    st.w.L 0 = some hideMain ∧ st.w.R 0 = some hideMain ∧ st.w.L 1 = some hideSecond ∧ st.w.R 1 = some hideSecond ∧
    st.w.L 2 = some hideOne ∧ st.w.R 2 = some hideOne := by
  have h0 : compareD cfgNone 50 hideMain hideMain [] = some (true, []) := by decide +kernel
  have h1 : compareD cfgNone 50 hideSecond hideSecond [] = some (true, []) := by decide +kernel
  have h2 : compareD cfgNone 50 (hideFirst 1 2) (hideFirst 2 1) [] = some (false, []) := by decide +kernel
  have h3 : compareD cfgNone 50 (hidePick 0) (hidePick 1) [] = some (false, []) := by decide +kernel
  have h4 : compareD cfgNone 50 hideOne hideOne [] = some (true, []) := by decide +kernel
  have c0 : hideMain.calls = [1, 2] := by decide +kernel
  have c1 : hideSecond.calls = [3] := by decide +kernel
  have c4 : hideOne.calls = [] := by decide +kernel
  have n1 : hideOne ≠ hideFirst 1 2 := by decide +kernel
  have n2 : hideOne ≠ hideFirst 2 1 := by decide +kernel
  have n3 : hideFirst 1 2 ≠ hideFirst 2 1 := by decide +kernel
  have n4 : hideFirst 2 1 ≠ hideFirst 1 2 := by decide +kernel
  refine ⟨⟨fun p => if p = (3, 3) then none else if p = (0, 0) ∨ p = (1, 1) ∨ p = (2, 2) then some .equal else none, [],
    (some (), some ()), ⟨hideProg hideOne (hidePick 0), hideProg hideOne (hidePick 1)⟩,
    [.ran (0, 0) true [(2, 2), (1, 1)], .dropped (2, 2) (3, 3), .ran (2, 2) true [],
        .inlined (2, 2) (some 3, some 3), .ran (2, 2) false [(3, 3)], .ran (1, 1) true [(3, 3)],
        .ran (3, 3) false []]⟩, ?_, ?_, rfl, rfl, ?_, rfl, rfl, rfl, rfl, rfl, rfl⟩
  · simp [compareInlining, compareAll, compareFunctions, runFull, runCmp, inlineEngine, inlineCmp, h0, h1, h2, h3, h4, c0,
      c1, c4, n1, n2, n3, n4, calleesThen, newComparator, emplace, putKind, putVerd, rounds, findCall, tryToInline, dropAll,
      hideInliner, ProgSt.get, ProgSt.put, hideProg, hideDiff]
    refine ⟨?_, ?_, ?_⟩
    · funext p
      by_cases a : p = (0, 0) <;> by_cases b : p = (1, 1) <;> by_cases c : p = (2, 2) <;> by_cases d : p = (3, 3) <;>
        simp_all [putVerd]
    all_goals
      funext f
      unfold hideProg
      by_cases a : f = 0 <;> by_cases b : f = 1 <;> by_cases c : f = 2 <;> simp_all
  · intro p
    dsimp only
    split
    · simp
    · split <;> simp
  · intro f hf
    show hideProg _ _ f = none
    unfold hideProg
    rw [if_neg (by omega), if_neg (by omega), if_neg (by omega), if_neg (by omega)]

/-- The result of `f3` is dropped after it was inlined into `f2`, although `f1` rests on it. -/
theorem C165_fails : ¬ C165_statement := by
  intro h
  obtain ⟨st, hst, he, hm, hn3, hn, l0, r0, l1, r1, l2, r2⟩ := hide_result
  have hv0 : Valid hideMain := ⟨wfB_ok (by decide +kernel), domB_ok (fun _ => []) (by decide +kernel),
    reached_ok (fun _ => []) (by decide +kernel), phisB_ok (by decide +kernel)⟩
  have hv1 : Valid hideSecond := ⟨wfB_ok (by decide +kernel), domB_ok (fun _ => []) (by decide +kernel),
    reached_ok (fun _ => []) (by decide +kernel), phisB_ok (by decide +kernel)⟩
  have hv2 : Valid hideOne := ⟨wfB_ok (by decide +kernel), domB_ok (fun _ => []) (by decide +kernel),
    reached_ok (fun _ => []) (by decide +kernel), phisB_ok (by decide +kernel)⟩
  have hs := h _ _ _ _ _ _ _ _ _ _ st hideInliner_safe ?_ hst he hm
  · obtain ⟨d, hd⟩ := (hs (List (Nat × List (Nat × Option Int))) ⟨fun _ _ => .eq, fun _ _ _ => none, fun _ _ _ => none,
      fun _ _ _ m => (none, m)⟩ [7, 8] [] ([some 7], [])).1 ⟨2, hideMain_returns (.inl rfl) _ 7 8 []⟩
    have := progReturns_unique hd (hideMain_returns (.inr rfl) _ 7 8 [])
    revert this
    decide
  · intro f l r hf hl hr
    rcases (by omega : f = 0 ∨ f = 1 ∨ f = 2 ∨ f = 3 ∨ 3 < f) with rfl | rfl | rfl | rfl | h4
    · rw [l0] at hl; rw [r0] at hr; cases hl; cases hr
      exact .none id rfl hv0 hv0 (noConversions_of (by decide +kernel)) (noConversions_of (by decide +kernel))
        (usedB_ok (by decide +kernel)) (usedB_ok (by decide +kernel)) (equalFlowB_ok (by decide +kernel))
    · rw [l1] at hl; rw [r1] at hr; cases hl; cases hr
      exact .none id rfl hv1 hv1 (noConversions_of (by decide +kernel)) (noConversions_of (by decide +kernel))
        (usedB_ok (by decide +kernel)) (usedB_ok (by decide +kernel)) (equalFlowB_ok (by decide +kernel))
    · rw [l2] at hl; rw [r2] at hr; cases hl; cases hr
      exact .none id rfl hv2 hv2 (noConversions_of (by decide +kernel)) (noConversions_of (by decide +kernel))
        (usedB_ok (by decide +kernel)) (usedB_ok (by decide +kernel)) (equalFlowB_ok (by decide +kernel))
    · exact absurd hn3 hf
    · rw [hn f h4] at hl; cases hl

end DK
