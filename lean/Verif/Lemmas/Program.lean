import Verif.Spec.Program
import Verif.Lemmas.ModCmp
import Verif.Props.ModCmp
import Verif.Props.DiffPhi

/-! Lemmas about the comparison of programs. -/

set_option autoImplicit false

namespace DK

open Spec

/-! ### Machines that agree on the calls of a function -/

/-- Two machines do the same except for calls of other functions than the given ones. -/
structure AgreeOn {Mem : Type} (M M' : DMach Mem) (fs : List Nat) : Prop where
  fcmp : M.fcmp = M'.fcmp
  pur : M.pur = M'.pur
  load : M.load = M'.load
  eff : ∀ c, (∀ f, c = .call f → f ∈ fs) → ∀ ty vals mem, M.eff c ty vals mem = M'.eff c ty vals mem

theorem evalInst_agree {Mem : Type} {M M' : DMach Mem} {fs : List Nat} (h : AgreeOn M M' fs) (env : DEnv) (mem : Mem)
    (i : DInst) (hi : ∀ f, i.code = .call f → f ∈ fs) : evalInst M env mem i = evalInst M' env mem i := by
  unfold evalInst evalCode
  cases hc : i.code with
  | bin o => rfl
  | cmp p => simp only [h.fcmp]
  | cast k => cases k <;> simp only [h.pur]
  | load => simp only [h.load]
  | store => exact h.eff _ (by simp) _ _ _
  | call f => exact h.eff _ (fun g hg => hi g (hc.trans hg)) _ _ _
  | other k => exact h.eff _ (by simp) _ _ _
  | _ => simp only [h.pur]

theorem execBlock_agree {Mem : Type} {M M' : DMach Mem} {fs : List Nat} (h : AgreeOn M M' fs) :
    ∀ (code : List DInst) (env : DEnv) (mem : Mem), (∀ i ∈ code, ∀ f, i.code = .call f → f ∈ fs) →
      execBlock M code env mem = execBlock M' code env mem
  | [], _, _, _ => rfl
  | i :: is, env, mem, hi => by
    have ih := fun env mem => execBlock_agree h is env mem fun j hj => hi j (List.mem_cons_of_mem _ hj)
    have he := evalInst_agree h env mem i (hi i List.mem_cons_self)
    rw [execBlock.eq_def, execBlock.eq_def M']
    simp only [he, ih]

theorem runBlocks_agree {Mem : Type} {M M' : DMach Mem} {f : DFun} (h : AgreeOn M M' f.calls) :
    ∀ (n : Nat) (from_ : Option Nat) (b : Nat) (env : DEnv) (mem : Mem),
      runBlocks M f n from_ b env mem = runBlocks M' f n from_ b env mem
  | 0, _, _, _, _ => rfl
  | n + 1, from_, b, env, mem => by
    unfold runBlocks
    cases hf : f.find b with
    | none => rfl
    | some B =>
      simp only
      rw [execBlock_agree h B.code _ mem]
      · cases execBlock M' B.code (enterBlock from_ B.code env) mem with
        | done v m => rfl
        | goto c e m => exact runBlocks_agree h n _ _ _ _
        | stuck => rfl
      · intro i hi g hg
        unfold DFun.calls
        rw [List.mem_filterMap]
        refine ⟨i, ?_, by rw [hg]⟩
        unfold DFun.find at hf
        exact List.mem_flatMap.2 ⟨B, List.mem_of_find?_eq_some hf, hi⟩

theorem runFun_agree {Mem : Type} {M M' : DMach Mem} {f : DFun} (h : AgreeOn M M' f.calls) (n : Nat) (vals : List Int)
    (mem : Mem) : runFun M f n vals mem = runFun M' f n vals mem := by
  unfold runFun
  cases f.blocks with
  | nil => rfl
  | cons B Bs => exact runBlocks_agree h n _ _ _ _

/-- A call returns exactly what the execution of the body returns. -/
theorem callResult_iff {Mem : Type} (M : DMach Mem) (f : DFun) (vals : List Int) (mem : Mem)
    (res : List (Option Int) × Mem) :
    callResult M f vals mem = some res ↔ ∃ n, runFun M f n vals mem = some res := by
  unfold callResult
  split
  · next h =>
    obtain ⟨n, hn⟩ := h.choose_spec
    constructor
    · intro he
      cases he
      exact ⟨n, hn⟩
    · rintro ⟨m, hm⟩
      rw [run_unique M f hn hm]
  · next h =>
    constructor
    · intro he; cases he
    · rintro ⟨m, hm⟩; exact absurd ⟨res, m, hm⟩ h

theorem callResult_congr {Mem : Type} {M M' : DMach Mem} {f g : DFun} {vals : List Int} {mem : Mem}
    (h : ∀ res, (∃ n, runFun M f n vals mem = some res) ↔ ∃ n, runFun M' g n vals mem = some res) :
    callResult M f vals mem = callResult M' g vals mem :=
  Option.ext fun res => by rw [callResult_iff, callResult_iff]; exact h res

/-! ### Programs whose functions do the same -/

/-- A set of functions that is closed under calls, where both programs have a body or none has, and the
bodies do the same if calls do. -/
structure SameBodies (PL PR : DProg) (S : Nat → Prop) : Prop where
  both : ∀ f, S f → (PL f).isNone = (PR f).isNone
  same : ∀ f l r, S f → PL f = some l → PR f = some r → SameResults l r
  calls : ∀ f l, S f → PL f = some l → ∀ g ∈ l.calls, S g

theorem callMach_agree {Mem : Type} {PL PR : DProg} {S : Nat → Prop} (h : SameBodies PL PR S) (M : DMach Mem)
    (cl cr : DFun → List Int → Mem → Option (List (Option Int) × Option Mem)) {fs : List Nat} (hfs : ∀ f ∈ fs, S f)
    (hc : ∀ f l r, S f → PL f = some l → PR f = some r → ∀ args m, cl l args m = cr r args m) :
    AgreeOn (callMach PL M cl) (callMach PR M cr) fs := by
  refine ⟨rfl, rfl, rfl, ?_⟩
  intro c hcf ty vals mem
  cases mem with
  | none => rfl
  | some m =>
    cases c with
    | call f =>
      have hs := hfs f (hcf f rfl)
      have hb := h.both f hs
      simp only [callMach]
      cases hl : PL f with
      | none =>
        rw [hl] at hb
        cases hr : PR f with
        | none => rfl
        | some r => rw [hr] at hb; cases hb
      | some l =>
        rw [hl] at hb
        cases hr : PR f with
        | none => rw [hr] at hb; cases hb
        | some r =>
          simp only
          rw [funext fun args => hc f l r hs hl hr args m]
    | _ => rfl

theorem progMach_agree {Mem : Type} {PL PR : DProg} {S : Nat → Prop} (h : SameBodies PL PR S) (M : DMach Mem) :
    ∀ (d : Nat) (fs : List Nat), (∀ f ∈ fs, S f) → AgreeOn (progMach PL M d) (progMach PR M d) fs
  | 0, fs, hfs => callMach_agree h M _ _ hfs fun _ _ _ _ _ _ _ _ => rfl
  | d + 1, fs, hfs => by
    refine callMach_agree h M _ _ hfs ?_
    intro f l r hs hl hr args m
    refine callResult_congr fun res => ?_
    have ha := progMach_agree h M d l.calls (h.calls f l hs hl)
    rw [← h.same f l r hs hl hr]
    simp only [runFun_agree ha]

/-- Functions of such a set do the same in both programs, with the same depth of calls. -/
theorem sameBodies_returns {PL PR : DProg} {S : Nat → Prop} (h : SameBodies PL PR S) {f : Nat} (hs : S f) {Mem : Type}
    (M : DMach Mem) (d : Nat) (vals : List Int) (mem : Mem) (res : List (Option Int) × Mem) :
    ProgReturns PL M d f vals mem res ↔ ProgReturns PR M d f vals mem res := by
  have hb := h.both f hs
  unfold ProgReturns
  cases hl : PL f with
  | none =>
    rw [hl] at hb
    cases hr : PR f with
    | none => simp
    | some r => rw [hr] at hb; cases hb
  | some l =>
    rw [hl] at hb
    cases hr : PR f with
    | none => rw [hr] at hb; cases hb
    | some r =>
      have ha := progMach_agree h M d l.calls (h.calls f l hs hl)
      have := h.same f l r hs hl hr _ (progMach PR M d) vals (some mem) (res.1, some res.2)
      constructor
      · rintro ⟨g, n, hg, hn⟩
        cases hg
        obtain ⟨m, hm⟩ := this.1 ⟨n, by rw [← runFun_agree ha]; exact hn⟩
        exact ⟨r, m, rfl, hm⟩
      · rintro ⟨g, n, hg, hn⟩
        cases hg
        obtain ⟨m, hm⟩ := this.2 ⟨n, hn⟩
        exact ⟨l, m, rfl, by rw [runFun_agree ha]; exact hm⟩

/-! ### What the comparison of programs records -/

variable {cfg : DCfg} {steps : Nat} {seen : Pair → List Nat} {names : Nat → Str} {PL PR : DProg}

theorem progEngine_off : NoInlining (progEngine cfg steps seen names PL PR) := ⟨rfl, fun _ _ => rfl⟩

/-- A run that found no difference compared the original bodies and met all called functions. -/
def RanOk (cfg : DCfg) (steps : Nat) (PL PR : DProg) (p : Pair) (cs : List Pair) : Prop :=
  ∃ l r sw, PL p.1 = some l ∧ PR p.2 = some r ∧ compareD cfg steps l r [] = some (true, sw) ∧
    ∀ g ∈ l.calls, (g, g) ∈ cs

/-- The invariant. -/
structure PrInv (cfg : DCfg) (steps : Nat) (PL PR : DProg) (st : MSt Swaps Unit) : Prop where
  ran : ∀ p cs, Ev.ran p true cs ∈ st.log → RanOk cfg steps PL PR p cs
  miss : ∀ f, st.results (f, f) = some .assumedEqual → (PL f).isNone ≠ (PR f).isNone → st.missing ≠ []
  swaps : ∀ f, st.w f ≠ [] → st.results (f, f) ≠ none

/-- Results and missing definitions stay. -/
structure Keeps (st st' : MSt Swaps Unit) : Prop where
  results : ∀ q, st.results q ≠ none → st'.results q ≠ none

theorem Keeps.trans {a b c : MSt Swaps Unit} (h : Keeps a b) (h' : Keeps b c) : Keeps a c :=
  ⟨fun q hq => h'.results q (h.results q hq)⟩

def PrRec (cfg : DCfg) (steps : Nat) (PL PR : DProg) (rec : Pair → MSt Swaps Unit → Except Stop (MSt Swaps Unit)) :
    Prop :=
  ∀ f st st', PrInv cfg steps PL PR st → st.results (f, f) = none → rec (f, f) st = .ok st' →
    PrInv cfg steps PL PR st' ∧ Keeps st st'

theorem runCmp_callees {rec : Pair → MSt Swaps Unit → Except Stop (MSt Swaps Unit)} (hrec : PrRec cfg steps PL PR rec)
    {f : Nat} {eq : Bool} {k : Swaps → Swaps} (hk : ∀ w g, g ≠ f → k w g = w g) (done : List Nat)
    (hd : eq = true → ∃ l r sw, PL f = some l ∧ PR f = some r ∧ compareD cfg steps l r [] = some (true, sw) ∧
      ∀ g ∈ l.calls, g ∈ done) :
    ∀ (fs : List Nat) (cs : List Pair) (w : Swaps) (st st' : MSt Swaps Unit) (eq' : Bool),
      PrInv cfg steps PL PR st → st.results (f, f) ≠ none → (∀ g, w g ≠ [] → st.results (g, g) ≠ none) →
      (∀ g ∈ done, g ∈ fs ∨ (g, g) ∈ cs) →
      runCmp rec (f, f) (calleeRun fs (fun w => .done eq (k w)) w) cs st = .ok (eq', st') →
      PrInv cfg steps PL PR st' ∧ Keeps st st'
  | [], cs, w, st, st', eq', hi, hp, hw, hds, h => by
    simp only [calleeRun, runCmp] at h
    cases h
    refine ⟨⟨?_, hi.miss, ?_⟩, ⟨fun q hq => hq⟩⟩
    · intro p cs' hm
      rcases List.mem_cons.1 hm with hm | hm
      · cases hm
        obtain ⟨l, r, sw, h1, h2, h3, h4⟩ := hd rfl
        exact ⟨l, r, sw, h1, h2, h3, fun g hg => (hds g (h4 g hg)).resolve_left (by simp)⟩
      · exact hi.ran p cs' hm
    · intro g hg
      by_cases hgf : g = f
      · subst hgf; exact hp
      · exact hw g (by rw [← hk w g hgf]; exact hg)
  | g :: fs, cs, w, st, st', eq', hi, hp, hw, hds, h => by
    simp only [calleeRun, runCmp] at h
    cases hp0 : st.results (f, f) with
    | none => exact absurd hp0 hp
    | some x =>
      rw [hp0] at h
      simp only at h
      have hi0 : PrInv cfg steps PL PR { st with w := w } := ⟨hi.ran, hi.miss, hw⟩
      have hds' : ∀ g' ∈ done, g' ∈ fs ∨ (g', g') ∈ (g, g) :: cs := by
        intro g' hg'
        rcases hds g' hg' with h | h
        · rcases List.mem_cons.1 h with rfl | h
          · exact .inr (by simp)
          · exact .inl h
        · exact .inr (List.mem_cons_of_mem _ h)
      cases hq : st.results (g, g) with
      | some y =>
        rw [hq] at h
        obtain ⟨i1, k1⟩ := runCmp_callees hrec hk done hd fs _ w { st with w := w } st' eq' hi0 hp hw hds' h
        exact ⟨i1, ⟨k1.results⟩⟩
      | none =>
        rw [hq] at h
        simp only at h
        cases hr : rec (g, g) { st with w := w } with
        | error s => rw [hr] at h; cases h
        | ok st1 =>
          rw [hr] at h
          simp only at h
          obtain ⟨i1, k1⟩ := hrec g _ st1 hi0 hq hr
          obtain ⟨i2, k2⟩ := runCmp_callees hrec hk done hd fs _ st1.w st1 st' eq' i1 (k1.results _ hp) i1.swaps hds' h
          exact ⟨i2, ⟨fun q hq => k2.results q (k1.results q hq)⟩⟩

theorem putKind_pr {f : Nat} {v : Verd} {st st' : MSt Swaps Unit} (hi : PrInv cfg steps PL PR st)
    (hv : v = .assumedEqual → (PL f).isNone ≠ (PR f).isNone → st.missing ≠ [])
    (h : putKind (f, f) v st = .ok st') : PrInv cfg steps PL PR st' ∧ Keeps st st' := by
  obtain ⟨_, rfl⟩ := putKind_ok h
  refine ⟨⟨hi.ran, ?_, ?_⟩, ⟨fun q hq => putVerd_some hq⟩⟩
  · intro g hg hne
    by_cases hgf : g = f
    · subst hgf
      replace hg : putVerd st.results (g, g) (some v) (g, g) = some .assumedEqual := hg
      rw [putVerd_self] at hg
      exact hv (Option.some.inj hg) hne
    · replace hg : putVerd st.results (f, f) (some v) (g, g) = some .assumedEqual := hg
      rw [putVerd_ne (by simpa using hgf)] at hg
      exact hi.miss g hg hne
  · intro g hg
    exact putVerd_some (hi.swaps g hg)

theorem declVerdict_missing {l r : FunHead} {p : Pair} (hn : l.name = r.name) (hd : l.isDecl ≠ r.isDecl) :
    (declVerdict false l r p).2 ≠ [] := by
  unfold declVerdict
  rw [hn]
  cases hl : l.isDecl <;> cases hr : r.isDecl <;> simp [hl, hr] at hd ⊢

theorem compareFunctions_pr : ∀ n, PrRec cfg steps PL PR
    (compareFunctions (progEngine cfg steps seen names PL PR) n)
  | 0 => by intro f st st' _ _ h; rw [compareFunctions] at h; cases h
  | n + 1 => by
    intro f st st' hi hnone h
    have hrec := compareFunctions_pr n
    rw [compareFunctions] at h
    have hw : st.w f = [] := by
      by_contra hne
      exact hi.swaps f hne hnone
    have he : emplace (f, f) st = { st with results := putVerd st.results (f, f) (some .unknown) } := by
      unfold emplace; rw [hnone]
    rw [he] at h
    have i0 : PrInv cfg steps PL PR { st with results := putVerd st.results (f, f) (some .unknown) } := by
      refine ⟨hi.ran, ?_, fun g hg => putVerd_some (hi.swaps g hg)⟩
      intro g hg hne
      by_cases hgf : g = f
      · subst hgf
        replace hg : putVerd st.results (g, g) (some .unknown) (g, g) = some .assumedEqual := hg
        rw [putVerd_self] at hg; cases hg
      · replace hg : putVerd st.results (f, f) (some .unknown) (g, g) = some .assumedEqual := hg
        rw [putVerd_ne (by simpa using hgf)] at hg
        exact hi.miss g hg hne
    have k0 : Keeps st { st with results := putVerd st.results (f, f) (some .unknown) } :=
      ⟨fun q hq => putVerd_some hq⟩
    have hp0 : ({ st with results := putVerd st.results (f, f) (some .unknown) } : MSt Swaps Unit).results (f, f) ≠ none := by
      show putVerd st.results (f, f) (some .unknown) (f, f) ≠ none
      rw [putVerd_self]; simp
    have hw0 : ({ st with results := putVerd st.results (f, f) (some .unknown) } : MSt Swaps Unit).w f = [] := hw
    generalize ({ st with results := putVerd st.results (f, f) (some .unknown) } : MSt Swaps Unit) = st0 at *
    simp only at h
    split at h
    · rename_i hc; cases hc
    · split at h
      · cases hk : putKind (f, f) (declVerdict (progEngine cfg steps seen names PL PR).controlFlowOnly
            ((progEngine cfg steps seen names PL PR).info true f) ((progEngine cfg steps seen names PL PR).info false f)
            (f, f)).1 st0 with
        | error s => rw [hk] at h; cases h
        | ok st1 =>
          rw [hk] at h
          cases h
          obtain ⟨_, rfl⟩ := putKind_ok hk
          refine ⟨⟨i0.ran, ?_, fun g hg => putVerd_some (i0.swaps g hg)⟩, k0.trans ⟨fun q hq => putVerd_some hq⟩⟩
          intro g hg hne
          by_cases hgf : g = f
          · subst hgf
            have : (declVerdict (progEngine cfg steps seen names PL PR).controlFlowOnly
              ((progEngine cfg steps seen names PL PR).info true g)
              ((progEngine cfg steps seen names PL PR).info false g) (g, g)).2 ≠ [] := by
              exact declVerdict_missing rfl hne
            simp [this]
          · replace hg : putVerd st0.results (f, f) _ (g, g) = some .assumedEqual := hg
            rw [putVerd_ne (by simpa using hgf)] at hg
            have := i0.miss g hg hne
            simp [this]
      · rename_i hd
        cases hf : runFull (progEngine cfg steps seen names PL PR)
            (compareFunctions (progEngine cfg steps seen names PL PR) n) (f, f) st0 with
        | error s => rw [hf] at h; cases h
        | ok x =>
          obtain ⟨eq, st1⟩ := x
          rw [hf] at h
          have i1 : PrInv cfg steps PL PR st1 ∧ Keeps st0 st1 := by
            unfold runFull at hf
            cases hr : runCmp (compareFunctions (progEngine cfg steps seen names PL PR) n) (f, f)
                ((progEngine cfg steps seen names PL PR).cmp st0.w (f, f)) [] st0 with
            | error s => rw [hr] at hf; cases hf
            | ok y =>
              obtain ⟨eq', st2⟩ := y
              rw [hr] at hf
              simp only at hf
              cases h2 : st2.results (f, f) with
              | none => rw [h2] at hf; cases hf
              | some v =>
                rw [h2] at hf
                cases hf
                have hput : ∀ sw : List Nat, ∀ (w : Swaps) (g : Nat), g ≠ f → w.put f sw g = w g :=
                  fun sw w g hg => if_neg hg
                have triv : (false : Bool) = true → ∃ l r sw, PL f = some l ∧ PR f = some r ∧
                  compareD cfg steps l r [] = some (true, sw) ∧ ∀ g ∈ l.calls, g ∈ ([] : List Nat) := fun h => (nomatch h)
                have hstop : ∀ {eq' st2}, runCmp (compareFunctions (progEngine cfg steps seen names PL PR) n) (f, f)
                    (.done false st0.w) [] st0 = .ok (eq', st2) → PrInv cfg steps PL PR st2 ∧ Keeps st0 st2 := by
                  intro eq' st2 hr
                  exact runCmp_callees hrec (k := fun w => w) (fun w g _ => rfl) [] triv [] [] st0.w st0 _ _ i0 hp0
                    i0.swaps (by simp) hr
                simp only [progEngine, progCmp] at hr
                cases hl : PL f with
                | none => rw [hl] at hr; exact hstop hr
                | some l =>
                  cases hrr : PR f with
                  | none => rw [hl, hrr] at hr; exact hstop hr
                  | some r =>
                    rw [hl, hrr] at hr
                    simp only [hw0] at hr
                    cases hcd : compareD cfg steps l r [] with
                    | none => rw [hcd] at hr; exact hstop hr
                    | some z =>
                      obtain ⟨b, sw⟩ := z
                      rw [hcd] at hr
                      cases b with
                      | true =>
                        exact runCmp_callees hrec (hput sw) l.calls
                          (fun _ => ⟨l, r, sw, hl, hrr, hcd, fun g hg => hg⟩) l.calls [] st0.w st0 _ _ i0 hp0 i0.swaps
                          (fun g hg => .inl hg) hr
                      | false =>
                        exact runCmp_callees hrec (hput sw) [] triv (seen (f, f)) [] st0.w st0 _ _ i0 hp0 i0.swaps
                          (by simp) hr
          cases eq with
          | true =>
            simp only at h
            obtain ⟨i2, k2⟩ := putKind_pr (v := .equal) i1.1 (fun h => (nomatch h)) h
            exact ⟨i2, k0.trans (i1.2.trans k2)⟩
          | false =>
            simp only at h
            cases hk : putKind (f, f) .notEqual st1 with
            | error s => rw [hk] at h; cases h
            | ok st2 =>
              rw [hk] at h
              simp only at h
              obtain ⟨i2, k2⟩ := putKind_pr (v := .notEqual) i1.1 (fun h => (nomatch h)) hk
              cases n with
              | zero => rw [rounds] at h; cases h
              | succ m =>
                rw [rounds_off progEngine_off] at h
                cases h
                exact ⟨i2, k0.trans (i1.2.trans k2)⟩

theorem lastRun_mem {p : Pair} {eq : Bool} {cs : List Pair} : ∀ {log : List Ev},
    lastRun p log = some (eq, cs) → .ran p eq cs ∈ log
  | [], h => by cases h
  | .ran q e c :: l, h => by
    rw [lastRun] at h
    split at h
    · next hq => cases h; subst hq; exact List.mem_cons_self
    · exact List.mem_cons_of_mem _ (lastRun_mem h)
  | .inlined _ _ :: l, h => List.mem_cons_of_mem _ (lastRun_mem h)
  | .dropped _ _ :: l, h => List.mem_cons_of_mem _ (lastRun_mem h)

theorem sameName_refl (h : FunHead) {h' : FunHead} (e : h.name = h'.name) : SameName h h' := by
  rw [sameName_iff, e]

/-- If nothing is different and no definition is missing, the recorded functions are as required. -/
theorem comparePrograms_same {n main : Nat} {st : MSt Swaps Unit}
    (h : comparePrograms cfg steps n seen names PL PR main = .ok st) (heq : AllEqual st) (hm : st.missing = [])
    (hs : ∀ f l r, st.results (f, f) ≠ none → PL f = some l → PR f = some r →
      ∀ sw, compareD cfg steps l r [] = some (true, sw) → SameResults l r) :
    SameBodies PL PR (fun f => st.results (f, f) ≠ none) ∧ st.results (main, main) ≠ none := by
  have hrel := C82_recorded_partial _ progEngine_off _ _ _ _ h
  unfold comparePrograms at h
  obtain ⟨hinv, _, hhave⟩ := compareAll_inv _ _ _ _ _ (newComparator_inv _ _) h
  have hpr : PrInv cfg steps PL PR st := by
    rw [compareAll] at h
    cases hk : compareFunctions (progEngine cfg steps seen names PL PR) n (main, main) (newComparator fun _ => []) with
    | error s => rw [hk] at h; cases h
    | ok st1 =>
      rw [hk] at h
      cases h
      exact (compareFunctions_pr n main _ _ ⟨fun p cs hm => (by cases hm), fun f hf => (by cases hf),
        fun f hf => absurd rfl hf⟩ rfl hk).1
  have hjust : ∀ f v, st.results (f, f) = some v →
      ((PL f).isNone = true ∨ (PR f).isNone = true) ∧ v = .assumedEqual ∨
      ∃ l r, PL f = some l ∧ PR f = some r ∧ ∃ cs, lastRun (f, f) st.log = some (true, cs) := by
    intro f v hv
    have hj := hinv.just (f, f) v (by simp) hv
    unfold Justified at hj
    rw [if_neg (by simp [progEngine])] at hj
    split at hj
    · next hd =>
      left
      refine ⟨hd, ?_⟩
      rcases hj with hj | hj
      · exact hj.1
      · exact absurd (sameName_refl _ rfl) hj.2
    · next hd =>
      right
      have hd' : ¬((PL f).isNone = true ∨ (PR f).isNone = true) := hd
      cases hl : PL f with
      | none => simp [hl] at hd'
      | some l =>
        cases hr : PR f with
        | none => simp [hr] at hd'
        | some r =>
          rcases hj with hj | hj
          · exact ⟨l, r, rfl, rfl, hj.2⟩
          · rw [hj.1] at hv
            exact absurd hv (heq _)
  refine ⟨⟨?_, ?_, ?_⟩, ?_⟩
  · intro f hf
    obtain ⟨v, hv⟩ := Option.ne_none_iff_exists'.1 hf
    rcases hjust f v hv with ⟨_, rfl⟩ | ⟨l, r, hl, hr, _⟩
    · by_contra hne
      exact hpr.miss f hv hne hm
    · rw [hl, hr]; rfl
  · intro f l r hf hl hr
    obtain ⟨v, hv⟩ := Option.ne_none_iff_exists'.1 hf
    rcases hjust f v hv with ⟨hd, _⟩ | ⟨l', r', _, _, cs, hcs⟩
    · rw [hl, hr] at hd; simp at hd
    · obtain ⟨l', r', sw, h1, h2, h3, _⟩ := hpr.ran _ _ (lastRun_mem hcs)
      rw [hl] at h1; rw [hr] at h2
      cases h1; cases h2
      exact hs f _ _ hf hl hr sw h3
  · intro f l hf hl g hg
    obtain ⟨v, hv⟩ := Option.ne_none_iff_exists'.1 hf
    rcases hjust f v hv with ⟨hd, rfl⟩ | ⟨l', r', _, _, cs, hcs⟩
    · exfalso
      refine hpr.miss f hv ?_ hm
      rw [hl] at hd ⊢
      rcases hd with hd | hd
      · cases hd
      · rw [hd]; simp
    · obtain ⟨l', r', sw, h1, h2, h3, h4⟩ := hpr.ran _ _ (lastRun_mem hcs)
      rw [hl] at h1; cases h1
      exact hrel (g, g) ⟨(f, f), true, cs, hf, hcs, h4 g hg⟩
  · rcases hhave (main, main) (by simp) with h1 | h1
    · exact h1
    · exfalso
      have h0 := h
      obtain ⟨x, hx⟩ := h1
      rw [compareAll] at h0
      cases hk : compareFunctions (progEngine cfg steps seen names PL PR) n (main, main) (newComparator fun _ => []) with
      | error s => rw [hk] at h0; cases h0
      | ok st1 =>
        rw [hk] at h0
        cases h0
        obtain ⟨y, hy⟩ := compareFunctions_noDrop progEngine_off n _ _ _ hk _ ⟨x, hx⟩
        cases hy

end DK
