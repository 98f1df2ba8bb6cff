import Verif.Lemmas.Compare
import Verif.Props.Entries

/-! C03, C21: which functions have results after a comparison of snapshots. -/

set_option autoImplicit false

namespace DK
open Spec

/-! ### Facts about results of `functions_diff` -/

theorem compareObjs_keeps {env : FDEnv} {acc : PairAcc} (P : Res → Prop) (hadd : ∀ r x, P r → P (r.addInner x)) :
    ∀ (os : List Obj) (r : Res), P r → P (compareObjs env acc r os).1
  | [], r, h => by simpa [compareObjs] using h
  | o :: os, r, h => by
    unfold compareObjs
    cases objKind env o with
    | error x => exact h
    | ok k =>
      simp only
      cases objDiff env acc k o with
      | error x => exact h
      | ok d =>
        simp only
        split
        · exact compareObjs_keeps P hadd os r h
        · exact compareObjs_keeps P hadd os _ (hadd _ _ h)

/-- Properties kept by all operations on results. -/
theorem functionsDiff_keeps {env : FDEnv} {f1 f2 : Str} {prev : Option Graph} {fuel : Nat} {st st' : FDState} {res : Res}
    (h : functionsDiff env f1 f2 prev fuel st = some (st', .ok res)) (P : Res → Prop) (h0 : P (Res.new .none f1 f2))
    (hadd : ∀ r x, P r → P (r.addInner x)) (hkind : ∀ r k, P r → P (r.setKind k)) (hgraph : ∀ r g, P r → P (r.setGraph g)) :
    P res := by
  have hw : ∀ (st1 : FDState) (r : Res) (e : Except PyErr Unit), P r → wrapUp st1 prev r e = .ok res → P res := by
    intro st1 r e hr hw
    unfold wrapUp at hw
    rcases e with x | u
    · cases x <;> simp at hw
      all_goals subst hw; exact hgraph _ _ (hkind _ _ hr)
    · simp at hw; subst hw; exact hgraph _ _ hr
  rcases functionsDiff_cases h with ⟨x, _, h2⟩ | ⟨st1, g, _, _, h2, h3⟩
  · exact hw _ _ _ h0 h2.symm
  · refine hw _ _ _ ?_ h3.symm
    unfold finishDiff
    cases funPairList env.enum st1.heap g f1 f2 env.full with
    | error x => exact h0
    | ok acc =>
      simp only
      cases acc.objs with
      | nil => exact hkind _ _ h0
      | cons o os => exact compareObjs_keeps P hadd _ _ h0

theorem functionsDiff_name {env : FDEnv} {f1 f2 : Str} {prev : Option Graph} {fuel : Nat} {st st' : FDState} {res : Res}
    (h : functionsDiff env f1 f2 prev fuel st = some (st', .ok res)) : res.first.name = f1 ∧ res.second.name = f2 := by
  refine functionsDiff_keeps h (fun r => r.first.name = f1 ∧ r.second.name = f2) ⟨rfl, rfl⟩ ?_ ?_ ?_
  · intro r x hr; exact hr
  · intro r x hr; exact hr
  · intro r x hr; exact hr

/-- Inner results are stored under their names. -/
def Spec.Keyed (r : Res) : Prop := (Dict.keys r.inner).Nodup ∧ ∀ a ∈ r.inner, a.2.first.name = a.1

theorem keyed_addInner {r x : Res} (h : Keyed r) : Keyed (r.addInner x) := by
  refine ⟨Dict.nodup_keys_set h.1 _ _, ?_⟩
  intro a ha
  have ha : a ∈ Dict.set r.inner x.first.name x := ha
  rw [Dict.mem_set h.1] at ha
  rcases ha with rfl | ha
  · rfl
  · exact h.2 a ha.1

theorem functionsDiff_keyed {env : FDEnv} {f1 f2 : Str} {prev : Option Graph} {fuel : Nat} {st st' : FDState} {res : Res}
    (h : functionsDiff env f1 f2 prev fuel st = some (st', .ok res)) : Keyed res := by
  refine functionsDiff_keeps h Keyed ⟨by simp [Res.new, Res.inner, Dict.keys], by simp [Res.new, Res.inner]⟩ ?_ ?_ ?_
  · intro r x hr; exact keyed_addInner hr
  · intro r x hr; exact hr
  · intro r x hr; exact hr

/-- Everything in the log was returned by the environment. -/
def FromEnv {σ : Type} (env : CmpEnv σ) (log : List Compared) : Prop :=
  ∀ c ∈ log, ∃ w, c.out = (env.diff c.group c.name c.old c.new c.prev w).2

theorem ownResult_name {σ : Type} {env : CmpEnv σ} (hd : RunsFunctionsDiff env) {log : List Compared} (hl : FromEnv env log)
    {regex : Option (Str → Bool)} {first second : FunGroups} {g : Option Str}
    {f : Str} {r : Res} (h : OwnResult log regex first second g f r) : r.first.name = f := by
  obtain ⟨old, new, _, _, ⟨_, rfl⟩ | ⟨_, _, prev, res, hr, hf⟩⟩ := h
  · rfl
  · rw [(filtered_graph hf).2.1]
    obtain ⟨w, hw⟩ := hl _ hr
    obtain ⟨fenv, fuel, st, st', _, hr⟩ := hd _ _ _ _ _ _ _ hw.symm
    exact (functionsDiff_name hr).1

theorem ownResult_keyed {σ : Type} {env : CmpEnv σ} (hd : RunsFunctionsDiff env) {log : List Compared} (hl : FromEnv env log)
    {regex : Option (Str → Bool)} {first second : FunGroups} {g : Option Str}
    {f : Str} {r : Res} (h : OwnResult log regex first second g f r) : Keyed r := by
  obtain ⟨old, new, _, _, ⟨_, rfl⟩ | ⟨_, _, prev, res, hr, hf⟩⟩ := h
  · exact ⟨by simp [Res.new, Res.inner, Dict.keys], by simp [Res.new, Res.inner]⟩
  · unfold Keyed
    rw [(filtered_graph hf).2.2]
    obtain ⟨w, hw⟩ := hl _ hr
    obtain ⟨fenv, fuel, st, st', _, hr⟩ := hd _ _ _ _ _ _ _ hw.symm
    exact functionsDiff_keyed hr

theorem ownResult_mono {log log' : List Compared} {regex : Option (Str → Bool)} {first second : FunGroups} {g : Option Str}
    {f : Str} {r : Res} (h : OwnResult log regex first second g f r) (hs : ∀ c ∈ log, c ∈ log') :
    OwnResult log' regex first second g f r := by
  obtain ⟨old, new, h1, h2, h3 | ⟨h3, h4, prev, res, hr, hf⟩⟩ := h
  · exact ⟨old, new, h1, h2, Or.inl h3⟩
  · exact ⟨old, new, h1, h2, Or.inr ⟨h3, h4, prev, res, hs _ hr, hf⟩⟩

/-- `compareFun_cases` with the log. -/
theorem compareFun_logged {σ : Type} {env : CmpEnv σ} {second : FunGroups} {g : Option Str} {f : Str} {old : FunDesc}
    {st st' : CmpState (σ × List Compared)} (h : compareFun (logged env) second g f old st = .ok st') :
    (second.getByName f g = none ∧ st' = st) ∨
    ∃ new, second.getByName f g = some new ∧
      (((old.mod = none ∨ new.mod = none) ∧ st'.result = st.result.addInner (Res.new .unknown f f) ∧ st'.world = st.world ∧
          st'.graph = st.graph ∧ ∃ hdr, (∀ o ∈ hdr, ∃ n, o = .groupName n) ∧ st'.outs = st.outs ++ hdr ++ [.status f .unknown]) ∨
       (old.mod ≠ none ∧ new.mod ≠ none ∧ ∃ res res', (env.diff g f old new st.graph st.world.1).2 = .ok res ∧
          Filtered env.regex res res' ∧ st'.result = st.result.addInner res' ∧
          st'.world.2 = st.world.2 ++ [⟨g, f, old, new, st.graph, .ok res⟩] ∧ st'.graph = res.graph ∧
          ∃ hdr os, (∀ o ∈ hdr, ∃ n, o = .groupName n) ∧ Reported env g f res' os ∧ st'.outs = st.outs ++ hdr ++ os)) := by
  rcases compareFun_cases h with h1 | ⟨new, h1, h2 | ⟨hm1, hm2, res, res', hd, hf, hr, hw, hg, ho⟩⟩
  · exact Or.inl h1
  · exact Or.inr ⟨new, h1, Or.inl h2⟩
  · refine Or.inr ⟨new, h1, Or.inr ⟨hm1, hm2, res, res', hd, regexFilter_filtered hf, hr, ?_, hg, ho⟩⟩
    rw [hw]
    have hd' : (env.diff g f old new st.graph st.world.1).2 = .ok res := hd
    show st.world.2 ++ [(⟨g, f, old, new, st.graph, (env.diff g f old new st.graph st.world.1).2⟩ : Compared)] = _
    rw [hd']

/-- Comparing one function adds its own result, if it is in both snapshots. -/
theorem compareFun_own {σ : Type} {env : CmpEnv σ} {first second : FunGroups} {g : Option Str} {f : Str} {old : FunDesc}
    {st st' : CmpState (σ × List Compared)} (ho : first.getByName f g = some old)
    (h : compareFun (logged env) second g f old st = .ok st') :
    (second.getByName f g = none ∧ st' = st) ∨
    ((second.getByName f g).isSome ∧ (∀ c ∈ st.world.2, c ∈ st'.world.2) ∧ (FromEnv env st.world.2 → FromEnv env st'.world.2) ∧
      ∃ r, OwnResult st'.world.2 env.regex first second g f r ∧ st'.result = st.result.addInner r) := by
  rcases compareFun_logged h with ⟨h1, h2⟩ | ⟨new, h1, ⟨hm, hr, hw, _⟩ | ⟨hm1, hm2, res, res', hd, hf, hr, hw, _⟩⟩
  · exact Or.inl ⟨h1, h2⟩
  · exact Or.inr ⟨by simp [h1], by rw [hw]; exact fun c hc => hc, by rw [hw]; exact fun h => h, _, ⟨old, new, ho, h1, Or.inl ⟨hm, rfl⟩⟩, hr⟩
  · refine Or.inr ⟨by simp [h1], ?_, ?_, res', ⟨old, new, ho, h1, Or.inr ⟨hm1, hm2, st.graph, res, ?_, hf⟩⟩, hr⟩
    · rw [hw]; exact fun c hc => List.mem_append_left _ hc
    · intro hl c hc
      rw [hw] at hc
      rcases List.mem_append.1 hc with hc | hc
      · exact hl c hc
      · rw [List.mem_singleton] at hc
        subst hc
        exact ⟨_, hd.symm⟩
    · rw [hw]; simp

/-! ### C03 -/

/-- **C03** as stated: every function of both snapshots has its own result in the overall result, and no other has one. -/
def C03_statement : Prop :=
  ∀ (σ : Type) (env : CmpEnv σ) (dir : Str) (first second : FunGroups) (w : σ) (st : CmpState (σ × List Compared)),
    RunsFunctionsDiff env → ProperGroups first → compareSnapshots (logged env) dir first second (w, []) = .ok st →
    (∀ f, f ∈ Dict.keys st.result.inner ↔ ∃ g, InBoth first second g f) ∧
    ∀ g f, InBoth first second g f → ∃ r, Dict.get? st.result.inner f = some r ∧ OwnResult st.world.2 env.regex first second g f r

/-- A comparison whose functions are compared with a fixed environment and starting state. -/
def toolEnv (fenv : FDEnv) (st : FDState) (regex : Option (Str → Bool)) (showDiff toDir : Bool) : CmpEnv Unit where
  diff _ f _ _ prev _ := ((), match functionsDiff fenv f f prev 5 st with | some (_, out) => out | none => .error .exit)
  newGroup _ := ()
  regex := regex
  full := fenv.full
  showDiff := showDiff
  toDir := toDir

theorem toolEnv_runs (fenv : FDEnv) (st : FDState) (regex : Option (Str → Bool)) (showDiff toDir : Bool) :
    RunsFunctionsDiff (toolEnv fenv st regex showDiff toDir) := by
  intro g f old new prev w res h
  unfold toolEnv at h
  simp only at h
  cases hf : functionsDiff fenv f f prev 5 st with
  | none => rw [hf] at h; simp at h
  | some x =>
    obtain ⟨st', out⟩ := x
    rw [hf] at h
    simp only at h
    subst h
    exact ⟨fenv, 5, st, st', rfl, hf⟩

namespace CmpEx
/-- An engine that always fails. -/
def failing : FDEnv where
  engine _ _ _ _ := .error .simpll
  snapLookup _ _ _ := none
  srcLookup _ := none
  linkOk _ := false
  semdiff := none
  syntaxDiff _ := .ok []
  enum := id
  full := false

def state : FDState := LinkEx.state

/-- A function with a module and one without. -/
def desc : FunDesc := ⟨some (str! "a.ll"), none, none⟩
def noMod : FunDesc := ⟨none, none, none⟩

/-- The same function in two groups, in the first one without a module. -/
def two : FunGroups := [(some (str! "a"), [(str! "f", noMod)]), (some (str! "b"), [(str! "f", desc)])]
end CmpEx

theorem properGroups_of_decide {s : FunGroups} (h : (Dict.keys s).Nodup ∧ ∀ a ∈ s, (Dict.keys a.2).Nodup) : ProperGroups s := h

/-- **C03 (violated)** Results of functions with the same name in different groups (of sysctls) overwrite each other. -/
theorem C03_fails : ¬ C03_statement := by
  intro h
  have hrun : ∃ st, compareSnapshots (logged (toolEnv CmpEx.failing CmpEx.state none false false)) [] CmpEx.two CmpEx.two ((), []) = .ok st ∧
      ∃ r, Dict.get? st.result.inner (str! "f") = some r ∧ r.kind = .error := ⟨_, rfl, _, rfl, rfl⟩
  obtain ⟨st, hr, r, hg, hk⟩ := hrun
  obtain ⟨_, h2⟩ := h Unit _ _ _ _ _ _ (toolEnv_runs _ _ _ _ _) (properGroups_of_decide (by decide)) hr
  obtain ⟨r', hg', old, new, ho, hn, hcase⟩ := h2 (some (str! "a")) (str! "f") ⟨by decide, by decide⟩
  rw [hg] at hg'
  cases hg'
  rw [show CmpEx.two.getByName (str! "f") (some (str! "a")) = some CmpEx.noMod from rfl] at ho
  cases ho
  rcases hcase with ⟨_, rfl⟩ | ⟨hc, _⟩
  · simp [Res.new, Res.kind] at hk
  · exact hc rfl

theorem keys_addInner (r x : Res) (f : Str) :
    f ∈ Dict.keys (r.addInner x).inner ↔ f = x.first.name ∨ f ∈ Dict.keys r.inner := by
  show f ∈ Dict.keys (Dict.set r.inner x.first.name x) ↔ _
  rw [Dict.keys_set]
  split
  · next h =>
    constructor
    · exact Or.inr
    · rintro (rfl | h')
      · exact h
      · exact h'
  · simp [or_comm]

/-- The facts about the overall result that C01, C03 and C21 follow from. -/
theorem compare_entries {σ : Type} {env : CmpEnv σ} {dir : Str} {first second : FunGroups} {w : σ}
    {st : CmpState (σ × List Compared)} (hd : RunsFunctionsDiff env) (hp : ProperGroups first)
    (h : compareSnapshots (logged env) dir first second (w, []) = .ok st) :
    (∀ f, f ∈ Dict.keys st.result.inner ↔ ∃ g, InBoth first second g f) ∧
    (∀ f r, Dict.get? st.result.inner f = some r → ∃ g, OwnResult st.world.2 env.regex first second g f r) ∧
    (∀ g f, InBoth first second g f → ∃ r, OwnResult st.world.2 env.regex first second g f r ∧ r.kind.toNat ≤ st.result.kind.toNat) ∧
    (st.result.kind = .none ∨ ∃ g f r, OwnResult st.world.2 env.regex first second g f r ∧ r.kind = st.result.kind) ∧ Keyed st.result ∧ FromEnv env st.world.2 := by
  obtain ⟨plan, ⟨_, hP⟩, hplan, _⟩ := compareSnapshots_ind hp h (fun _ done st =>
      (∀ f, f ∈ Dict.keys st.result.inner ↔ ∃ g old, (g, f, old) ∈ done ∧ (second.getByName f g).isSome) ∧
      (∀ f r, Dict.get? st.result.inner f = some r → ∃ g, OwnResult st.world.2 env.regex first second g f r) ∧
      (∀ g f old, (g, f, old) ∈ done → (second.getByName f g).isSome →
        ∃ r, OwnResult st.world.2 env.regex first second g f r ∧ r.kind.toNat ≤ st.result.kind.toNat) ∧
      (st.result.kind = .none ∨ ∃ g f r, OwnResult st.world.2 env.regex first second g f r ∧ r.kind = st.result.kind) ∧ Keyed st.result ∧ FromEnv env st.world.2)
    (by
      refine ⟨by simp [Res.new, Res.inner, Dict.keys], by simp [Res.new, Res.inner, Dict.get?], by simp, Or.inl rfl, ?_, by intro c hc; simp at hc⟩
      exact ⟨by simp [Res.new, Res.inner, Dict.keys], by simp [Res.new, Res.inner]⟩)
    (fun _ _ _ _ _ h => h)
    (by
      intro g f old done st st' ho ⟨h1, h2, h3, h4, h5, h6⟩ hc
      rcases compareFun_own ho hc with ⟨hn, rfl⟩ | ⟨hs, hsub, hlog, r, hr, he⟩
      · refine ⟨?_, h2, ?_, h4, h5, h6⟩
        · intro f'
          rw [h1]
          constructor
          · rintro ⟨g', old', hm, hs⟩; exact ⟨g', old', List.mem_append_left _ hm, hs⟩
          · rintro ⟨g', old', hm, hs⟩
            rcases List.mem_append.1 hm with hm | hm
            · exact ⟨g', old', hm, hs⟩
            · rw [List.mem_singleton, Prod.mk.injEq, Prod.mk.injEq] at hm
              obtain ⟨rfl, rfl, rfl⟩ := hm
              rw [hn] at hs; simp at hs
        · intro g' f' old' hm hs
          rcases List.mem_append.1 hm with hm | hm
          · exact h3 g' f' old' hm hs
          · rw [List.mem_singleton, Prod.mk.injEq, Prod.mk.injEq] at hm
            obtain ⟨rfl, rfl, rfl⟩ := hm
            rw [hn] at hs; simp at hs
      · have hname := ownResult_name hd (hlog h6) hr
        have hkind : st'.result.kind.toNat = max st.result.kind.toNat r.kind.toNat := by rw [he, addInner_toNat]
        refine ⟨?_, ?_, ?_, ?_, by rw [he]; exact keyed_addInner h5, hlog h6⟩
        · intro f'
          rw [he, keys_addInner, hname, h1]
          constructor
          · rintro (rfl | ⟨g', old', hm, hs⟩)
            · exact ⟨g, old, by simp, hs⟩
            · exact ⟨g', old', List.mem_append_left _ hm, hs⟩
          · rintro ⟨g', old', hm, hs'⟩
            rcases List.mem_append.1 hm with hm | hm
            · exact Or.inr ⟨g', old', hm, hs'⟩
            · rw [List.mem_singleton, Prod.mk.injEq, Prod.mk.injEq] at hm
              exact Or.inl hm.2.1
        · intro f' r' hg
          rw [he] at hg
          have hg : Dict.get? (Dict.set st.result.inner r.first.name r) f' = some r' := hg
          rw [Dict.get?_set, hname] at hg
          split at hg
          · next e => cases hg; subst e; exact ⟨g, hr⟩
          · obtain ⟨g', ho'⟩ := h2 f' r' hg
            exact ⟨g', ownResult_mono ho' hsub⟩
        · intro g' f' old' hm hs'
          rcases List.mem_append.1 hm with hm | hm
          · obtain ⟨r', hr', hle⟩ := h3 g' f' old' hm hs'
            exact ⟨r', ownResult_mono hr' hsub, by omega⟩
          · rw [List.mem_singleton, Prod.mk.injEq, Prod.mk.injEq] at hm
            obtain ⟨rfl, rfl, rfl⟩ := hm
            exact ⟨r, hr, by omega⟩
        · by_cases hle : st.result.kind.toNat ≤ r.kind.toNat
          · exact Or.inr ⟨g, f, r, hr, Kind.toNat_inj (by omega)⟩
          · have e : st'.result.kind = st.result.kind := Kind.toNat_inj (by omega)
            rw [e]
            rcases h4 with h4 | ⟨g', f', r', hr', hk⟩
            · exact Or.inl h4
            · exact Or.inr ⟨g', f', r', ownResult_mono hr' hsub, hk⟩)
  obtain ⟨h1, h2, h3, h4, h5, h6⟩ := hP
  refine ⟨?_, h2, ?_, h4, h5, h6⟩
  · intro f
    rw [h1]
    constructor
    · rintro ⟨g, old, hm, hs⟩
      exact ⟨g, by rw [(hplan _ _ _).1 hm]; rfl, hs⟩
    · rintro ⟨g, ho, hs⟩
      obtain ⟨old, ho⟩ := Option.isSome_iff_exists.1 ho
      exact ⟨g, old, (hplan _ _ _).2 ho, hs⟩
  · rintro g f ⟨ho, hs⟩
    obtain ⟨old, ho⟩ := Option.isSome_iff_exists.1 ho
    exact h3 g f old ((hplan _ _ _).2 ho) hs

/-- **C03 (partial)** The functions with an entry are exactly those in both snapshots; every entry is the result of a
function with that name in some group, and if the name is used in one group only, it is the function's own result.
Missing: see `C03_fails`. -/
theorem C03_entries_partial {σ : Type} (env : CmpEnv σ) (dir : Str) (first second : FunGroups) (w : σ)
    (st : CmpState (σ × List Compared)) (hd : RunsFunctionsDiff env) (hp : ProperGroups first)
    (h : compareSnapshots (logged env) dir first second (w, []) = .ok st) :
    (∀ f, f ∈ Dict.keys st.result.inner ↔ ∃ g, InBoth first second g f) ∧
    (∀ f r, Dict.get? st.result.inner f = some r → ∃ g, OwnResult st.world.2 env.regex first second g f r) ∧
    ∀ g f, InBoth first second g f → (∀ g', InBoth first second g' f → g' = g) →
      ∃ r, Dict.get? st.result.inner f = some r ∧ OwnResult st.world.2 env.regex first second g f r := by
  obtain ⟨h1, h2, _⟩ := compare_entries hd hp h
  refine ⟨h1, h2, ?_⟩
  intro g f hb honly
  have hk := (h1 f).2 ⟨g, hb⟩
  rw [Dict.mem_keys_iff, Option.isSome_iff_exists] at hk
  obtain ⟨r, hr⟩ := hk
  obtain ⟨g', hown⟩ := h2 f r hr
  have : g' = g := by
    apply honly
    obtain ⟨old, new, ho, hn, _⟩ := hown
    exact ⟨by simp [ho], by simp [hn]⟩
  subst this
  exact ⟨r, hr, hown⟩

/-- **C01** for whole snapshots: the overall verdict is at least as bad as the verdict of each function of both snapshots,
and it is the verdict of one of them (or none if there are none). -/
theorem C01_overall_verdict {σ : Type} (env : CmpEnv σ) (dir : Str) (first second : FunGroups) (w : σ)
    (st : CmpState (σ × List Compared)) (hd : RunsFunctionsDiff env) (hp : ProperGroups first)
    (h : compareSnapshots (logged env) dir first second (w, []) = .ok st) :
    (∀ g f, InBoth first second g f → ∃ r, OwnResult st.world.2 env.regex first second g f r ∧ AtMost r.kind st.result.kind) ∧
    (st.result.kind = .none ∨ ∃ g f r, OwnResult st.world.2 env.regex first second g f r ∧ r.kind = st.result.kind) := by
  obtain ⟨_, _, h3, h4, _⟩ := compare_entries hd hp h
  refine ⟨?_, h4⟩
  intro g f hb
  obtain ⟨r, hr, hle⟩ := h3 g f hb
  exact ⟨r, hr, (atMost_iff _ _).2 hle⟩

/-- In the example of `C03_fails` the overall verdict is error, the worst of unknown and error. -/
example : ∃ st, compareSnapshots (logged (toolEnv CmpEx.failing CmpEx.state none false false)) [] CmpEx.two CmpEx.two ((), []) = .ok st ∧
    st.result.kind = .error ∧ (∃ r, OwnResult st.world.2 none CmpEx.two CmpEx.two (some (str! "a"))
      (str! "f") r ∧ AtMost r.kind st.result.kind) ∧ (str! "f") ∈ Dict.keys st.result.inner := by
  have hrun : ∃ st, compareSnapshots (logged (toolEnv CmpEx.failing CmpEx.state none false false)) [] CmpEx.two CmpEx.two ((), []) = .ok st ∧
      st.result.kind = .error := ⟨_, rfl, rfl⟩
  obtain ⟨st, hr, hk⟩ := hrun
  have hp : ProperGroups CmpEx.two := properGroups_of_decide (by decide)
  exact ⟨st, hr, hk, (C01_overall_verdict _ _ _ _ _ _ (toolEnv_runs _ _ _ _ _) hp hr).1 _ _ ⟨by decide, by decide⟩,
    ((C03_entries_partial _ _ _ _ _ _ (toolEnv_runs _ _ _ _ _) hp hr).1 _).2 ⟨some (str! "a"), by decide, by decide⟩⟩

/-! ### C21 -/

/-- **C21** A comparison of snapshots compares exactly the functions that occur with a module in the same group of both
snapshots, each once, in the order of groups and names; the new snapshot's description is used for the new side. Each
comparison is given the graph of the previous comparison in the same group. -/
theorem C21_compared_exactly {σ : Type} (env : CmpEnv σ) (dir : Str) (first second : FunGroups) (w : σ)
    (st : CmpState (σ × List Compared)) (hp : ProperGroups first)
    (h : compareSnapshots (logged env) dir first second (w, []) = .ok st) :
    (∀ g f old new, (∃ c ∈ st.world.2, c.group = g ∧ c.name = f ∧ c.old = old ∧ c.new = new) ↔
      Comparable first second g f old new) ∧
    st.world.2.Pairwise (fun x y => Before (x.group, x.name) (y.group, y.name)) ∧
    ∀ l c l', st.world.2 = l ++ c :: l' → c.prev = knownGraph l c.group := by
  obtain ⟨plan, ⟨g1, hP⟩, hplan, hsort⟩ := compareSnapshots_ind hp h (fun g0 done st =>
      ((∀ c ∈ st.world.2, (c.group, c.name, c.old) ∈ done ∧ Comparable first second c.group c.name c.old c.new) ∧
      (∀ g f old new, (g, f, old) ∈ done → Comparable first second g f old new →
        ∃ c ∈ st.world.2, c.group = g ∧ c.name = f ∧ c.old = old ∧ c.new = new)) ∧
      ((st.world.2.map (fun c => (c.group, c.name, c.old))).Sublist done) ∧
      (st.graph = knownGraph st.world.2 g0) ∧
      ∀ l c l', st.world.2 = l ++ c :: l' → c.prev = knownGraph l c.group)
    (by exact ⟨⟨by simp, by simp⟩, by simp, rfl, by simp⟩)
    (by
      intro g0 g done st hnew ⟨h1, h2, h3, h4⟩
      refine ⟨h1, h2, ?_, h4⟩
      show none = knownGraph st.world.2 g
      unfold knownGraph
      cases hl : st.world.2.getLast? with
      | none => rfl
      | some c =>
        simp only
        rw [if_neg]
        exact hnew _ (h1.1 c (List.mem_of_getLast? hl)).1)
    (by
      intro g f old done st st' ho ⟨⟨h1a, h1b⟩, h2, h3, h4⟩ hc
      rcases compareFun_cases hc with ⟨hn, rfl⟩ | ⟨new, hn, ⟨hm, _, hw, hg, _⟩ | ⟨hm1, hm2, res, res', hd, hf, _, hw, hg, _⟩⟩
      · refine ⟨⟨fun c hc => ⟨List.mem_append_left _ (h1a c hc).1, (h1a c hc).2⟩, ?_⟩, h2.trans (List.sublist_append_left _ _), h3, h4⟩
        intro g' f' old' new' hm hcmp
        rcases List.mem_append.1 hm with hm | hm
        · exact h1b g' f' old' new' hm hcmp
        · rw [List.mem_singleton, Prod.mk.injEq, Prod.mk.injEq] at hm
          obtain ⟨rfl, rfl, rfl⟩ := hm
          rw [hcmp.2.1] at hn; simp at hn
      · rw [hw, hg]
        refine ⟨⟨fun c hc => ⟨List.mem_append_left _ (h1a c hc).1, (h1a c hc).2⟩, ?_⟩, h2.trans (List.sublist_append_left _ _), h3, h4⟩
        intro g' f' old' new' hm' hcmp
        rcases List.mem_append.1 hm' with hm' | hm'
        · exact h1b g' f' old' new' hm' hcmp
        · rw [List.mem_singleton, Prod.mk.injEq, Prod.mk.injEq] at hm'
          obtain ⟨rfl, rfl, rfl⟩ := hm'
          have := hcmp.2.1
          rw [hn] at this; cases this
          rcases hm with hm | hm
          · exact absurd hm hcmp.2.2.1
          · exact absurd hm hcmp.2.2.2
      · have hw' : st'.world.2 = st.world.2 ++ [⟨g, f, old, new, st.graph, (env.diff g f old new st.graph st.world.1).2⟩] := by
          rw [hw]; rfl
        have hd' : (env.diff g f old new st.graph st.world.1).2 = .ok res := hd
        rw [hd'] at hw'
        rw [hw', hg]
        refine ⟨⟨?_, ?_⟩, ?_, ?_, ?_⟩
        · intro c hc
          rcases List.mem_append.1 hc with hc | hc
          · exact ⟨List.mem_append_left _ (h1a c hc).1, (h1a c hc).2⟩
          · rw [List.mem_singleton] at hc
            subst hc
            exact ⟨by simp, ho, hn, hm1, hm2⟩
        · intro g' f' old' new' hm' hcmp
          rcases List.mem_append.1 hm' with hm' | hm'
          · obtain ⟨c, hc, e⟩ := h1b g' f' old' new' hm' hcmp
            exact ⟨c, List.mem_append_left _ hc, e⟩
          · rw [List.mem_singleton, Prod.mk.injEq, Prod.mk.injEq] at hm'
            obtain ⟨rfl, rfl, rfl⟩ := hm'
            have := hcmp.2.1
            rw [hn] at this; cases this
            exact ⟨_, List.mem_append_right _ (List.mem_singleton.2 rfl), rfl, rfl, rfl, rfl⟩
        · rw [List.map_append]
          exact h2.append (List.Sublist.refl _)
        · unfold knownGraph
          simp [Except.toOption]
        · intro l c l' he
          rcases List.eq_nil_or_concat l' with rfl | ⟨l'', x, rfl⟩
          · have := List.append_inj' he (by simp)
            obtain ⟨e1, e2⟩ := this
            simp only [List.cons.injEq, and_true] at e2
            subst e2
            rw [← e1]
            exact h3
          · rw [List.concat_eq_append] at he
            have he' : st.world.2 ++ [⟨g, f, old, new, st.graph, .ok res⟩] = (l ++ c :: l'') ++ [x] := by rw [he]; simp
            exact h4 l c l'' (List.append_inj' he' (by simp)).1)
  obtain ⟨⟨h1a, h1b⟩, h2, _, h4⟩ := hP
  refine ⟨?_, ?_, h4⟩
  · intro g f old new
    constructor
    · rintro ⟨c, hc, rfl, rfl, rfl, rfl⟩
      exact (h1a c hc).2
    · intro hcmp
      exact h1b g f old new ((hplan _ _ _).2 hcmp.1) hcmp
  · have := hsort.sublist h2
    rw [List.pairwise_map] at this
    exact this

/-- The state without the log. -/
def forget {σ : Type} (st : CmpState (σ × List Compared)) : CmpState σ :=
  ⟨st.world.1, st.result, st.graph, st.groupPrinted, st.outs⟩

theorem forget_header {σ : Type} (st : CmpState (σ × List Compared)) (g : Option Str) : forget (st.header g) = (forget st).header g := by
  unfold CmpState.header
  cases g with
  | none => rfl
  | some g =>
    cases hb : st.groupPrinted <;> simp [forget, hb]

theorem forget_reportFun {σ : Type} (env : CmpEnv σ) (g : Option Str) (f : Str) (r : Res) (st : CmpState (σ × List Compared)) :
    (reportFun (logged env) g f r st).map forget = reportFun env g f r (forget st) := by
  unfold reportFun
  simp only [show (logged env).full = env.full from rfl, show (logged env).showDiff = env.showDiff from rfl,
    show (logged env).toDir = env.toDir from rfl]
  split
  · split
    · cases printSyntaxDiff env.showDiff env.full g f r with
      | error e => rfl
      | ok os =>
        simp only [Except.map]
        cases env.toDir with
        | true => rfl
        | false => simp only [Bool.false_eq_true, if_false]; rw [← forget_header]; rfl
    · simp only [Except.map]; rw [← forget_header]; rfl
  · rfl

theorem forget_compareFun {σ : Type} (env : CmpEnv σ) (second : FunGroups) (g : Option Str) (f : Str) (old : FunDesc)
    (st : CmpState (σ × List Compared)) :
    (compareFun (logged env) second g f old st).map forget = compareFun env second g f old (forget st) := by
  unfold compareFun
  cases second.getByName f g with
  | none => rfl
  | some new =>
    simp only
    split
    · simp only [Except.map]
      rw [show ({ forget st with result := (forget st).result.addInner (Res.new .unknown f f) } : CmpState σ) =
        forget { st with result := st.result.addInner (Res.new .unknown f f) } from rfl, ← forget_header]
      rfl
    · show Except.map forget (match (env.diff g f old new st.graph st.world.1).2 with | .error e => _ | .ok res => _) = _
      show _ = (match (env.diff g f old new st.graph st.world.1).2 with | .error e => _ | .ok res => _)
      cases (env.diff g f old new st.graph st.world.1).2 with
      | error e => rfl
      | ok res =>
        simp only [show (logged env).regex = env.regex from rfl]
        cases regexFilter env.regex res with
        | error e => rfl
        | ok res' => simp only; rw [forget_reportFun]; rfl

/-- Keeping the log does not change the comparison, so that C21 describes every comparison. -/
theorem logged_same {σ : Type} (env : CmpEnv σ) (dir : Str) (first second : FunGroups) (w : σ) (l : List Compared) :
    (compareSnapshots (logged env) dir first second (w, l)).map forget = compareSnapshots env dir first second w := by
  have hfuns : ∀ (g : Option Str) (fs : List (Str × FunDesc)) (st : CmpState (σ × List Compared)),
      (compareFuns (logged env) second g fs st).map forget = compareFuns env second g fs (forget st) := by
    intro g fs
    induction fs with
    | nil => intro st; rfl
    | cons x fs ih =>
      intro st
      unfold compareFuns
      rw [← forget_compareFun]
      cases compareFun (logged env) second g x.1 x.2 st with
      | error e => rfl
      | ok st' => exact ih st'
  have hgroups : ∀ (gs : List (Option Str × Dict Str FunDesc)) (st : CmpState (σ × List Compared)),
      (compareGroups (logged env) second gs st).map forget = compareGroups env second gs (forget st) := by
    intro gs
    induction gs with
    | nil => intro st; rfl
    | cons x gs ih =>
      intro st
      unfold compareGroups
      rw [show ({ forget st with graph := none, groupPrinted := false, world := env.newGroup (forget st).world } : CmpState σ) =
        forget { st with graph := none, groupPrinted := false, world := (logged env).newGroup st.world } from rfl, ← hfuns]
      cases compareFuns (logged env) second x.1 (sortItems x.2) { st with graph := none, groupPrinted := false, world := (logged env).newGroup st.world } with
      | error e => rfl
      | ok st' => exact ih st'
  unfold compareSnapshots
  cases sortGroups first with
  | error e => rfl
  | ok gs => exact hgroups gs _

/-- **C21** A function that is in no group of both snapshots has no entry; a function of one group whose module is missing
in a snapshot has the verdict unknown. -/
theorem C21_skipped_and_unknown {σ : Type} (env : CmpEnv σ) (dir : Str) (first second : FunGroups) (w : σ)
    (st : CmpState (σ × List Compared)) (hd : RunsFunctionsDiff env) (hp : ProperGroups first)
    (h : compareSnapshots (logged env) dir first second (w, []) = .ok st) :
    (∀ f, (∀ g, ¬ InBoth first second g f) → Dict.get? st.result.inner f = none) ∧
    ∀ g f old new, first.getByName f g = some old → second.getByName f g = some new → (old.mod = none ∨ new.mod = none) →
      (∀ g', InBoth first second g' f → g' = g) →
      ∃ r, Dict.get? st.result.inner f = some r ∧ r.kind = .unknown ∧ r.first.name = f ∧ r.second.name = f := by
  obtain ⟨h1, h2, h3⟩ := C03_entries_partial env dir first second w st hd hp h
  constructor
  · intro f hno
    rw [Dict.get?_eq_none_iff, h1]
    rintro ⟨g, hb⟩
    exact hno g hb
  · intro g f old new ho hn hm honly
    obtain ⟨r, hr, old', new', ho', hn', hc⟩ := h3 g f ⟨by simp [ho], by simp [hn]⟩ honly
    rw [ho] at ho'; cases ho'
    rw [hn] at hn'; cases hn'
    refine ⟨r, hr, ?_⟩
    rcases hc with ⟨_, rfl⟩ | ⟨hc1, hc2, _⟩
    · exact ⟨rfl, rfl, rfl⟩
    · rcases hm with hm | hm
      · exact absurd hm hc1
      · exact absurd hm hc2

namespace CmpEx
/-- Three functions; `b` has no module, `c` is missing from the second snapshot. -/
def first : FunGroups := [(none, [(str! "c", desc), (str! "b", noMod), (str! "a", desc)])]
def second : FunGroups := [(none, [(str! "b", desc), (str! "a", desc)])]
end CmpEx

/-- Of three functions one is compared, one is unknown and one is skipped. -/
example : ∃ st, compareSnapshots (logged (toolEnv CmpEx.failing CmpEx.state none false false)) [] CmpEx.first CmpEx.second ((), []) = .ok st ∧
    (∃ c ∈ st.world.2, c.group = none ∧ c.name = str! "a" ∧ c.old = CmpEx.desc ∧ c.new = CmpEx.desc) ∧ st.world.2.length = 1 := by
  have hrun : ∃ st, compareSnapshots (logged (toolEnv CmpEx.failing CmpEx.state none false false)) [] CmpEx.first CmpEx.second ((), []) = .ok st ∧
      st.world.2.length = 1 := ⟨_, rfl, rfl⟩
  obtain ⟨st, hr, hl⟩ := hrun
  exact ⟨st, hr, ((C21_compared_exactly _ _ _ _ _ _ (properGroups_of_decide (by decide)) hr).1 none (str! "a") CmpEx.desc CmpEx.desc).2
    ⟨rfl, rfl, by decide, by decide⟩, hl⟩

example : ∃ st, compareSnapshots (logged (toolEnv CmpEx.failing CmpEx.state none false false)) [] CmpEx.first CmpEx.second ((), []) = .ok st ∧
    Dict.get? st.result.inner (str! "c") = none ∧ ∃ r, Dict.get? st.result.inner (str! "b") = some r ∧ r.kind = .unknown := by
  have hrun : ∃ st, compareSnapshots (logged (toolEnv CmpEx.failing CmpEx.state none false false)) [] CmpEx.first CmpEx.second ((), []) = .ok st := ⟨_, rfl⟩
  obtain ⟨st, hr⟩ := hrun
  obtain ⟨h1, h2⟩ := C21_skipped_and_unknown _ _ _ _ _ _ (toolEnv_runs _ _ _ _ _) (properGroups_of_decide (by decide)) hr
  refine ⟨st, hr, h1 _ ?_, ?_⟩
  · rintro g ⟨_, hb⟩
    unfold FunGroups.getByName CmpEx.second at hb
    by_cases hg : g = none
    · subst hg; revert hb; decide
    · simp [Dict.get?, Ne.symm hg] at hb
  · obtain ⟨r, hr, hk, _⟩ := h2 none (str! "b") CmpEx.noMod CmpEx.desc rfl rfl (Or.inl rfl) (by
      rintro g ⟨hb, _⟩
      by_contra hg
      unfold FunGroups.getByName CmpEx.first at hb
      simp [Dict.get?, Ne.symm hg] at hb)
    exact ⟨r, hr, hk⟩

end DK
