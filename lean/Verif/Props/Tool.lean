import Verif.Props.Entries

/-! C73, C74: use of a semantic tool and of results known from previous comparisons. -/

set_option autoImplicit false

namespace DK
open Spec

/-! ### C73 -/

/-- Inner results come from listed objects, with the verdict of `objKind`. -/
theorem compareObjs_source {env : FDEnv} {acc : PairAcc} (P : Res → Prop) (os' : List Obj)
    (hP : ∀ o ∈ os', ∀ k d, objKind env o = .ok k → P (.mk k o.first o.second d none [])) :
    ∀ (os : List Obj) (r : Res), (∀ o ∈ os, o ∈ os') → (Dict.keys r.inner).Nodup → (∀ x ∈ r.inner.values, P x) →
      ∀ x ∈ (compareObjs env acc r os).1.inner.values, P x
  | [], r, _, _, h => by simpa [compareObjs] using h
  | o :: os, r, hs, hn, h => by
    have hs' : ∀ x ∈ os, x ∈ os' := fun x hx => hs x (by simp [hx])
    unfold compareObjs
    cases hk : objKind env o with
    | error x => exact h
    | ok k =>
      simp only
      cases hd : objDiff env acc k o with
      | error x => exact h
      | ok d =>
        simp only
        split
        · exact compareObjs_source P os' hP os r hs' hn h
        · refine compareObjs_source P os' hP os _ hs' (Dict.nodup_keys_set hn _ _) ?_
          intro x hx
          obtain ⟨a, ha, rfl⟩ := List.mem_map.1 hx
          have ha : a ∈ Dict.set r.inner o.first.name (.mk k o.first o.second d none []) := ha
          rw [Dict.mem_set hn] at ha
          rcases ha with rfl | ha
          · exact hP o (hs o (by simp)) k d hk
          · exact h a.2 (List.mem_map.2 ⟨a, ha.1, rfl⟩)

/-- What is known about a listed object. -/
theorem listed_sources {enum : List Vid → List Vid} (henum : ∀ l, (enum l).Perm l) {h : Heap} {g : Graph} {f1 f2 : Str}
    {full : Bool} {acc : PairAcc} (hf : funPairList enum h g f1 f2 full = .ok acc) :
    ∀ o ∈ acc.objs, ∃ v, FoundOnBothSides h g f1 f2 v ∧
      ((o.first.kind = .function ∧ o.kind = (h v).result ∧ o.first.name = (h v).names .left ∧ o.second.name = (h v).names .right) ∨
       (o.first.kind ≠ .function ∧ o.kind = .notEqual ∧ ∃ d ∈ (h v).nonfunDiffs, o.first.name = d.name ∧ o.second.name = d.name)) := by
  unfold funPairList at hf
  cases hl : reachableFrom h g .left f1 with
  | error x => rw [hl] at hf; simp at hf
  | ok a =>
    obtain ⟨rl, btL⟩ := a
    cases hr : reachableFrom h g .right f2 with
    | error x => rw [hl] at hf; simp only at hf; rw [hr] at hf; simp at hf
    | ok b =>
      obtain ⟨rr, btR⟩ := b
      obtain ⟨s1, h1, _⟩ := C04_reported_is_reachable hl
      obtain ⟨s2, h2, _⟩ := C04_reported_is_reachable hr
      obtain ⟨order, cs, res, q1, q2, q3, _, q5, _⟩ :=
        C08_exactly_interesting_differences enum henum h g f1 f2 full s1 s2 rl rr btL btR h1 h2 hl hr
      have : res = acc := by
        have : funPairList enum h g f1 f2 full = .ok acc := by unfold funPairList; exact hf
        rw [q1] at this; exact Except.ok.inj this
      subst this
      intro o ho
      rw [q5, List.mem_flatMap] at ho
      obtain ⟨v, hv, ho⟩ := ho
      obtain ⟨a, b, c⟩ := (q3 v).1 hv
      refine ⟨v, ⟨rl, btL, rr, btR, hl, hr, a, b⟩, ?_⟩
      rw [List.mem_cons, List.mem_map] at ho
      rcases ho with rfl | ⟨d, hd, rfl⟩
      · exact Or.inl ⟨rfl, rfl, rfl, rfl⟩
      · refine Or.inr ⟨?_, rfl, d, hd, ?_, ?_⟩ <;> cases d <;> simp [differenceEntry, NonFunDiff.name]

/-- The entry `x` has the verdict the tool gives to its two objects. -/
def Spec.DecidedByTool (tool : Obj → Except PyErr Kind) (x : Res) : Prop :=
  ∃ o : Obj, o.first = x.first ∧ o.second = x.second ∧ tool o = .ok x.kind

/-- **C73** as stated: if a semantic tool is configured, it decides the verdicts of differing functions. -/
def C73_statement : Prop :=
  ∀ (env : FDEnv) (tool : Obj → Except PyErr Kind) (f1 f2 : Str) (prev : Option Graph) (fuel : Nat) (st st' : FDState) (res : Res),
    env.semdiff = some tool → Enumerates env → functionsDiff env f1 f2 prev fuel st = some (st', .ok res) → res.kind ≠ .error →
    ∀ x ∈ res.inner.values, x.first.kind = .function → DecidedByTool tool x

namespace ToolEx
/-- `MacroEx` with a tool that proves everything equal. -/
def tool : Obj → Except PyErr Kind := fun _ => .ok .equal
def env : FDEnv := { MacroEx.env with semdiff := some tool }
def res : Res := (compareObjs env MacroEx.acc (Res.new .none (str! "f") (str! "f")) MacroEx.acc.objs).1.setGraph (some MacroEx.graph)

theorem diff : functionsDiff env (str! "f") (str! "f") none 1 LinkEx.state =
    some ({ LinkEx.state with heap := MacroEx.heap, curr := some MacroEx.graph, engineRuns := 1 }, .ok res) := by
  have hl : engineLoop env (str! "f") none 1 { LinkEx.state with curr := none, engineRuns := 0 } =
      some ({ LinkEx.state with heap := MacroEx.heap, curr := some MacroEx.graph, engineRuns := 1 }, .ok MacroEx.graph) := rfl
  rw [functionsDiff_eval hl MacroEx.list]
  rfl
end ToolEx

/-- **C73 (violated)** The tool is not asked about functions, only about other differences. -/
theorem C73_fails : ¬ C73_statement := by
  intro h
  obtain ⟨o, _, _, ho⟩ := h ToolEx.env ToolEx.tool _ _ _ _ _ _ _ rfl (fun l => List.Perm.refl l) ToolEx.diff (by decide)
    (entryOf (MacroEx.obj (str! "f") none .function) .notEqual (some (str! "-"))) (by
      show _ ∈ [(_ : Res), _, _]
      exact List.mem_cons_self) rfl
  cases ho

/-- **C73 (partial)** The tool decides the verdicts of all listed differences that are not functions. The verdict of a
listed function is the one in the result graph. -/
theorem C73_tool_partial (env : FDEnv) (tool : Obj → Except PyErr Kind) (f1 f2 : Str) (prev : Option Graph) (fuel : Nat)
    (st st' : FDState) (res : Res) (g : Graph) (ht : env.semdiff = some tool) (he : Enumerates env)
    (h : functionsDiff env f1 f2 prev fuel st = some (st', .ok res)) (hk : res.kind ≠ .error) (hg : res.graph = some g) :
    ∀ x ∈ res.inner.values,
      (x.first.kind ≠ .function → DecidedByTool tool x) ∧
      (x.first.kind = .function → ∃ v, FoundOnBothSides st'.heap g f1 f2 v ∧ x.kind = (st'.heap v).result ∧
        x.first.name = (st'.heap v).names .left ∧ x.second.name = (st'.heap v).names .right) := by
  obtain ⟨st1, g', acc, _, hf, _, hg', _, _, hcase⟩ := functionsDiff_good h hk
  rw [hg] at hg'; cases hg'
  have hl := listed_sources he hf
  rcases hcase with ⟨hnil, hkind, hin⟩ | ⟨hne, r, hr, hkind, hin⟩
  · rw [hin]; intro x hx; simp [Dict.values] at hx
  · rw [hin]
    have hr' : (compareObjs env acc (Res.new .none f1 f2) acc.objs).1 = r := by rw [hr]
    rw [← hr']
    refine compareObjs_source _ acc.objs ?_ acc.objs _ (fun o ho => ho) (by simp [Res.new, Res.inner, Dict.keys])
      (by intro x hx; simp [Res.new, Res.inner, Dict.values] at hx)
    intro o ho k d hok
    unfold objKind at hok
    rw [ht] at hok
    simp only at hok
    obtain ⟨v, hv, hcase⟩ := hl o ho
    constructor
    · intro hnf
      have hnf : o.first.kind ≠ .function := hnf
      rw [if_pos hnf] at hok
      exact ⟨o, rfl, rfl, hok⟩
    · intro hfn
      have hfn : o.first.kind = .function := hfn
      rw [if_neg (by simp [hfn])] at hok
      rcases hcase with ⟨_, e1, e2, e3⟩ | ⟨e, _⟩
      · exact ⟨v, hv, by rw [← e1]; cases hok; rfl, e2, e3⟩
      · exact absurd hfn e

/-- In `ToolEx`, the macro is decided by the tool and the two functions keep the verdict of the engine. -/
example : ∀ x ∈ ToolEx.res.inner.values, (x.first.kind ≠ .function → DecidedByTool ToolEx.tool x) ∧
    (x.first.kind = .function → x.kind = .notEqual) := by
  intro x hx
  obtain ⟨h1, h2⟩ := C73_tool_partial ToolEx.env ToolEx.tool _ _ _ _ _ _ _ MacroEx.graph rfl (fun l => List.Perm.refl l) ToolEx.diff
    (by decide) rfl x hx
  refine ⟨h1, ?_⟩
  intro hf
  obtain ⟨v, _, hk, _⟩ := h2 hf
  rw [hk]
  show (MacroEx.heap v).result = .notEqual
  cases v <;> rfl

/-! ### C74 -/

/-- A definite result for `f` is known, of two functions in the same file. -/
def Spec.KnownResult (h : Heap) (prev : Option Graph) (f : Str) : Prop :=
  ∃ p v, prev = some p ∧ p.vertices.get? f = some v ∧ (h v).result ≠ .assumedEqual ∧ (h v).files .left = (h v).files .right

theorem shortcut_iff (h : Heap) (prev : Option Graph) (f : Str) :
    (∃ p, shortcut h prev f = some p) ↔ KnownResult h prev f := by
  unfold shortcut KnownResult
  cases prev with
  | none => simp
  | some p =>
    simp only
    cases hv : p.vertices.get? f with
    | none => simp [hv]
    | some v =>
      simp only [Vertex.sameFile, beq_iff_eq]
      constructor
      · rintro ⟨q, hq⟩
        split at hq
        · next hc => exact ⟨p, v, rfl, hv, hc⟩
        · cases hq
      · rintro ⟨p', v', hp, hv', h1⟩
        cases hp
        rw [hv] at hv'
        cases hv'
        exact ⟨p, by rw [if_pos h1]⟩

theorem shortcut_prev {h : Heap} {prev : Option Graph} {f : Str} {p : Graph} (hs : shortcut h prev f = some p) : prev = some p := by
  unfold shortcut at hs
  cases prev with
  | none => simp at hs
  | some q =>
    simp only at hs
    split at hs
    · cases hs
    · split at hs
      · exact hs
      · cases hs

theorem engineLoop_runs_mono {env : FDEnv} {f1 : Str} {prev : Option Graph} : ∀ (n : Nat) (st st' : FDState) (e : Except PyErr Graph),
    engineLoop env f1 prev n st = some (st', e) → st.engineRuns ≤ st'.engineRuns
  | 0, st, st', e, h => by simp [engineLoop] at h
  | n + 1, st, st', e, h => by
    unfold engineLoop at h
    cases hs : shortcut st.heap prev f1 with
    | some p => rw [hs] at h; cases h; exact le_refl _
    | none =>
      rw [hs] at h
      simp only at h
      cases he : env.engine st.engineRuns (st.mods .left) (st.mods .right) st.heap with
      | error x => rw [he] at h; cases h; simp
      | ok r =>
        obtain ⟨hp, g, ms⟩ := r
        rw [he] at h
        simp only at h
        have hk := (linkMissing_keeps env { st with heap := hp, curr := some g, engineRuns := st.engineRuns + 1 } ms).2.1
        split at h
        · have := engineLoop_runs_mono n _ _ _ h
          rw [hk] at this
          simp only at this
          omega
        · have hm : ∀ st : FDState, (mergeResults st prev g).1.engineRuns = st.engineRuns := by
            intro st
            unfold mergeResults
            cases prev with
            | none => rfl
            | some p =>
              simp only
              split <;> rfl
          have h := Option.some.inj h
          have : st'.engineRuns = st.engineRuns + 1 := by
            have e1 : (mergeResults (linkMissing env { st with heap := hp, curr := some g, engineRuns := st.engineRuns + 1 } ms).1 prev g).1 = st' := by rw [h]
            rw [← e1, hm, hk]
          omega

/-- **C74** The engine is run for a function unless a definite result of the function is known, of two functions in the
same file. In that case nothing is changed: the known results, the cache and the files stay as they are, and the result
graph is the known one. -/
theorem C74_reuse (env : FDEnv) (f1 f2 : Str) (prev : Option Graph) (fuel : Nat) (st st' : FDState) (out : Except PyErr Res)
    (h : functionsDiff env f1 f2 prev fuel st = some (st', out)) :
    (st'.engineRuns = 0 ↔ KnownResult st.heap prev f1) ∧
    (KnownResult st.heap prev f1 → st'.heap = st.heap ∧ st'.cache = st.cache ∧ st'.written = st.written ∧
      ∀ res, out = .ok res → res.graph = prev) := by
  have hfuel : ∃ k, fuel = k + 1 := by
    cases fuel with
    | zero => simp [functionsDiff, engineLoop] at h
    | succ k => exact ⟨k, rfl⟩
  obtain ⟨k, rfl⟩ := hfuel
  by_cases hkn : KnownResult st.heap prev f1
  · obtain ⟨p, hp⟩ := (shortcut_iff _ _ _).2 hkn
    have hprev := shortcut_prev hp
    have hl : engineLoop env f1 prev (k + 1) { st with curr := none, engineRuns := 0 } =
        some ({ st with curr := some p, engineRuns := 0 }, .ok p) := by
      unfold engineLoop
      simp only
      rw [hp]
    unfold functionsDiff at h
    rw [hl] at h
    simp only [Option.some.injEq, Prod.mk.injEq] at h
    obtain ⟨h1, h2⟩ := h
    obtain ⟨e1, e2, e3, e4, e5⟩ := finishDiff_state env f1 f2 { st with curr := some p, engineRuns := 0 } p
    rw [h1] at e1 e2 e3 e4 e5
    refine ⟨⟨fun _ => hkn, fun _ => e4⟩, fun _ => ⟨e1, e5, e2, ?_⟩⟩
    intro res hres
    rw [hres] at h2
    have := wrapUp_graph h2
    rw [h1, e3] at this
    rw [this, hprev]
  · refine ⟨⟨?_, fun hc => absurd hc hkn⟩, fun hc => absurd hc hkn⟩
    intro h0
    exfalso
    have hs : shortcut st.heap prev f1 = none := by
      cases hs : shortcut st.heap prev f1 with
      | none => rfl
      | some p => exact absurd ((shortcut_iff _ _ _).1 ⟨p, hs⟩) hkn
    have hpos : ∀ st1 e, engineLoop env f1 prev (k + 1) { st with curr := none, engineRuns := 0 } = some (st1, e) → 0 < st1.engineRuns := by
      intro st1 e hl
      unfold engineLoop at hl
      simp only at hl
      rw [hs] at hl
      simp only at hl
      cases he : env.engine 0 (st.mods .left) (st.mods .right) st.heap with
      | error x => rw [he] at hl; cases hl; simp
      | ok r =>
        obtain ⟨hp, g, ms⟩ := r
        rw [he] at hl
        simp only at hl
        have hk := (linkMissing_keeps env { st with heap := hp, curr := some g, engineRuns := 0 + 1 } ms).2.1
        split at hl
        · have := engineLoop_runs_mono k _ _ _ hl
          rw [hk] at this
          simp only at this
          omega
        · have hm : ∀ st : FDState, (mergeResults st prev g).1.engineRuns = st.engineRuns := by
            intro st
            unfold mergeResults
            cases prev with
            | none => rfl
            | some p =>
              simp only
              split <;> rfl
          have hl := Option.some.inj hl
          have e1 : (mergeResults (linkMissing env { st with heap := hp, curr := some g, engineRuns := 0 + 1 } ms).1 prev g).1 = st1 := by rw [hl]
          rw [← e1, hm, hk]
          simp
    rcases functionsDiff_cases h with ⟨x, h1, _⟩ | ⟨st1, g, h1, _, h2, _⟩
    · have := hpos _ _ h1; omega
    · have := hpos _ _ h1
      rw [h2, (finishDiff_state env f1 f2 st1 g).2.2.2.1] at h0
      omega

/-- `f` of `MacroEx` is known: comparing it again does not run the engine. -/
example : KnownResult MacroEx.heap (some MacroEx.graph) (str! "f") ∧
    ∃ st' res, functionsDiff MacroEx.env (str! "f") (str! "f") (some MacroEx.graph) 1 { LinkEx.state with heap := MacroEx.heap } = some (st', .ok res) ∧
      st'.engineRuns = 0 := by
  have hk : KnownResult MacroEx.heap (some MacroEx.graph) (str! "f") := ⟨_, 0, rfl, rfl, by decide, rfl⟩
  refine ⟨hk, ?_⟩
  have hl : engineLoop MacroEx.env (str! "f") (some MacroEx.graph) 1
      { { LinkEx.state with heap := MacroEx.heap } with curr := none, engineRuns := 0 } =
      some ({ LinkEx.state with heap := MacroEx.heap, curr := some MacroEx.graph, engineRuns := 0 }, .ok MacroEx.graph) := rfl
  have hd := functionsDiff_eval (f2 := str! "f") hl MacroEx.list
  exact ⟨_, _, hd, rfl⟩

end DK
