import Verif.Props.Verdict

/-! C14 (for whole runs), C62, C65–C67. -/

set_option autoImplicit false

namespace DK
open Spec

/-! ### C14 for whole runs -/

theorem update_any {c : Cache} (h : Heap) (vs : List Vid) (hc : c.Consistent) :
    (c.update h vs).1.Consistent ∧ (c.update h vs).1.directory = c.directory ∧ (c.update h vs).1.cwd = c.cwd ∧
    ∃ ws : List Vid, (∀ v ∈ ws, v ∈ vs ∧ (h v).cachable = true ∧
        ∃ F, cacheFileName c.directory c.cwd ((h v).files .left, (h v).files .right) = .ok F) ∧
      ∀ F, ((c.update h vs).1.fs.get? F).getD [] = ((c.fs.get? F).getD []) ++
        logText (ws.map (fun v => (cacheName c.directory c.cwd (h v).filesKey, (h v).namePair))) F := by
  obtain ⟨h1, h2, h3, es, h4, h5⟩ := updateFiles_any h (groupByFiles h vs []) c hc
  have hmem : ∀ e ∈ es, e.1 = (h e.2).filesKey ∧ e.2 ∈ vs ∧ (h e.2).cachable = true := by
    intro e he
    have := (h4 e he).1
    rw [(entries_group h vs []).mem_iff] at this
    simp only [entries, List.flatMap_nil, List.nil_append, List.mem_map, List.mem_filter] at this
    obtain ⟨v, ⟨a, b⟩, rfl⟩ := this
    exact ⟨rfl, a, b⟩
  refine ⟨h1, h2, h3, es.map Prod.snd, ?_, ?_⟩
  · intro v hv
    rw [List.mem_map] at hv
    obtain ⟨e, he, rfl⟩ := hv
    obtain ⟨q1, q2, q3⟩ := hmem e he
    obtain ⟨F, hF⟩ := (h4 e he).2
    rw [q1] at hF
    exact ⟨q2, q3, F, hF⟩
  · intro F
    unfold Cache.update
    rw [h5 F, List.map_map]
    congr 2
    apply List.map_congr_left
    intro e he
    simp only [Function.comp, (hmem e he).1]

/-- What a comparison does to the cache: nothing, or one update with the settled functions of the result graph. -/
theorem functionsDiff_cache {env : FDEnv} {f1 f2 : Str} {prev : Option Graph} {fuel : Nat} {st st' : FDState}
    {out : Except PyErr Res} (h : functionsDiff env f1 f2 prev fuel st = some (st', out)) {c : Cache}
    (hc : st.cache = some c) :
    st'.cache = some c ∨ ∃ g, st'.curr = some g ∧
      st'.cache = some (c.update st'.heap (definiteVertices st'.heap g)).1 := by
  have key : ∀ (n : Nat) (st : FDState) (o : FDState × Except PyErr Graph), st.cache = some c →
      engineLoop env f1 prev n st = some o →
      o.1.cache = some c ∨ ∃ g, o.1.curr = some g ∧ o.1.cache = some (c.update o.1.heap (definiteVertices o.1.heap g)).1 := by
    intro n
    induction n with
    | zero => intro st o _ ho; simp [engineLoop] at ho
    | succ n ih =>
      intro st o hst ho
      unfold engineLoop at ho
      cases hs : shortcut st.heap prev f1 with
      | some p => rw [hs] at ho; cases ho; exact Or.inl hst
      | none =>
        rw [hs] at ho
        simp only at ho
        cases he : env.engine st.engineRuns (st.mods .left) (st.mods .right) st.heap with
        | error x => rw [he] at ho; cases ho; exact Or.inl hst
        | ok r =>
          obtain ⟨hp, g, missing⟩ := r
          rw [he] at ho
          simp only at ho
          have hk := (linkMissing_keeps env { st with heap := hp, curr := some g, engineRuns := st.engineRuns + 1 } missing).2.2.2
          have hk := hk.trans hst
          split at ho
          · exact ih _ _ hk ho
          · cases ho
            unfold mergeResults
            cases prev with
            | none => exact Or.inl hk
            | some p =>
              simp only
              rw [hk]
              exact Or.inr ⟨_, rfl, rfl⟩
  rcases functionsDiff_cases h with ⟨x, h1, _⟩ | ⟨st1, g, h1, _, h2, _⟩
  · exact key _ _ _ (by exact hc) h1
  · obtain ⟨e1, _, e3, _, e5⟩ := finishDiff_state env f1 f2 st1 g
    rw [h2, e5, e3, e1]
    exact key _ _ _ (by exact hc) h1

theorem definite_iff (h : Heap) (g : Graph) (v : Vid) :
    v ∈ definiteVertices h g ↔ v ∈ g.vertices.values ∧ Settled (h v).result := by
  unfold definiteVertices Settled
  rw [List.mem_filter, decide_eq_true_eq]

/-- **C14** In every run of the tool, whatever fails in it: the cache files consist of lines, and each line in the file of
a pair of source files stands for a function with these names and source files that occurred in the result graph of
some comparison with a settled verdict and not marked uncachable. -/
theorem C14_only_settled (dir : Str) (cwd : List Str) (seen : List (Heap × Graph)) (c : Cache)
    (hs : Session dir cwd seen c) :
    ∃ log : List (Str × (Str × Str)),
      (∀ F, (c.fs.get? F).getD [] = (log.filter (fun e => decide (e.1 = F))).flatMap
        (fun e => e.2.1 ++ (str! ":") ++ e.2.2 ++ (str! "\n"))) ∧
      (∀ F p, (F, p) ∈ log → ∃ x ∈ seen, ∃ v ∈ x.2.vertices.values, Settled (x.1 v).result ∧ (x.1 v).cachable = true ∧
        cacheFileName dir cwd ((x.1 v).files .left, (x.1 v).files .right) = .ok F ∧
        ((x.1 v).names .left, (x.1 v).names .right) = p) := by
  suffices h : c.Consistent ∧ c.directory = dir ∧ c.cwd = cwd ∧ ∃ log : List (Str × (Str × Str)),
      (∀ F, (c.fs.get? F).getD [] = logText log F) ∧
      (∀ F p, (F, p) ∈ log → ∃ x ∈ seen, ∃ v ∈ x.2.vertices.values, Settled (x.1 v).result ∧ (x.1 v).cachable = true ∧
        cacheFileName dir cwd ((x.1 v).files .left, (x.1 v).files .right) = .ok F ∧
        ((x.1 v).names .left, (x.1 v).names .right) = p) by
    obtain ⟨_, _, _, log, h1, h2⟩ := h
    refine ⟨log, fun F => ?_, h2⟩
    rw [h1 F]
    simp [logText, cacheLine]
  induction hs with
  | start => exact ⟨Cache.new_consistent dir cwd, rfl, rfl, [], by simp [Cache.new, logText], by simp⟩
  | @step seen c env f1 f2 prev fuel st st' out c' _ hst hf hc' ih =>
    obtain ⟨i1, i2, i3, log, i4, i5⟩ := ih
    have old : ∀ F p, (F, p) ∈ log → ∃ x ∈ seen ++ (st'.curr.map (fun g => (st'.heap, g))).toList,
        ∃ v ∈ x.2.vertices.values, Settled (x.1 v).result ∧ (x.1 v).cachable = true ∧
        cacheFileName dir cwd ((x.1 v).files .left, (x.1 v).files .right) = .ok F ∧
        ((x.1 v).names .left, (x.1 v).names .right) = p := by
      intro F p hp
      obtain ⟨x, hx, hv⟩ := i5 F p hp
      exact ⟨x, List.mem_append_left _ hx, hv⟩
    rcases functionsDiff_cache hf hst with h1 | ⟨g, hg, h1⟩
    · rw [hc'] at h1; cases h1
      exact ⟨i1, i2, i3, log, i4, old⟩
    · rw [hc'] at h1; cases h1
      obtain ⟨u1, u2, u3, ws, u4, u5⟩ := update_any st'.heap (definiteVertices st'.heap g) i1
      refine ⟨u1, u2.trans i2, u3.trans i3,
        log ++ ws.map (fun v => (cacheName c.directory c.cwd (st'.heap v).filesKey, (st'.heap v).namePair)), ?_, ?_⟩
      · intro F
        rw [u5 F, i4 F, logText_append]
      · intro F p hp
        rw [List.mem_append] at hp
        rcases hp with hp | hp
        · exact old F p hp
        · rw [List.mem_map] at hp
          obtain ⟨v, hv, e⟩ := hp
          obtain ⟨q1, q2, F', q3⟩ := u4 v hv
          rw [definite_iff] at q1
          refine ⟨(st'.heap, g), by simp [hg], v, q1.1, q1.2, q2, ?_, ?_⟩
          · have : cacheName c.directory c.cwd (st'.heap v).filesKey = F' := by
              unfold cacheName Vertex.filesKey; rw [q3]
            rw [Prod.mk.injEq] at e
            rw [← e.1, this, ← i2, ← i3]
            exact q3
          · rw [Prod.mk.injEq] at e
            exact e.2

/-- The engine was not able to use the known result of the function, so it was run. -/
def Spec.EngineRun (st' : FDState) : Prop := 0 < st'.engineRuns

/-- The engine's results are new objects: the vertices of `p` are not changed by a run of the engine. -/
def Spec.KeepsObjects (env : FDEnv) (p : Graph) : Prop :=
  ∀ n m1 m2 h h' g ms, env.engine n m1 m2 h = .ok (h', g, ms) → ∀ v ∈ p.vertices.values, h' v = h v

/-- **C14** Conversely: if results are reused (`prev`), the engine is run and the comparison does not end with the verdict
error, then every settled cachable function of the result graph is in the cache file of its source files. -/
theorem C14_all_settled (env : FDEnv) (f1 f2 : Str) (p : Graph) (fuel : Nat) (st st' : FDState) (res : Res) (c : Cache)
    (hcons : ∃ seen, Session c.directory c.cwd seen c) (hc : st.cache = some c)
    (h : functionsDiff env f1 f2 (some p) fuel st = some (st', .ok res)) (hk : res.kind ≠ .error) (hr : EngineRun st')
    (hkeep : KeepsObjects env p) :
    ∃ c' g, st'.cache = some c' ∧ res.graph = some g ∧ ∀ v ∈ g.vertices.values, Settled (st'.heap v).result →
      (st'.heap v).cachable = true → ∃ F before after,
        cacheFileName c.directory c.cwd ((st'.heap v).files .left, (st'.heap v).files .right) = .ok F ∧
        (c'.fs.get? F).getD [] = before ++ ((st'.heap v).names .left ++ (str! ":") ++ (st'.heap v).names .right ++ (str! "\n")) ++ after := by
  have hcons' : c.Consistent := by
    obtain ⟨seen, hs⟩ := hcons
    have hgen : ∀ d w seen c, Session d w seen c → c.Consistent := by
      intro d w seen c hs
      induction hs with
      | start => exact Cache.new_consistent _ _
      | step _ hst hf hc' ih =>
        rcases functionsDiff_cache hf hst with h1 | ⟨g, _, h1⟩
        · rw [hc'] at h1; cases h1; exact ih
        · rw [hc'] at h1; cases h1; exact (update_any _ _ ih).1
    exact hgen _ _ _ _ hs
  have key : ∀ (n : Nat) (st st1 : FDState) (g : Graph), st.cache = some c →
      engineLoop env f1 (some p) n st = some (st1, .ok g) → shortcut st.heap (some p) f1 = none →
      ∃ c', st1.cache = some c' ∧ c.update st1.heap (definiteVertices st1.heap g) = (c', .ok ()) := by
    intro n
    induction n with
    | zero => intro st st1 g _ ho; simp [engineLoop] at ho
    | succ n ih =>
      intro st st1 g hst ho hs
      unfold engineLoop at ho
      rw [hs] at ho
      simp only at ho
      cases he : env.engine st.engineRuns (st.mods .left) (st.mods .right) st.heap with
      | error x => rw [he] at ho; simp at ho
      | ok r =>
        obtain ⟨hp, g0, missing⟩ := r
        rw [he] at ho
        simp only at ho
        have hk := linkMissing_keeps env { st with heap := hp, curr := some g0, engineRuns := st.engineRuns + 1 } missing
        have hk4 := hk.2.2.2.trans hst
        have hk1 := hk.1
        simp only at hk1
        split at ho
        · refine ih _ _ _ hk4 ho ?_
          rw [hk1]
          unfold shortcut at hs ⊢
          simp only at hs ⊢
          cases hv : p.vertices.get? f1 with
          | none => rfl
          | some v =>
            rw [hv] at hs
            simp only at hs ⊢
            rw [hkeep _ _ _ _ _ _ _ he v (Dict.get?_mem_values hv)]
            exact hs
        · simp only [Option.some.injEq] at ho
          unfold mergeResults at ho
          simp only at ho
          rw [hk4] at ho
          simp only [Prod.mk.injEq] at ho
          obtain ⟨h1, h2⟩ := ho
          generalize (linkMissing env { st with heap := hp, curr := some g0, engineRuns := st.engineRuns + 1 } missing).1 = s at h1 h2
          cases hu : c.update (absorbGraph s.heap p g0).1 (definiteVertices (absorbGraph s.heap p g0).1 (absorbGraph s.heap p g0).2) with
          | mk c' r =>
            rw [hu] at h1 h2
            cases r with
            | error x => simp [Except.map] at h2
            | ok u =>
              simp only [Except.map, Except.ok.injEq] at h2
              subst h1 h2
              exact ⟨c', rfl, hu⟩
  obtain ⟨st1, g, acc, hl, _, hheap, hg, _, _, _⟩ := functionsDiff_good h hk
  have hst : st'.cache = st1.cache ∧ st'.engineRuns = st1.engineRuns := by
    rcases functionsDiff_cases h with ⟨x, h1, _⟩ | ⟨st2, g2, h1, _, h2, _⟩
    · rw [hl] at h1; cases h1
    · rw [hl] at h1; cases h1
      obtain ⟨_, _, _, e4, e5⟩ := finishDiff_state env f1 f2 st1 g
      rw [h2]; exact ⟨e5, e4⟩
  have hsc : shortcut st.heap (some p) f1 = none := by
    cases hs : shortcut st.heap (some p) f1 with
    | none => rfl
    | some q =>
      exfalso
      cases fuel with
      | zero => simp [engineLoop] at hl
      | succ n =>
        unfold engineLoop at hl
        simp only [hs, Option.some.injEq, Prod.mk.injEq] at hl
        unfold EngineRun at hr
        rw [hst.2, ← hl.1] at hr
        simp at hr
  obtain ⟨c', hc1, hc2⟩ := key _ _ _ _ (by exact hc) hl hsc
  refine ⟨c', g, hst.1.trans hc1, hg, ?_⟩
  intro v hv hset hcach
  obtain ⟨_, _, _, hF, log, hperm, htext⟩ := update_spec hcons' hc2
  rw [← hheap] at hF hperm
  have hvm : v ∈ definiteVertices st'.heap g := (definite_iff _ _ _).2 ⟨hv, hset⟩
  obtain ⟨F, hF⟩ := hF v hvm hcach
  have hname : cacheName c.directory c.cwd (st'.heap v).filesKey = F := by unfold cacheName; rw [hF]
  have hlog : (F, ((st'.heap v).names .left, (st'.heap v).names .right)) ∈ log := by
    rw [hperm.mem_iff]
    simp only [expectedLog, List.flatMap_cons, List.flatMap_nil, List.append_nil, List.mem_map, List.mem_filter, Prod.mk.injEq]
    exact ⟨v, ⟨hvm, hcach⟩, hname, rfl, rfl⟩
  obtain ⟨a, b, hab⟩ := List.append_of_mem hlog
  refine ⟨F, (c.fs.get? F).getD [] ++ logText a F, logText b F, hF, ?_⟩
  rw [htext F, hab, logText_append]
  simp [logText, cacheLine]

/-! ### A concrete run -/

namespace SessEx
/-- Three equal functions `k`, `f` and `h` without calls. -/
def heap : Heap
  | 0 => { names := fun _ => str! "k", result := .equal, files := fun _ => some (str! "a.h") }
  | 1 => { names := fun _ => str! "f", result := .equal, files := fun _ => some (str! "a.h") }
  | _ => { names := fun _ => str! "h", result := .equal, files := fun _ => some (str! "a.h") }

def g0 : Graph := { vertices := [(str! "k", 0)] }
def g1 : Graph := { vertices := [(str! "k", 0), (str! "f", 1)], equalFuns := [str! "f"] }
def g2 : Graph := { vertices := [(str! "k", 0), (str! "f", 1), (str! "h", 2)], equalFuns := [str! "h", str! "f"] }

/-- The engine returns just the compared function. -/
def env (n : Str) (v : Vid) : FDEnv where
  engine _ _ _ h := .ok (h, { vertices := [(n, v)] }, [])
  snapLookup _ _ _ := none
  srcLookup _ := none
  linkOk _ := false
  semdiff := none
  syntaxDiff _ := .ok []
  enum := id
  full := false

def cache0 : Cache := Cache.new (str! "d") [str! "w"]
def file : Str := str! "d/.:."
def cache1 : Cache := { cache0 with
  cacheMap := [((some (str! "a.h"), some (str! "a.h")), file)]
  fs := [(file, str! "k:k\nf:f\n")] }
def cache2 : Cache := { cache1 with fs := [(file, str! "k:k\nf:f\nk:k\nf:f\nh:h\n")] }

def st0 : FDState where
  heap := heap
  mods := fun _ => { llvm := str! "a.ll" }
  cache := some cache0
def st1 : FDState := { st0 with engineRuns := 1, curr := some g1, cache := some cache1 }
def st2 : FDState := { st0 with engineRuns := 1, curr := some g2, cache := some cache2 }

theorem search1 (s : Side) : reachableFrom heap g1 s (str! "f") = .ok ([1], []) := by
  have h1 : searchIter heap g1 s (some (str! "a.h")) 2 { visited := [], queue := [1], result := [1], bt := [] } =
      some (.ok { visited := [1], queue := [], result := [1], bt := [] }) := by cases s <;> rfl
  have h2 := searchLoop_of_iter h1
  unfold reachableFrom
  rw [show g1.vertices.get? (str! "f") = some 1 from rfl]
  simp only
  rw [show (heap 1).files s = some (str! "a.h") from rfl, h2]

theorem search2 (s : Side) : reachableFrom heap g2 s (str! "h") = .ok ([2], []) := by
  have h1 : searchIter heap g2 s (some (str! "a.h")) 2 { visited := [], queue := [2], result := [2], bt := [] } =
      some (.ok { visited := [2], queue := [], result := [2], bt := [] }) := by cases s <;> rfl
  have h2 := searchLoop_of_iter h1
  unfold reachableFrom
  rw [show g2.vertices.get? (str! "h") = some 2 from rfl]
  simp only
  rw [show (heap 2).files s = some (str! "a.h") from rfl, h2]

theorem run1 : functionsDiff (env (str! "f") 1) (str! "f") (str! "f") (some g0) 1 st0 =
    some (st1, .ok (((Res.new .none (str! "f") (str! "f")).setKind .equal).setGraph (some g1))) := by
  have hl : engineLoop (env (str! "f") 1) (str! "f") (some g0) 1 { st0 with curr := none, engineRuns := 0 } =
      some (st1, .ok g1) := by rfl
  have hf : funPairList id heap g1 (str! "f") (str! "f") false = .ok {} := by
    unfold funPairList
    rw [search1 .left]
    simp only
    rw [search1 .right]
    rfl
  rw [functionsDiff_eval hl (show funPairList (env (str! "f") 1).enum st1.heap g1 (str! "f") (str! "f") (env (str! "f") 1).full = _ from hf)]
  rfl

theorem run2 : functionsDiff (env (str! "h") 2) (str! "h") (str! "h") (some g1) 1 st1 =
    some (st2, .ok (((Res.new .none (str! "h") (str! "h")).setKind .equal).setGraph (some g2))) := by
  have hl : engineLoop (env (str! "h") 2) (str! "h") (some g1) 1 { st1 with curr := none, engineRuns := 0 } =
      some (st2, .ok g2) := by rfl
  have hf : funPairList id heap g2 (str! "h") (str! "h") false = .ok {} := by
    unfold funPairList
    rw [search2 .left]
    simp only
    rw [search2 .right]
    rfl
  rw [functionsDiff_eval hl (show funPairList (env (str! "h") 2).enum st2.heap g2 (str! "h") (str! "h") (env (str! "h") 2).full = _ from hf)]
  rfl

theorem session1 : Session (str! "d") [str! "w"] [(heap, g1)] cache1 := Session.step Session.start rfl run1 rfl
theorem session2 : Session (str! "d") [str! "w"] [(heap, g1), (heap, g2)] cache2 := Session.step session1 rfl run2 rfl
end SessEx

/-- The lines of the concrete run come from settled functions. -/
example : ∃ log : List (Str × (Str × Str)), (∀ F, (SessEx.cache2.fs.get? F).getD [] =
    (log.filter (fun e => decide (e.1 = F))).flatMap (fun e => e.2.1 ++ (str! ":") ++ e.2.2 ++ (str! "\n"))) :=
  (C14_only_settled _ _ _ _ SessEx.session2).imp (fun _ h => h.1)

/-- All hypotheses of `C14_all_settled` hold for the second comparison. -/
example : ∃ c' g, SessEx.st2.cache = some c' ∧ some SessEx.g2 = some g ∧ ∀ v ∈ g.vertices.values, Settled (SessEx.st2.heap v).result →
      (SessEx.st2.heap v).cachable = true → ∃ F before after,
        cacheFileName SessEx.cache1.directory SessEx.cache1.cwd ((SessEx.st2.heap v).files .left, (SessEx.st2.heap v).files .right) = .ok F ∧
        (c'.fs.get? F).getD [] = before ++ ((SessEx.st2.heap v).names .left ++ (str! ":") ++ (SessEx.st2.heap v).names .right ++ (str! "\n")) ++ after :=
  C14_all_settled (SessEx.env (str! "h") 2) _ _ SessEx.g1 1 SessEx.st1 _ _ _ ⟨_, SessEx.session1⟩ rfl SessEx.run2
    (by decide) Nat.one_pos (by rintro n m1 m2 h h' g ms he v hv; cases he; rfl)

/-! ### C66 -/

/-- **C66** as stated: no cache file contains the same line twice. -/
def C66_statement : Prop :=
  ∀ (dir : Str) (cwd : List Str) (seen : List (Heap × Graph)) (c : Cache), Session dir cwd seen c →
    ∀ F text, c.fs.get? F = some text → (splitChar '\n' text).Nodup

/-- **C66 (violated)** Every comparison writes all settled functions of the accumulated graph again. -/
theorem C66_fails : ¬ C66_statement := by
  intro h
  have := h _ _ _ _ SessEx.session2 SessEx.file _ rfl
  exact absurd this (by decide)

theorem splitChar_lines (ps : List (Str × Str)) (h : ∀ p ∈ ps, '\n' ∉ p.1 ∧ '\n' ∉ p.2) :
    splitChar '\n' (ps.flatMap cacheLine) = ps.map (fun p => p.1 ++ ':' :: p.2) ++ [[]] := by
  induction ps with
  | nil => rfl
  | cons p ps ih =>
    have e : cacheLine p ++ ps.flatMap cacheLine =
        (p.1 ++ ':' :: p.2) ++ '\n' :: ps.flatMap cacheLine := by simp [cacheLine]
    rw [List.flatMap_cons, e, splitChar_append _ _ _ (by simp [h p (by simp)]),
      ih fun q hq => h q (by simp [hq])]
    rfl

/-- **C66 (partial)** For any sequence of updates: no cache file contains a line twice exactly if no function is given to
the cache twice (in one update or in several ones), where functions with the same names whose source files lead to the
same cache file count as one. Missing: `functions_diff` gives all settled functions of the accumulated graph to each
update. -/
theorem C66_duplicates_partial (dir : Str) (cwd : List Str) (hist : History) (c' : Cache)
    (hg : GoodNames hist) (hr : runUpdates (Cache.new dir cwd) hist = .ok c') :
    (∀ F text, c'.fs.get? F = some text → (splitChar '\n' text).Nodup) ↔
      (expectedLog dir cwd hist).Nodup := by
  obtain ⟨_, _, log, hp, ht⟩ := runUpdates_spec hist _ c' (Cache.new_consistent dir cwd) hr
  have hp : log.Perm (expectedLog dir cwd hist) := hp
  rw [← hp.nodup_iff]
  have good : ∀ e ∈ log, GoodName e.2.1 ∧ GoodName e.2.2 := by
    intro e he
    have := hp.mem_iff.1 he
    simp only [expectedLog, List.mem_flatMap, List.mem_map, List.mem_filter] at this
    obtain ⟨x, hx, v, hv, rfl⟩ := this
    exact ⟨hg x hx v hv.1 .left, hg x hx v hv.1 .right⟩
  have text : ∀ F, (c'.fs.get? F).getD [] =
      ((log.filter (fun e => decide (e.1 = F))).map Prod.snd).flatMap cacheLine := by
    intro F
    rw [ht F]
    simp [Cache.new, logText, List.flatMap_map]
  have lines : ∀ F, splitChar '\n' ((c'.fs.get? F).getD []) =
      (log.filter (fun e => decide (e.1 = F))).map (fun e => e.2.1 ++ ':' :: e.2.2) ++ [[]] := by
    intro F
    rw [text F, splitChar_lines]
    · simp
    · intro p hp
      simp only [List.mem_map, List.mem_filter] at hp
      obtain ⟨e, he, rfl⟩ := hp
      exact ⟨(good e he.1).1.2.2, (good e he.1).2.2.2⟩
  have nodup : ∀ F, (splitChar '\n' ((c'.fs.get? F).getD [])).Nodup ↔
      (log.filter (fun e => decide (e.1 = F))).Nodup := by
    intro F
    rw [lines F, List.nodup_append]
    constructor
    · rintro ⟨h, -, -⟩
      exact h.of_map _
    · intro h
      refine ⟨?_, by simp, ?_⟩
      · rw [List.nodup_map_iff_inj_on h]
        intro a ha b hb hab
        rw [List.mem_filter, decide_eq_true_eq] at ha hb
        have h2 := congrArg (splitFirst ':') hab
        rw [splitFirst_append _ _ (good a ha.1).1.2.1, splitFirst_append _ _ (good b hb.1).1.2.1] at h2
        exact Prod.ext (ha.2.trans hb.2.symm) h2
      · intro a ha b hb
        simp only [List.mem_map] at ha
        obtain ⟨e, -, rfl⟩ := ha
        simp only [List.mem_singleton] at hb
        subst hb
        simp
  constructor
  · intro h
    rw [List.nodup_iff_count_le_one]
    intro e
    have h1 : (log.filter (fun x => decide (x.1 = e.1))).Nodup := by
      rw [← nodup]
      cases hF : c'.fs.get? e.1 with
      | none => simp [splitChar]
      | some t => exact h e.1 t hF
    have h2 := List.nodup_iff_count_le_one.1 h1 e
    rwa [List.count_filter (by simp)] at h2
  · intro h F t hF
    have := (nodup F).2 (h.filter _)
    rwa [hF] at this

/-- One update writes the function once; the same function given again is written again. -/
example : GoodNames CacheEx.hist ∧ runUpdates (Cache.new (str! "/tmp/c") []) CacheEx.hist = .ok CacheEx.cache ∧
    (expectedLog (str! "/tmp/c") [] CacheEx.hist).Nodup ∧
    ¬ (expectedLog (str! "/tmp/c") [] (CacheEx.hist ++ CacheEx.hist)).Nodup :=
  ⟨CacheEx.good, CacheEx.runs, by decide +kernel, by decide +kernel⟩

/-! ### C65 -/

theorem absorb_keeps (other : Dict Str Vid) (h : Heap) (g : Graph) (n : Str) (hn : (g.vertices.get? n).isSome) :
    ((other.foldl absorbOne (h, g)).2.vertices.get? n).isSome := by
  induction other generalizing h g with
  | nil => exact hn
  | cons x other ih =>
    obtain ⟨k, v⟩ := x
    rw [List.foldl_cons]
    have hset : ∀ h', ((g.setItem h' k v).vertices.get? n).isSome := by
      intro h'
      unfold Graph.setItem
      simp only
      rw [Dict.get?_set]
      split
      · rfl
      · exact hn
    unfold absorbOne
    simp only
    cases hk : g.vertices.get? k with
    | none => exact ih _ _ (hset _)
    | some old =>
      simp only
      split
      · split
        · exact ih _ _ (hset _)
        · exact ih _ _ (hset _)
      · exact ih _ _ hn

/-- **C65** as stated: the results known before a comparison are still known after it. -/
def C65_statement : Prop :=
  ∀ (env : FDEnv) (f1 f2 : Str) (p : Graph) (fuel : Nat) (st st' : FDState) (res : Res),
    functionsDiff env f1 f2 (some p) fuel st = some (st', .ok res) →
    ∀ n v, p.vertices.get? n = some v → ∃ g w, res.graph = some g ∧ g.vertices.get? n = some w

/-- **C65 (violated)** If the engine fails after a module has been linked, the graph of the run before is returned, without
the results known from earlier comparisons. -/
theorem C65_fails : ¬ C65_statement := by
  intro h
  obtain ⟨g, w, h1, h2⟩ := h LinkEx.env (str! "f") (str! "f") SessEx.g0 2 LinkEx.state LinkEx.after
    (((Res.new .none (str! "f") (str! "f")).setKind .error).setGraph (some {})) rfl (str! "k") 0 rfl
  cases h1
  simp [Dict.get?] at h2

/-- **C65 (partial)** The known results survive if the verdict is not error, or if the engine was run at most once.
Missing: failures after modules have been linked. -/
theorem C65_known_results_kept_partial (env : FDEnv) (f1 f2 : Str) (p : Graph) (fuel : Nat) (st st' : FDState) (res : Res)
    (h : functionsDiff env f1 f2 (some p) fuel st = some (st', .ok res))
    (hok : res.kind ≠ .error ∨ st'.engineRuns ≤ 1) (n : Str) (v : Vid) (hn : p.vertices.get? n = some v) :
    ∃ g w, res.graph = some g ∧ g.vertices.get? n = some w := by
  have hsome : (p.vertices.get? n).isSome := by rw [hn]; rfl
  have key : ∀ (k : Nat) (st : FDState) (o : FDState × Except PyErr Graph), engineLoop env f1 (some p) k st = some o →
      (∃ g, o.1.curr = some g ∧ (g.vertices.get? n).isSome) ∨
      (∃ x, o.2 = .error x ∧ ((o.1.curr = st.curr ∧ o.1.engineRuns = st.engineRuns + 1) ∨ st.engineRuns + 2 ≤ o.1.engineRuns)) := by
    intro k
    induction k with
    | zero => intro st o ho; simp [engineLoop] at ho
    | succ k ih =>
      intro st o ho
      unfold engineLoop at ho
      cases hs : shortcut st.heap (some p) f1 with
      | some q =>
        rw [hs] at ho; cases ho
        refine Or.inl ⟨q, rfl, ?_⟩
        unfold shortcut at hs
        simp only at hs
        cases hv : p.vertices.get? f1 with
        | none => rw [hv] at hs; simp at hs
        | some w =>
          rw [hv] at hs
          simp only at hs
          split at hs
          · cases hs; exact hsome
          · cases hs
      | none =>
        rw [hs] at ho
        simp only at ho
        cases he : env.engine st.engineRuns (st.mods .left) (st.mods .right) st.heap with
        | error x => rw [he] at ho; cases ho; exact Or.inr ⟨x, rfl, Or.inl ⟨rfl, rfl⟩⟩
        | ok r =>
          obtain ⟨hp, g0, missing⟩ := r
          rw [he] at ho
          simp only at ho
          have hk := (linkMissing_keeps env { st with heap := hp, curr := some g0, engineRuns := st.engineRuns + 1 } missing).2.1
          simp only at hk
          split at ho
          · rcases ih _ _ ho with h1 | ⟨x, h1, h2⟩
            · exact Or.inl h1
            · refine Or.inr ⟨x, h1, Or.inr ?_⟩
              rw [hk] at h2
              rcases h2 with ⟨_, h2⟩ | h2 <;> omega
          · cases ho
            left
            unfold mergeResults
            simp only
            cases (linkMissing env { st with heap := hp, curr := some g0, engineRuns := st.engineRuns + 1 } missing).1.cache <;>
              exact ⟨_, rfl, absorb_keeps _ _ _ _ hsome⟩
  have hmain : ∃ g, (match st'.curr with | some g => some g | none => some p) = some g ∧ (g.vertices.get? n).isSome := by
    rcases functionsDiff_cases h with ⟨x, h1, h2⟩ | ⟨st1, g, h1, hc, h2, h3⟩
    · rcases key _ _ _ h1 with ⟨g, q1, q2⟩ | ⟨y, _, q2⟩
      · exact ⟨g, by rw [q1], q2⟩
      · rcases q2 with ⟨q2, _⟩ | q2
        · exact ⟨p, by simp only at q2; rw [q2], hsome⟩
        · simp only at q2
          rcases hok with hok | hok
          · rcases wrapUp_kind h2.symm with ⟨e, _⟩ | ⟨_, e⟩
            · cases e
            · exact absurd e hok
          · omega
    · rcases key _ _ _ h1 with ⟨g', q1, q2⟩ | ⟨y, q1, _⟩
      · rw [h2, (finishDiff_state env f1 f2 st1 g).2.2.1]
        exact ⟨g', by rw [q1], q2⟩
      · cases q1
  have hgr : res.graph = (match st'.curr with | some g => some g | none => some p) := by
    rcases functionsDiff_cases h with ⟨x, _, h2⟩ | ⟨_, _, _, _, _, h3⟩
    · exact wrapUp_graph h2.symm
    · exact wrapUp_graph h3.symm
  obtain ⟨g, hg1, hg2⟩ := hmain
  obtain ⟨w, hw⟩ := Option.isSome_iff_exists.1 hg2
  exact ⟨g, w, hgr.trans hg1, hw⟩

/-- In the concrete run the results of `k` and `f` are still known after the second comparison. -/
example : ∃ g w, some SessEx.g2 = some g ∧ g.vertices.get? (str! "f") = some w :=
  C65_known_results_kept_partial _ _ _ _ _ _ _ _ SessEx.run2 (Or.inl (by decide)) _ 1 rfl

end DK
