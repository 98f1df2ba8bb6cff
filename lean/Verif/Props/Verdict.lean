import Verif.Props.FunctionsDiff

/-! C19, C20 and C62: the verdict of a comparison and its parts. -/

set_option autoImplicit false

namespace DK
open Spec

/-- The set of functions found on both sides is enumerated completely, in some order. -/
def Spec.Enumerates (env : FDEnv) : Prop := ∀ l, (env.enum l).Perm l

theorem objKind_none {env : FDEnv} (hs : env.semdiff = none) (o : Obj) : objKind env o = .ok o.kind := by
  unfold objKind; rw [hs]

/-- What a comparison without semantic tool consists of: `kept` are the listed objects that got an entry, with diffs. -/
theorem compareObjs_plain {env : FDEnv} {acc : PairAcc} (hs : env.semdiff = none) : ∀ (os : List Obj) (r r' : Res),
    compareObjs env acc r os = (r', .ok ()) →
    ∃ kept : List (Obj × Option Str), r' = (kept.map (fun x => entryOf x.1 x.1.kind x.2)).foldl Res.addInner r ∧
      (∀ x ∈ kept, x.1 ∈ os ∧ objDiff env acc x.1.kind x.1 = .ok x.2) ∧
      (kept.map Prod.fst).Sublist os ∧
      (∀ o ∈ os, o.kind = .notEqual ∨ objDiff env acc o.kind o ≠ .ok (some []) → ∃ d, (o, d) ∈ kept) ∧
      ((∀ o ∈ os, o.kind = .notEqual ∨ objDiff env acc o.kind o ≠ .ok (some [])) → kept.map Prod.fst = os) := by
  intro os
  induction os with
  | nil =>
    intro r r' h
    simp only [compareObjs, Prod.mk.injEq, and_true] at h
    exact ⟨[], by simp [h], by simp, by simp, by simp, by simp⟩
  | cons o os ih =>
    intro r r' h
    unfold compareObjs at h
    rw [objKind_none hs] at h
    simp only at h
    cases hd : objDiff env acc o.kind o with
    | error x => rw [hd] at h; simp at h
    | ok d =>
      rw [hd] at h
      simp only at h
      by_cases hsk : o.kind ≠ .notEqual ∧ d = some []
      · rw [if_pos hsk] at h
        obtain ⟨kept, h1, h2, h3, h4, h5⟩ := ih r r' h
        have hno : ¬ (o.kind = .notEqual ∨ objDiff env acc o.kind o ≠ .ok (some [])) := by
          rw [hd, hsk.2]; simp [hsk.1]
        refine ⟨kept, h1, fun x hx => ⟨List.mem_cons_of_mem _ (h2 x hx).1, (h2 x hx).2⟩, h3.cons _, ?_, ?_⟩
        · intro o' ho' hc
          rw [List.mem_cons] at ho'
          rcases ho' with rfl | ho'
          · exact absurd hc hno
          · exact h4 o' ho' hc
        · intro hc
          exact absurd (hc o List.mem_cons_self) hno
      · rw [if_neg hsk] at h
        obtain ⟨kept, h1, h2, h3, h4, h5⟩ := ih _ r' h
        refine ⟨(o, d) :: kept, ?_, ?_, ?_, ?_, ?_⟩
        · rw [List.map_cons, List.foldl_cons, h1]; rfl
        · intro x hx
          rw [List.mem_cons] at hx
          rcases hx with rfl | hx
          · exact ⟨List.mem_cons_self, hd⟩
          · exact ⟨List.mem_cons_of_mem _ (h2 x hx).1, (h2 x hx).2⟩
        · rw [List.map_cons]; exact h3.cons_cons _
        · intro o' ho' hc
          rw [List.mem_cons] at ho'
          rcases ho' with rfl | ho'
          · exact ⟨d, List.mem_cons_self⟩
          · obtain ⟨d', hd'⟩ := h4 o' ho' hc
            exact ⟨d', List.mem_cons_of_mem _ hd'⟩
        · intro hc
          rw [List.map_cons, h5 (fun o' ho' => hc o' (List.mem_cons_of_mem _ ho'))]

/-- The listed objects of the functions found on both sides. -/
theorem listed_objs {enum : List Vid → List Vid} (henum : ∀ l, (enum l).Perm l) {h : Heap} {g : Graph} {f1 f2 : Str}
    {full : Bool} {acc : PairAcc} (hf : funPairList enum h g f1 f2 full = .ok acc) :
    (∀ v, FoundOnBothSides h g f1 f2 v → Interesting full (h v).result →
      ∃ o ∈ acc.objs, o.kind = (h v).result ∧ o.first.name = (h v).names .left ∧ o.second.name = (h v).names .right ∧
        o.first.kind = .function) ∧
    (∀ o ∈ acc.objs, ∃ v, FoundOnBothSides h g f1 f2 v ∧ Interesting full (h v).result ∧
      (o.kind = (h v).result ∨ o.kind = .notEqual)) := by
  unfold funPairList at hf
  cases hl : reachableFrom h g .left f1 with
  | error x => rw [hl] at hf; simp at hf
  | ok a =>
    obtain ⟨rl, btL⟩ := a
    cases hr : reachableFrom h g .right f2 with
    | error x => rw [hl] at hf; simp only at hf; rw [hr] at hf; simp at hf
    | ok b =>
      obtain ⟨rr, btR⟩ := b
      obtain ⟨s1, h1, _⟩ := C04_reported_is_reachable hl
      obtain ⟨s2, h2, _⟩ := C04_reported_is_reachable hr
      obtain ⟨order, cs, res, q1, q2, q3, _, q5, _⟩ :=
        C08_exactly_interesting_differences enum henum h g f1 f2 full s1 s2 rl rr btL btR h1 h2 hl hr
      have : res = acc := by
        have : funPairList enum h g f1 f2 full = .ok acc := by unfold funPairList; exact hf
        rw [q1] at this; exact Except.ok.inj this
      subst this
      constructor
      · rintro v ⟨rl', btL', rr', btR', e1, e2, hv1, hv2⟩ hi
        rw [hl] at e1; cases e1
        rw [hr] at e2; cases e2
        rw [q5]
        refine ⟨⟨functionEntry h f1 .left v (cs .left v), functionEntry h f2 .right v (cs .right v), (h v).result⟩, ?_, rfl, rfl, rfl, rfl⟩
        rw [List.mem_flatMap]
        exact ⟨v, (q3 v).2 ⟨hv1, hv2, hi⟩, List.mem_cons_self⟩
      · intro o ho
        rw [q5, List.mem_flatMap] at ho
        obtain ⟨v, hv, ho⟩ := ho
        obtain ⟨a, b, c⟩ := (q3 v).1 hv
        refine ⟨v, ⟨rl, btL, rr, btR, hl, hr, a, b⟩, c, ?_⟩
        rw [List.mem_cons, List.mem_map] at ho
        rcases ho with rfl | ⟨d, _, rfl⟩
        · exact Or.inl rfl
        · exact Or.inr rfl

/-! ### C19 -/

/-- **C19** A not-equal function found on both sides of the result graph makes the verdict not-equal or worse. -/
theorem C19_difference_reported (env : FDEnv) (hs : env.semdiff = none) (he : Enumerates env) (f1 f2 : Str)
    (prev : Option Graph) (fuel : Nat) (st st' : FDState) (res : Res) (g : Graph) (v : Vid)
    (h : functionsDiff env f1 f2 prev fuel st = some (st', .ok res)) (hg : res.graph = some g)
    (hv : FoundOnBothSides st'.heap g f1 f2 v) (hne : (st'.heap v).result = .notEqual) :
    AtMost .notEqual res.kind := by
  by_cases hk : res.kind = .error
  · rw [hk]; decide
  obtain ⟨st1, g', acc, _, hf, _, hg', _, _, hcase⟩ := functionsDiff_good h hk
  rw [hg] at hg'; cases hg'
  obtain ⟨o, ho, hok, _⟩ := (listed_objs he hf).1 v hv (by rw [hne]; simp [Interesting])
  rcases hcase with ⟨hnil, _⟩ | ⟨_, r, hr, hkind, _⟩
  · rw [hnil] at ho; simp at ho
  · obtain ⟨kept, h1, _, _, h4, _⟩ := compareObjs_plain hs _ _ _ hr
    obtain ⟨d, hd⟩ := h4 o ho (Or.inl (by rw [hok, hne]))
    rw [atMost_iff, hkind, h1]
    have := (foldl_addInner_le (kept.map (fun x => entryOf x.1 x.1.kind x.2)) (Res.new .none f1 f2)).2 _
      (List.mem_map.2 ⟨_, hd, rfl⟩)
    simpa [entryOf, Res.kind, hok, hne] using this

/-- **C19** If all functions found on both sides are equal or assumed-equal and the comparison does not fail, no difference
is reported; without full diff the verdict is equal. -/
theorem C19_no_difference_invented (env : FDEnv) (hs : env.semdiff = none) (he : Enumerates env) (f1 f2 : Str)
    (prev : Option Graph) (fuel : Nat) (st st' : FDState) (res : Res) (g : Graph)
    (h : functionsDiff env f1 f2 prev fuel st = some (st', .ok res)) (hk : res.kind ≠ .error) (hg : res.graph = some g)
    (hall : ∀ v, FoundOnBothSides st'.heap g f1 f2 v →
      ((st'.heap v).result = .equal ∨ (st'.heap v).result = .assumedEqual) ∧ (st'.heap v).nonfunDiffs = []) :
    AtMost res.kind .equal ∧ (env.full = false → res.kind = .equal ∧ res.inner = []) := by
  obtain ⟨st1, g', acc, _, hf, _, hg', _, _, hcase⟩ := functionsDiff_good h hk
  rw [hg] at hg'; cases hg'
  have hobj : ∀ o ∈ acc.objs, o.kind = .equal ∧ env.full = true := by
    intro o ho
    unfold funPairList at hf
    cases hl : reachableFrom st'.heap g .left f1 with
    | error x => rw [hl] at hf; simp at hf
    | ok a =>
      obtain ⟨rl, btL⟩ := a
      cases hr : reachableFrom st'.heap g .right f2 with
      | error x => rw [hl] at hf; simp only at hf; rw [hr] at hf; simp at hf
      | ok b =>
        obtain ⟨rr, btR⟩ := b
        obtain ⟨s1, h1, _⟩ := C04_reported_is_reachable hl
        obtain ⟨s2, h2, _⟩ := C04_reported_is_reachable hr
        obtain ⟨order, cs, res', q1, q2, q3, _, q5, _⟩ :=
          C08_exactly_interesting_differences env.enum he st'.heap g f1 f2 env.full s1 s2 rl rr btL btR h1 h2 hl hr
        have : res' = acc := by
          have : funPairList env.enum st'.heap g f1 f2 env.full = .ok acc := by unfold funPairList; exact hf
          rw [q1] at this; exact Except.ok.inj this
        subst this
        rw [q5, List.mem_flatMap] at ho
        obtain ⟨v, hv, ho⟩ := ho
        obtain ⟨a, b, c⟩ := (q3 v).1 hv
        obtain ⟨hres, hnd⟩ := hall v ⟨rl, btL, rr, btR, hl, hr, a, b⟩
        rw [hnd] at ho
        simp only [List.map_nil, List.mem_singleton] at ho
        rw [ho]
        rcases hres with hres | hres
        · exact ⟨hres, c.2 hres⟩
        · exact absurd hres c.1
  rcases hcase with ⟨hnil, hkind, hin⟩ | ⟨hne, r, hr, hkind, _⟩
  · rw [hkind]; exact ⟨by decide, fun _ => ⟨rfl, hin⟩⟩
  · obtain ⟨kept, h1, h2, _⟩ := compareObjs_plain hs _ _ _ hr
    constructor
    · rw [atMost_iff, hkind, h1]
      rcases foldl_addInner_mem (kept.map (fun x => entryOf x.1 x.1.kind x.2)) (Res.new .none f1 f2) with e | ⟨x, hx, e⟩
      · rw [e]; show Kind.none.toNat ≤ Kind.equal.toNat; decide
      · rw [e]
        rw [List.mem_map] at hx
        obtain ⟨y, hy, rfl⟩ := hx
        simp only [entryOf, Res.kind]
        rw [(hobj _ (h2 y hy).1).1]
    · intro hfull
      obtain ⟨o, ho⟩ := List.exists_mem_of_ne_nil _ hne
      have := (hobj o ho).2
      rw [hfull] at this; simp at this

/-- **C19** If a run of the engine fails, the comparison ends right then with the verdict error. -/
theorem C19_engine_failure (env : FDEnv) (f1 f2 : Str) (prev : Option Graph) (fuel : Nat) (st st' : FDState)
    (out : Except PyErr Res) (n : Nat) (hfail : ∀ m1 m2 hp, env.engine n m1 m2 hp = .error .simpll)
    (h : functionsDiff env f1 f2 prev fuel st = some (st', out)) (hn : n < st'.engineRuns) :
    st'.engineRuns = n + 1 ∧ ∃ res, out = .ok res ∧ res.kind = .error := by
  have key : ∀ (k : Nat) (st : FDState) (o : FDState × Except PyErr Graph), engineLoop env f1 prev k st = some o →
      st.engineRuns ≤ n → n < o.1.engineRuns → o.1.engineRuns = n + 1 ∧ o.2 = .error .simpll := by
    intro k
    induction k with
    | zero => intro st o ho; simp [engineLoop] at ho
    | succ k ih =>
      intro st o ho hle hlt
      unfold engineLoop at ho
      cases hsc : shortcut st.heap prev f1 with
      | some p => rw [hsc] at ho; cases ho; simp only at hlt; omega
      | none =>
        rw [hsc] at ho
        simp only at ho
        cases hen : env.engine st.engineRuns (st.mods .left) (st.mods .right) st.heap with
        | error x =>
          rw [hen] at ho; cases ho
          simp only at hlt ⊢
          have e : st.engineRuns = n := by omega
          rw [e, hfail] at hen
          cases hen
          exact ⟨by omega, rfl⟩
        | ok r =>
          obtain ⟨hp, g, missing⟩ := r
          rw [hen] at ho
          simp only at ho
          have e : st.engineRuns ≠ n := by
            intro e; rw [e, hfail] at hen; cases hen
          have hkeep := (linkMissing_keeps env { st with heap := hp, curr := some g, engineRuns := st.engineRuns + 1 } missing).2.1
          split at ho
          · exact ih _ _ ho (by rw [hkeep]; simp only; omega) hlt
          · cases ho
            rw [(mergeResults_runs _ prev g).1, hkeep] at hlt
            simp only at hlt
            omega
  rcases functionsDiff_cases h with ⟨x, h1, h2⟩ | ⟨st1, g, h1, _, h2, _⟩
  · obtain ⟨a, b⟩ := key _ _ _ h1 (by simp) hn
    cases b
    exact ⟨a, _, h2, rfl⟩
  · rw [h2, (finishDiff_state env f1 f2 st1 g).2.2.2.1] at hn
    have := (key _ _ _ h1 (by simp) hn).2
    cases this

/-- Evaluation of a comparison from its parts. -/
theorem functionsDiff_eval {env : FDEnv} {f1 f2 : Str} {prev : Option Graph} {fuel : Nat} {st st1 : FDState} {g : Graph}
    {acc : PairAcc} (hl : engineLoop env f1 prev fuel { st with curr := none, engineRuns := 0 } = some (st1, .ok g))
    (hf : funPairList env.enum st1.heap g f1 f2 env.full = .ok acc) :
    functionsDiff env f1 f2 prev fuel st =
      some ({ st1 with mods := fun s => (st1.mods s).restore },
        if acc.objs = [] then wrapUp st1 prev ((Res.new .none f1 f2).setKind .equal) (.ok ())
        else wrapUp st1 prev (compareObjs env acc (Res.new .none f1 f2) acc.objs).1
          (compareObjs env acc (Res.new .none f1 f2) acc.objs).2) := by
  unfold functionsDiff
  rw [hl]
  simp only
  unfold finishDiff
  rw [hf]
  simp only
  cases acc.objs with
  | nil => rfl
  | cons o os => rfl

/-- A comparison whose engine returns the example graph of C04–C08, with full diff and empty diffs. -/
def VerdictEx.env (full : Bool) (d : Str) : FDEnv where
  engine _ _ _ _ := .ok (SearchEx.heap, SearchEx.graph, [])
  snapLookup _ _ _ := none
  srcLookup _ := none
  linkOk _ := false
  semdiff := none
  syntaxDiff _ := .ok d
  enum := id
  full := full

/-- In the example the compared functions call the not-equal function `f`, so the verdict is at least not-equal. -/
example : ∃ st' res, functionsDiff (VerdictEx.env false []) (str! "main") (str! "main") none 1 LinkEx.state = some (st', .ok res) ∧
    AtMost .notEqual res.kind := by
  obtain ⟨order, cs, acc, h1, h2, h3, _, h5, _⟩ := C08_exactly_interesting_differences id (fun _ => List.Perm.refl _)
    SearchEx.heap SearchEx.graph (str! "main") (str! "main") false 0 0 _ _ _ _ (by decide) (by decide)
    SearchEx.runs SearchEx.runs_right
  have hmem : ∀ v, v ∈ order ↔ v = 1 := by
    intro v
    rw [h3]
    constructor
    · rintro ⟨a, _, b⟩
      simp at a
      rcases a with rfl | rfl | rfl
      · exact absurd (b.2 rfl) (by simp)
      · rfl
      · exact absurd (b.2 rfl) (by simp)
    · rintro rfl
      exact ⟨by simp, by simp, by simp [Interesting, SearchEx.heap]⟩
  have hord : order = [1] := by
    match order, h2, hmem with
    | [], _, hm => exact absurd ((hm 1).2 rfl) (by simp)
    | [a], _, hm => rw [(hm a).1 (by simp)]
    | a :: b :: l, hn, hm =>
      have e1 := (hm a).1 (by simp)
      have e2 := (hm b).1 (by simp)
      subst e1 e2
      simp at hn
  rw [hord] at h5
  have hobjs : acc.objs = [⟨functionEntry SearchEx.heap (str! "main") .left 1 (cs .left 1),
      functionEntry SearchEx.heap (str! "main") .right 1 (cs .right 1), .notEqual⟩] := by rw [h5]; rfl
  have hrun : ∃ st' res, functionsDiff (VerdictEx.env false []) (str! "main") (str! "main") none 1 LinkEx.state = some (st', .ok res) ∧
      res.graph = some SearchEx.graph ∧ st'.heap = SearchEx.heap := by
    have hl : engineLoop (VerdictEx.env false []) (str! "main") none 1 { LinkEx.state with curr := none, engineRuns := 0 } =
      some ({ LinkEx.state with curr := some SearchEx.graph, engineRuns := 1 }, .ok SearchEx.graph) := rfl
    rw [functionsDiff_eval hl h1, hobjs]
    exact ⟨_, _, rfl, rfl, rfl⟩
  obtain ⟨st', res, hr, hg, hh⟩ := hrun
  refine ⟨st', res, hr, C19_difference_reported _ rfl (fun _ => List.Perm.refl _) _ _ _ _ _ _ _ _ 1 hr hg ?_ ?_⟩
  · rw [hh]
    exact ⟨_, _, _, _, SearchEx.runs, SearchEx.runs_right, by simp, by simp⟩
  · rw [hh]; rfl

/-- The second run of `LinkEx.env` always fails. -/
example : ∃ res, (Except.ok (((Res.new .none (str! "f") (str! "f")).setKind .error).setGraph (some {})) : Except PyErr Res)
    = .ok res ∧ res.kind = .error :=
  (C19_engine_failure LinkEx.env _ _ _ _ _ _ _ 1 (fun _ _ _ => rfl) LinkEx.runs (by decide)).2

/-! ### C20 -/

/-- **C20** as stated: a comparison never ends with the verdict none. -/
def C20_statement : Prop :=
  ∀ (env : FDEnv) (f1 f2 : Str) (prev : Option Graph) (fuel : Nat) (st st' : FDState) (res : Res),
    env.semdiff = none → Enumerates env → functionsDiff env f1 f2 prev fuel st = some (st', .ok res) →
    (∀ g v, res.graph = some g → FoundOnBothSides st'.heap g f1 f2 v → (st'.heap v).result ≠ .none) →
    res.kind ≠ .none

namespace NoneEx
/-- A single equal function. -/
def heap : Heap := fun _ => { names := fun _ => str! "f", result := .equal, files := fun _ => some (str! "a.c") }
def graph : Graph := { vertices := [(str! "f", 0)] }

theorem runs (s : Side) : reachableFrom heap graph s (str! "f") = .ok ([0], []) := by
  have h1 : searchIter heap graph s (some (str! "a.c")) 2 { visited := [], queue := [0], result := [0], bt := [] } =
      some (.ok { visited := [0], queue := [], result := [0], bt := [] }) := by cases s <;> rfl
  have h2 := searchLoop_of_iter h1
  unfold reachableFrom
  rw [show graph.vertices.get? (str! "f") = some 0 from rfl]
  simp only
  rw [show (heap 0).files s = some (str! "a.c") from rfl, h2]

def env : FDEnv where
  engine _ _ _ _ := .ok (heap, graph, [])
  snapLookup _ _ _ := none
  srcLookup _ := none
  linkOk _ := false
  semdiff := none
  syntaxDiff _ := .ok []
  enum := id
  full := true

theorem list : funPairList id heap graph (str! "f") (str! "f") true = .ok
    { objs := [⟨{ name := str! "f", filename := some (str! "a.c") }, { name := str! "f", filename := some (str! "a.c") }, .equal⟩]
      bodiesL := [], bodiesR := [] } := by
  unfold funPairList
  rw [runs .left]
  simp only
  rw [runs .right]
  rfl

theorem diff : functionsDiff env (str! "f") (str! "f") none 1 LinkEx.state =
    some ({ LinkEx.state with heap := heap, curr := some graph, engineRuns := 1 },
      .ok ((Res.new .none (str! "f") (str! "f")).setGraph (some graph))) := by
  have hl : engineLoop env (str! "f") none 1 { LinkEx.state with curr := none, engineRuns := 0 } =
      some ({ LinkEx.state with heap := heap, curr := some graph, engineRuns := 1 }, .ok graph) := rfl
  rw [functionsDiff_eval hl list]
  rfl
end NoneEx

/-- **C20 (violated)** With full diff, two equal functions without a textual difference get the verdict none. -/
theorem C20_fails : ¬ C20_statement := by
  intro h
  refine h NoneEx.env _ _ _ _ _ _ _ rfl (fun _ => List.Perm.refl _) NoneEx.diff ?_ rfl
  rintro g v hg _
  simp [NoneEx.heap]

/-- **C20 (partial)** Without full diff the verdict is never none. With full diff it is not none if some function found on
both sides is not-equal. Missing: with full diff the verdict is none if no listed function differs. -/
theorem C20_definite_verdict_partial (env : FDEnv) (f1 f2 : Str) (prev : Option Graph) (fuel : Nat) (st st' : FDState)
    (res : Res) (hs : env.semdiff = none) (he : Enumerates env)
    (h : functionsDiff env f1 f2 prev fuel st = some (st', .ok res))
    (hnone : ∀ g v, res.graph = some g → FoundOnBothSides st'.heap g f1 f2 v → (st'.heap v).result ≠ .none)
    (hfull : env.full = false ∨ ∃ g v, res.graph = some g ∧ FoundOnBothSides st'.heap g f1 f2 v ∧
      (st'.heap v).result = .notEqual) :
    res.kind ≠ .none := by
  rcases hfull with hfull | ⟨g, v, hg, hv, hne⟩
  swap
  · have := C19_difference_reported env hs he f1 f2 prev fuel st st' res g v h hg hv hne
    intro hk
    rw [hk] at this
    exact absurd this (by decide)
  intro hk
  obtain ⟨st1, g, acc, _, hf, _, hg, _, _, hcase⟩ := functionsDiff_good h (by rw [hk]; decide)
  rcases hcase with ⟨_, hkind, _⟩ | ⟨hne, r, hr, hkind, _⟩
  · rw [hk] at hkind; cases hkind
  · obtain ⟨kept, h1, h2, _, _, h5⟩ := compareObjs_plain hs _ _ _ hr
    have hall : ∀ o ∈ acc.objs, o.kind = .notEqual ∨ objDiff env acc o.kind o ≠ .ok (some []) := by
      intro o _
      by_cases hok : o.kind = .notEqual
      · exact Or.inl hok
      · right
        unfold objDiff
        rw [if_neg (by simp [hok, hfull])]
        simp
    have hmap := h5 hall
    obtain ⟨o, ho⟩ := List.exists_mem_of_ne_nil _ hne
    have ho' := ho
    rw [← hmap, List.mem_map] at ho'
    obtain ⟨x, hx, hxo⟩ := ho'
    have hle := (foldl_addInner_le (kept.map (fun x => entryOf x.1 x.1.kind x.2)) (Res.new .none f1 f2)).2 _
      (List.mem_map.2 ⟨x, hx, rfl⟩)
    rw [← h1, ← hkind, hk] at hle
    have hok : o.kind ≠ .none := by
      obtain ⟨v, hv, _, hv' | hv'⟩ := (listed_objs he hf).2 o ho
      · rw [hv']; exact hnone g v hg hv
      · rw [hv']; decide
    rw [← hxo] at hok
    simp only [entryOf, Res.kind] at hle
    revert hle hok
    cases x.1.kind <;> decide

end DK
