import Verif.Props.Compare
import Verif.Props.Session
import Std.Data.String.ToNat

/-! C22–C24, C55, C71, C72: the filter, the graph of the overall result, the output. -/

set_option autoImplicit false

namespace DK
open Spec

/-- A comparison in which only `f` can be compared, with a given result. -/
def constEnv (f : Str) (res : Res) (full : Bool) (regex : Option (Str → Bool)) (showDiff toDir : Bool) : CmpEnv Unit where
  diff _ f' _ _ prev _ := ((), if f' = f ∧ prev.isNone then .ok res else .error .exit)
  newGroup _ := ()
  regex := regex
  full := full
  showDiff := showDiff
  toDir := toDir

theorem constEnv_runs {f : Str} {res : Res} {full : Bool} {regex : Option (Str → Bool)} {showDiff toDir : Bool} {fenv : FDEnv}
    {fuel : Nat} {st st' : FDState} (hfull : fenv.full = full) (h : functionsDiff fenv f f none fuel st = some (st', .ok res)) :
    RunsFunctionsDiff (constEnv f res full regex showDiff toDir) := by
  intro g f' old new prev w r hr
  simp only [constEnv] at hr
  split at hr
  · next hc =>
    cases hr
    obtain ⟨rfl, hp⟩ := hc
    rw [Option.isNone_iff_eq_none] at hp
    subst hp
    exact ⟨fenv, fuel, st, st', hfull, h⟩
  · cases hr

/-! ### C22 -/

/-- **C22** as stated: a function is reported equal only if it was found equal, or if it was found not-equal and none of
its diffs matches. -/
def C22_statement : Prop :=
  ∀ (σ : Type) (env : CmpEnv σ) (dir : Str) (first second : FunGroups) (w : σ) (st : CmpState (σ × List Compared)),
    RunsFunctionsDiff env → ProperGroups first → compareSnapshots (logged env) dir first second (w, []) = .ok st →
    ∀ f r, Dict.get? st.result.inner f = some r → r.kind = .equal →
      ∃ c ∈ st.world.2, c.name = f ∧ ∃ res, c.out = .ok res ∧
        (res.kind = .equal ∨ (res.kind = .notEqual ∧ ∀ m, env.regex = some m → ∀ x ∈ res.inner.values, ∀ d, x.diff = some d → m d = false))

/-- **C22 (violated)** With a regex filter a failed comparison is reported as equal. -/
theorem C22_fails : ¬ C22_statement := by
  intro h
  have hrun : ∃ st, compareSnapshots (logged (toolEnv CmpEx.failing CmpEx.state (some (fun _ => true)) false false)) []
      CmpEx.first CmpEx.second ((), []) = .ok st ∧ (∃ r, Dict.get? st.result.inner (str! "a") = some r ∧ r.kind = .equal) ∧
      ∀ c ∈ st.world.2, ∀ res, c.out = .ok res → res.kind = .error := by
    refine ⟨_, rfl, ⟨_, rfl, rfl⟩, ?_⟩
    intro c hc res hr
    change c ∈ [(_ : Compared)] at hc
    rw [List.mem_singleton] at hc
    subst hc
    cases hr
    rfl
  obtain ⟨st, hr, ⟨r, hg, hk⟩, hall⟩ := hrun
  obtain ⟨c, hc, _, res, ho, hcase⟩ := h Unit _ _ _ _ _ _ (toolEnv_runs _ _ _ _ _) (properGroups_of_decide (by decide)) hr _ r hg hk
  have := hall c hc res ho
  rcases hcase with e | ⟨e, _⟩ <;> rw [e] at this <;> cases this

/-- **C22 (partial)** Every entry for a compared function has the verdict found by the comparison, except if there is a
filter and no diff matches: then the verdict is equal. Missing: this also hides verdicts other than not-equal. -/
theorem C22_filter_partial {σ : Type} (env : CmpEnv σ) (dir : Str) (first second : FunGroups) (w : σ)
    (st : CmpState (σ × List Compared)) (hd : RunsFunctionsDiff env) (hp : ProperGroups first)
    (h : compareSnapshots (logged env) dir first second (w, []) = .ok st)
    (f : Str) (r : Res) (hr : Dict.get? st.result.inner f = some r) :
    (r.kind = .unknown ∧ r.inner = []) ∨ ∃ c ∈ st.world.2, c.name = f ∧ ∃ res, c.out = .ok res ∧ r.inner = res.inner ∧
      (env.regex = none → r.kind = res.kind) ∧
      ∀ m, env.regex = some m →
        ((∃ x ∈ res.inner.values, ∃ d, x.diff = some d ∧ m d = true) → r.kind = res.kind) ∧
        ((∀ x ∈ res.inner.values, ∀ d, x.diff = some d → m d = false) → r.kind = .equal) := by
  obtain ⟨_, h2, _⟩ := C03_entries_partial env dir first second w st hd hp h
  obtain ⟨g, old, new, _, _, ⟨_, rfl⟩ | ⟨_, _, prev, res, hm, hf⟩⟩ := h2 f r hr
  · exact Or.inl ⟨rfl, rfl⟩
  · refine Or.inr ⟨_, hm, rfl, res, rfl, (filtered_graph hf).2.2, ?_, ?_⟩
    · intro hn
      unfold Filtered at hf
      rw [hn] at hf
      rw [hf]
    · intro m hm
      unfold Filtered at hf
      rw [hm] at hf
      simp only at hf
      rcases hf with ⟨⟨x, hx, d, hd', hmd⟩, rfl⟩ | ⟨hno, rfl⟩
      · refine ⟨fun _ => rfl, ?_⟩
        intro hno
        have := hno x hx d hd'
        rw [hmd] at this; cases this
      · refine ⟨?_, fun _ => rfl⟩
        rintro ⟨x, hx, d, hd', hmd⟩
        have := hno x hx d hd'
        rw [hmd] at this; cases this

/-- In the example of `C22_fails` the entry of `a` comes from a comparison. -/
example : ∃ st r, compareSnapshots (logged (toolEnv CmpEx.failing CmpEx.state (some (fun _ => true)) false false)) []
      CmpEx.first CmpEx.second ((), []) = .ok st ∧ Dict.get? st.result.inner (str! "a") = some r ∧ r.kind ≠ .unknown :=
  ⟨_, _, rfl, rfl, by decide⟩

/-! ### C23 -/

/-- **C23** as stated: if some function has been compared, the overall result has a graph with all compared functions. -/
def C23_statement : Prop :=
  ∀ (σ : Type) (env : CmpEnv σ) (dir : Str) (first second : FunGroups) (w : σ) (st : CmpState (σ × List Compared)),
    RunsFunctionsDiff env → ProperGroups first → compareSnapshots (logged env) dir first second (w, []) = .ok st →
    (∀ c ∈ st.world.2, ∀ res, c.out = .ok res → res.kind ≠ .error) → st.world.2 ≠ [] →
    ∃ g, st.result.graph = some g ∧ ∀ c ∈ st.world.2, (g.vertices.get? c.name).isSome

namespace EqualEx
def env : FDEnv := { NoneEx.env with full := false }

theorem list : funPairList id NoneEx.heap NoneEx.graph (str! "f") (str! "f") false = .ok { objs := [], bodiesL := [], bodiesR := [] } := by
  unfold funPairList
  rw [NoneEx.runs .left]
  simp only
  rw [NoneEx.runs .right]
  rfl

def res : Res := ((Res.new .none (str! "f") (str! "f")).setKind .equal).setGraph (some NoneEx.graph)

/-- A single function that is equal. -/
theorem diff : functionsDiff env (str! "f") (str! "f") none 1 LinkEx.state =
    some ({ LinkEx.state with heap := NoneEx.heap, curr := some NoneEx.graph, engineRuns := 1 }, .ok res) := by
  have hl : engineLoop env (str! "f") none 1 { LinkEx.state with curr := none, engineRuns := 0 } =
      some ({ LinkEx.state with heap := NoneEx.heap, curr := some NoneEx.graph, engineRuns := 1 }, .ok NoneEx.graph) := rfl
  rw [functionsDiff_eval hl list]
  rfl

def cenv : CmpEnv Unit := constEnv (str! "f") res false none false false
theorem runs : RunsFunctionsDiff cenv := constEnv_runs rfl diff

/-- A function that can be compared, followed by one without a module. -/
def groups : FunGroups := [(none, [(str! "f", CmpEx.desc), (str! "g", CmpEx.noMod)])]
def single : FunGroups := [(none, [(str! "f", CmpEx.desc)])]
end EqualEx

/-- **C23 (violated)** If the last function has no module, the overall result has no graph. -/
theorem C23_fails : ¬ C23_statement := by
  intro h
  have hrun : ∃ st, compareSnapshots (logged EqualEx.cenv) [] EqualEx.groups EqualEx.groups ((), []) = .ok st ∧ st.result.graph = none ∧
      st.world.2 ≠ [] ∧ ∀ c ∈ st.world.2, ∀ res, c.out = .ok res → res.kind ≠ .error := by
    refine ⟨_, rfl, rfl, by decide, ?_⟩
    intro c hc res hr
    change c ∈ [(_ : Compared)] at hc
    rw [List.mem_singleton] at hc
    subst hc
    cases hr
    decide
  obtain ⟨st, hr, hg, hne, hk⟩ := hrun
  obtain ⟨g, hg', _⟩ := h Unit _ _ _ _ _ _ EqualEx.runs (properGroups_of_decide (by decide)) hr hk hne
  rw [hg] at hg'; cases hg'

/-- The graph of the last comparison. -/
def lastGraph (l : List Compared) : Option Graph := l.getLast?.bind (fun c => c.out.toOption.bind Res.graph)

theorem result_graph {σ : Type} {env : CmpEnv σ} {dir : Str} {first second : FunGroups} {w : σ}
    {st : CmpState (σ × List Compared)} (hp : ProperGroups first)
    (h : compareSnapshots (logged env) dir first second (w, []) = .ok st)
    (hmod : ∀ g f old new, first.getByName f g = some old → second.getByName f g = some new → old.mod ≠ none ∧ new.mod ≠ none) :
    st.result.graph = lastGraph st.world.2 ∧ FromEnv env st.world.2 := by
  obtain ⟨_, ⟨_, hP⟩, _⟩ := compareSnapshots_ind hp h (fun _ _ st => st.result.graph = lastGraph st.world.2 ∧ FromEnv env st.world.2)
    ⟨rfl, by intro c hc; simp at hc⟩ (fun _ _ _ _ _ h => h) (by
      intro g f old done st st' ho ⟨h1, h2⟩ hc
      rcases compareFun_logged hc with ⟨hn, rfl⟩ | ⟨new, hn, ⟨hm, _⟩ | ⟨hm1, hm2, res, res', hd, hf, hr, hw, hg, _⟩⟩
      · exact ⟨h1, h2⟩
      · obtain ⟨a, b⟩ := hmod g f old new ho hn
        rcases hm with hm | hm
        · exact absurd hm a
        · exact absurd hm b
      · rw [hr, hw]
        refine ⟨?_, ?_⟩
        · show res'.graph = _
          rw [(filtered_graph hf).1]
          simp [lastGraph, Except.toOption]
        · intro c hc
          rcases List.mem_append.1 hc with hc | hc
          · exact h2 c hc
          · rw [List.mem_singleton] at hc
            subst hc
            exact ⟨_, hd.symm⟩)
  exact hP

/-- A comparison that does not fail returns a graph with the compared function and everything known before. -/
theorem functionsDiff_contains {env : FDEnv} {f1 f2 : Str} {prev : Option Graph} {fuel : Nat} {st st' : FDState} {res : Res}
    (h : functionsDiff env f1 f2 prev fuel st = some (st', .ok res)) (hk : res.kind ≠ .error) :
    ∃ g, res.graph = some g ∧ (g.vertices.get? f1).isSome ∧
      ∀ p, prev = some p → ∀ n, (p.vertices.get? n).isSome → (g.vertices.get? n).isSome := by
  obtain ⟨st1, g, acc, _, hf, _, hg, _⟩ := functionsDiff_good h hk
  refine ⟨g, hg, ?_, ?_⟩
  · unfold funPairList at hf
    cases hl : reachableFrom st'.heap g .left f1 with
    | error x => rw [hl] at hf; simp at hf
    | ok a =>
      obtain ⟨s, hs, _⟩ := C04_reported_is_reachable (r := a.1) (bt := a.2) hl
      rw [hs]; rfl
  · rintro p rfl n hn
    obtain ⟨v, hv⟩ := Option.isSome_iff_exists.1 hn
    obtain ⟨g', w, hg', hw⟩ := C65_known_results_kept_partial env f1 f2 p fuel st st' res h (Or.inl hk) n v hv
    rw [hg] at hg'; cases hg'
    rw [hw]; rfl

/-- **C23 (partial)** If all common functions have modules and belong to one group, and no comparison fails, the overall
result has a graph with all compared functions. Missing: see `C23_fails`; results of earlier groups are dropped, too. -/
theorem C23_graph_complete_partial {σ : Type} (env : CmpEnv σ) (dir : Str) (first second : FunGroups) (w : σ)
    (st : CmpState (σ × List Compared)) (hd : RunsFunctionsDiff env) (hp : ProperGroups first)
    (h : compareSnapshots (logged env) dir first second (w, []) = .ok st)
    (hok : ∀ c ∈ st.world.2, ∀ res, c.out = .ok res → res.kind ≠ .error) (hne : st.world.2 ≠ [])
    (hmod : ∀ g f old new, first.getByName f g = some old → second.getByName f g = some new → old.mod ≠ none ∧ new.mod ≠ none)
    (hone : ∀ g f g' f', InBoth first second g f → InBoth first second g' f' → g = g') :
    ∃ g, st.result.graph = some g ∧ ∀ c ∈ st.world.2, (g.vertices.get? c.name).isSome := by
  obtain ⟨hres, hfrom⟩ := result_graph hp h hmod
  obtain ⟨hcmp, _, hprev⟩ := C21_compared_exactly env dir first second w st hp h
  have hgroup : ∀ c ∈ st.world.2, InBoth first second c.group c.name := by
    intro c hc
    obtain ⟨a, b, _⟩ := (hcmp c.group c.name c.old c.new).1 ⟨c, hc, rfl, rfl, rfl, rfl⟩
    exact ⟨by simp [a], by simp [b]⟩
  have hout : ∀ c ∈ st.world.2, ∃ res, c.out = .ok res := by
    obtain ⟨_, ⟨_, hP⟩, _⟩ := compareSnapshots_ind hp h (fun _ _ st => ∀ c ∈ st.world.2, ∃ res, c.out = .ok res)
      (by intro c hc; simp at hc) (fun _ _ _ _ _ h => h) (by
        intro g f old done st st' ho hall hc
        rcases compareFun_logged hc with ⟨hn, rfl⟩ | ⟨new, hn, ⟨hm, _, hw, _⟩ | ⟨hm1, hm2, res, res', hd, hf, hr, hw, hg, _⟩⟩
        · exact hall
        · rw [hw]; exact hall
        · rw [hw]
          intro c hc
          rcases List.mem_append.1 hc with hc | hc
          · exact hall c hc
          · rw [List.mem_singleton] at hc
            subst hc
            exact ⟨_, rfl⟩)
    exact hP
  have key : ∀ (l l' : List Compared), st.world.2 = l ++ l' → l ≠ [] →
      ∃ g, lastGraph l = some g ∧ ∀ c ∈ l, (g.vertices.get? c.name).isSome := by
    intro l
    induction l using List.reverseRecOn with
    | nil => intro l' _ hne; exact absurd rfl hne
    | append_singleton l c ih =>
      intro l' he _
      have he' : st.world.2 = l ++ c :: l' := by rw [he]; simp
      have hcm : c ∈ st.world.2 := by rw [he']; simp
      obtain ⟨res, hcres⟩ := hout c hcm
      obtain ⟨w', hw'⟩ := hfrom c hcm
      rw [hcres] at hw'
      obtain ⟨fenv, fuel, s, s', _, hfd⟩ := hd _ _ _ _ _ _ _ hw'.symm
      obtain ⟨g, hg, hself, hknown⟩ := functionsDiff_contains hfd (hok c hcm res hcres)
      have hlast : lastGraph (l ++ [c]) = some g := by
        simp [lastGraph, hcres, Except.toOption, hg]
      refine ⟨g, hlast, ?_⟩
      intro c' hc'
      rcases List.mem_append.1 hc' with hc' | hc'
      swap
      · rw [List.mem_singleton] at hc'; subst hc'; exact hself
      · have hlne : l ≠ [] := List.ne_nil_of_mem hc'
        obtain ⟨g0, hg0, hin⟩ := ih (c :: l') he' hlne
        refine hknown g0 ?_ _ (hin c' hc')
        rw [hprev l c l' he']
        unfold lastGraph at hg0
        unfold knownGraph
        cases hl : l.getLast? with
        | none => rw [List.getLast?_eq_none_iff] at hl; exact absurd hl hlne
        | some y =>
          rw [hl] at hg0
          have hy : y ∈ st.world.2 := by rw [he']; exact List.mem_append_left _ (List.mem_of_getLast? hl)
          simp only
          rw [if_pos (hone _ _ _ _ (hgroup y hy) (hgroup c hcm))]
          simpa using hg0
  obtain ⟨g, hg, hall⟩ := key st.world.2 [] (by simp) hne
  exact ⟨g, by rw [hres, hg], hall⟩

/-- One function that is compared and found equal. -/
example : ∃ st, compareSnapshots (logged EqualEx.cenv) [] EqualEx.single EqualEx.single ((), []) = .ok st ∧
    ∃ g, st.result.graph = some g ∧ ∀ c ∈ st.world.2, (g.vertices.get? c.name).isSome := by
  refine ⟨_, rfl, C23_graph_complete_partial EqualEx.cenv [] EqualEx.single EqualEx.single () _ EqualEx.runs (properGroups_of_decide (by decide)) rfl ?_ (by decide) ?_ ?_⟩
  · intro c hc res hr
    change c ∈ [(_ : Compared)] at hc
    rw [List.mem_singleton] at hc
    subst hc
    cases hr
    decide
  · intro g f old new h1 h2
    have key : ∀ d, EqualEx.single.getByName f g = some d → d = CmpEx.desc := by
      intro d hd
      by_cases hg : g = none
      · subst hg
        have e : EqualEx.single.getByName f none = Dict.get? [(str! "f", CmpEx.desc)] f := rfl
        rw [e] at hd
        simp only [Dict.get?] at hd
        split at hd
        · cases hd; rfl
        · cases hd
      · unfold FunGroups.getByName EqualEx.single at hd
        simp [Dict.get?, Ne.symm hg] at hd
    rw [key old h1, key new h2]
    decide
  · intro g f g' f' h1 h2
    have key : ∀ g f, InBoth EqualEx.single EqualEx.single g f → g = none := by
      rintro g f ⟨hb, _⟩
      by_contra hg
      unfold FunGroups.getByName EqualEx.single at hb
      simp [Dict.get?, Ne.symm hg] at hb
    rw [key g f h1, key g' f' h2]

/-! ### C24 -/

theorem withSuffix_inj {base : Str} {m n : Nat} (h : withSuffix base m = withSuffix base n) : m = n := by
  unfold withSuffix at h
  have h1 := List.append_cancel_left h
  simp only [List.cons.injEq, true_and] at h1
  apply Nat.repr_injective
  unfold Nat.repr
  rw [h1]

theorem freshLoop_ok (isdir : Str → Bool) (base : Str) : ∀ (fuel : Nat) (dirname : Str) (suffix : Nat) (d : Str),
    freshLoop isdir base fuel dirname suffix = some d →
    (d = dirname ∧ isdir d = false) ∨
    (isdir d = false ∧ isdir dirname = true ∧ ∃ n, suffix ≤ n ∧ d = withSuffix base n ∧
      ∀ m, suffix ≤ m → m < n → isdir (withSuffix base m) = true)
  | 0, _, _, _, h => by simp [freshLoop] at h
  | fuel + 1, dirname, suffix, d, h => by
    unfold freshLoop at h
    cases hd : isdir dirname with
    | false => rw [hd] at h; simp at h; subst h; exact Or.inl ⟨rfl, hd⟩
    | true =>
      rw [hd] at h
      simp only [if_true] at h
      right
      rcases freshLoop_ok isdir base fuel _ _ d h with ⟨rfl, h2⟩ | ⟨h2, h3, n, h4, h5, h6⟩
      · exact ⟨h2, rfl, suffix, le_refl _, rfl, by intro m h1 h2; omega⟩
      · refine ⟨h2, rfl, n, by omega, h5, ?_⟩
        intro m hm hn
        by_cases e : m = suffix
        · subst e; exact h3
        · exact h6 m (by omega) hn

theorem freshLoop_ends (isdir : Str → Bool) (base : Str) (n : Nat) (hn : isdir (withSuffix base n) = false) :
    ∀ (k : Nat) (dirname : Str) (suffix fuel : Nat), suffix + k = n → k + 2 ≤ fuel → ∃ d, freshLoop isdir base fuel dirname suffix = some d
  | k, dirname, suffix, 0, _, hf => by omega
  | k, dirname, suffix, fuel + 1, hs, hf => by
    unfold freshLoop
    split
    · match k with
      | 0 =>
        have e : suffix = n := by omega
        subst e
        match fuel, hf with
        | fuel + 1, _ =>
          unfold freshLoop
          rw [hn]
          exact ⟨_, rfl⟩
      | k + 1 => exact freshLoop_ends isdir base n hn k _ (suffix + 1) fuel (by omega) (by omega)
    · exact ⟨_, rfl⟩

/-- **C24** If finitely many directories exist, the search for a default output directory ends. The chosen name does not
exist; it is the base name, or, if that exists, the base name with the least unused number. -/
theorem C24_fresh_output_dir (isdir : Str → Bool) (base : Str) :
    (∀ existing : List Str, (∀ d, isdir d = true → d ∈ existing) →
      ∃ N, ∀ fuel, N ≤ fuel → ∃ d, defaultOutputDir isdir base fuel = some d) ∧
    ∀ fuel d, defaultOutputDir isdir base fuel = some d →
      isdir d = false ∧ (d = base ∨ (isdir base = true ∧ ∃ n, d = base ++ (str! "-") ++ Nat.toDigits 10 n ∧
        ∀ m, m < n → isdir (base ++ (str! "-") ++ Nat.toDigits 10 m) = true)) := by
  constructor
  · intro existing hex
    have : ∃ n, isdir (withSuffix base n) = false := by
      by_contra hcon
      have hall : ∀ n, isdir (withSuffix base n) = true := by
        intro n
        by_contra hb
        exact hcon ⟨n, by simpa using hb⟩
      have hsub : ((List.range (existing.length + 1)).map (withSuffix base)) ⊆ existing := by
        intro d hd
        obtain ⟨n, _, rfl⟩ := List.mem_map.1 hd
        exact hex _ (hall n)
      have hnd : ((List.range (existing.length + 1)).map (withSuffix base)).Nodup :=
        List.nodup_range.map (fun a b h => withSuffix_inj h)
      have := (hnd.subperm hsub).length_le
      simp at this
      omega
    obtain ⟨n, hn⟩ := this
    refine ⟨n + 2, ?_⟩
    intro fuel hf
    unfold defaultOutputDir
    split
    · exact freshLoop_ends isdir base n hn n base 0 fuel (by omega) hf
    · exact ⟨_, rfl⟩
  · intro fuel d h
    unfold defaultOutputDir at h
    cases hb : isdir base with
    | false =>
      rw [hb] at h
      simp at h
      subst h
      exact ⟨hb, Or.inl rfl⟩
    | true =>
      rw [hb] at h
      simp only [if_true] at h
      rcases freshLoop_ok isdir base fuel base 0 d h with ⟨rfl, h2⟩ | ⟨h2, _, n, _, h5, h6⟩
      · rw [hb] at h2; cases h2
      · refine ⟨h2, Or.inr ⟨rfl, n, ?_, ?_⟩⟩
        · rw [h5]; simp [withSuffix]
        · intro m hm
          have := h6 m (by omega) hm
          unfold withSuffix at this
          simpa using this

/-- With `d` and `d-0` existing, `d-1` is chosen. -/
example : defaultOutputDir (fun s => decide (s ∈ [str! "d", str! "d-0"])) (str! "d") 3 = some (str! "d-1") := by decide

/-! ### C55 -/

theorem mem_values_keyed {r : Res} (hk : Keyed r) (x : Res) : x ∈ r.inner.values ↔ Dict.get? r.inner x.first.name = some x := by
  rw [Dict.mem_values_iff hk.1]
  constructor
  · rintro ⟨a, ha⟩
    rw [hk.2 (a, x) (Dict.get?_mem ha)]
    exact ha
  · intro h; exact ⟨_, h⟩

/-- **C55** The results section lists the not-equal functions in the order in which they are in the overall result; for each
of them, exactly the inner results that are shown are listed, sorted by name. -/
theorem C55_yaml_exact (r : Res) (hk : Keyed r) (hi : ∀ a ∈ r.inner, Keyed a.2) :
    (yamlResults r).map YamlResult.function = (r.inner.filter (fun a => decide (a.2.kind = .notEqual))).map Prod.fst ∧
    ∀ y ∈ yamlResults r, ∃ x, Dict.get? r.inner y.function = some x ∧ x.kind = .notEqual ∧ y.diffs.Pairwise StrLt ∧
      ∀ n, n ∈ y.diffs ↔ ∃ z, Dict.get? x.inner n = some z ∧ Shown z := by
  constructor
  · unfold yamlResults
    clear hk hi
    induction r.inner with
    | nil => rfl
    | cons a l ih =>
      rw [List.filterMap_cons, List.filter_cons]
      by_cases h : a.2.kind = .notEqual
      · simp only [h, ne_eq, not_true, if_false, decide_true, if_true, List.map_cons]
        rw [ih]
      · simp only [h, ne_eq, not_false_iff, if_true, decide_false, Bool.false_eq_true, if_false]
        exact ih
  · intro y hy
    unfold yamlResults at hy
    rw [List.mem_filterMap] at hy
    obtain ⟨a, ha, hy⟩ := hy
    by_cases h : a.2.kind = .notEqual
    swap
    · simp [h] at hy
    · simp only [h, ne_eq, not_true, if_false, Option.some.injEq] at hy
      subst hy
      have hka := hi a ha
      refine ⟨a.2, Dict.mem_get? hk.1 (show (a.1, a.2) ∈ r.inner from ha), h, ?_, ?_⟩
      · rw [List.pairwise_map]
        refine List.Pairwise.filter _ ?_
        have hs := sortItems_sorted a.2.inner hka.1
        refine hs.imp_of_mem ?_
        intro x z hx hz hlt
        rw [hka.2 x ((mem_sortItems _ _).1 hx), hka.2 z ((mem_sortItems _ _).1 hz)]
        exact hlt
      · intro n
        simp only
        rw [List.mem_map]
        constructor
        · rintro ⟨x, hx, rfl⟩
          rw [List.mem_filter, mem_sortItems] at hx
          refine ⟨x.2, ?_, ?_⟩
          · rw [hka.2 x hx.1]; exact Dict.mem_get? hka.1 (show (x.1, x.2) ∈ _ from hx.1)
          · have h2 := hx.2
            rw [decide_eq_true_eq] at h2
            exact h2
        · rintro ⟨z, hz, hs⟩
          have hm := Dict.get?_mem hz
          refine ⟨(n, z), ?_, hka.2 _ hm⟩
          rw [List.mem_filter, mem_sortItems]
          exact ⟨hm, by rw [decide_eq_true_eq]; exact hs⟩

/-- **C55** For the result of a comparison of snapshots: a function is listed iff its entry is not-equal. If the common
functions belong to one group, functions are listed in the order of their names. -/
theorem C55_yaml_output {σ : Type} (env : CmpEnv σ) (dir : Str) (first second : FunGroups) (w : σ)
    (st : CmpState (σ × List Compared)) (hd : RunsFunctionsDiff env) (hp : ProperGroups first)
    (h : compareSnapshots (logged env) dir first second (w, []) = .ok st) :
    (∀ f, f ∈ (yamlResults st.result).map YamlResult.function ↔ ∃ r, Dict.get? st.result.inner f = some r ∧ r.kind = .notEqual) ∧
    (∀ y ∈ yamlResults st.result, ∃ x, Dict.get? st.result.inner y.function = some x ∧ x.kind = .notEqual ∧
      y.diffs.Pairwise StrLt ∧ ∀ n, n ∈ y.diffs ↔ ∃ z, Dict.get? x.inner n = some z ∧ Shown z) ∧
    ((∀ g f g' f', InBoth first second g f → InBoth first second g' f' → g = g') →
      ((yamlResults st.result).map YamlResult.function).Pairwise StrLt) := by
  obtain ⟨_, h2, _, _, hk, hfrom⟩ := compare_entries hd hp h
  have hi : ∀ a ∈ st.result.inner, Keyed a.2 := by
    intro a ha
    obtain ⟨g, ho⟩ := h2 a.1 a.2 (Dict.mem_get? hk.1 (show (a.1, a.2) ∈ _ from ha))
    exact ownResult_keyed hd hfrom ho
  obtain ⟨h3, h4⟩ := C55_yaml_exact st.result hk hi
  refine ⟨?_, h4, ?_⟩
  · intro f
    rw [h3, List.mem_map]
    constructor
    · rintro ⟨a, ha, rfl⟩
      rw [List.mem_filter] at ha
      exact ⟨a.2, Dict.mem_get? hk.1 (show (a.1, a.2) ∈ _ from ha.1), by simpa using ha.2⟩
    · rintro ⟨r, hr, hne⟩
      exact ⟨(f, r), by rw [List.mem_filter]; exact ⟨Dict.get?_mem hr, by simpa using hne⟩, rfl⟩
  · intro hone
    obtain ⟨plan, ⟨_, hP⟩, hplan, hsort⟩ := compareSnapshots_ind hp h (fun _ done st =>
        FromEnv env st.world.2 ∧ Dict.keys st.result.inner =
          ((done.filter (fun x => (second.getByName x.2.1 x.1).isSome)).map (fun x => x.2.1)).reverse.dedup.reverse)
      ⟨by intro c hc; simp at hc, rfl⟩ (fun _ _ _ _ _ h => h) (by
        intro g f old done st st' ho ⟨h0, h1⟩ hc
        rcases compareFun_own ho hc with ⟨hn, rfl⟩ | ⟨hs, _, hlog, r, hr, he⟩
        · refine ⟨h0, ?_⟩
          rw [h1, List.filter_append]
          simp [hn]
        · refine ⟨hlog h0, ?_⟩
          have hname := ownResult_name hd (hlog h0) hr
          rw [he]
          show Dict.keys (Dict.set st.result.inner r.first.name r) = _
          rw [Dict.keys_set, hname, h1, List.filter_append]
          simp only [List.filter_cons, hs, if_true, List.filter_nil, List.map_append, List.map_cons, List.map_nil,
            List.reverse_append, List.reverse_cons, List.reverse_nil, List.nil_append, List.cons_append]
          by_cases hin : f ∈ ((done.filter (fun x => (second.getByName x.2.1 x.1).isSome)).map (fun x => x.2.1)).reverse
          · rw [List.dedup_cons_of_mem hin, if_pos]
            rw [List.mem_reverse, List.mem_dedup]; exact hin
          · rw [List.dedup_cons_of_notMem hin, if_neg, List.reverse_cons]
            rw [List.mem_reverse, List.mem_dedup]; exact hin)
    have hs1 : (plan.filter (fun x => (second.getByName x.2.1 x.1).isSome)).Pairwise (fun x y => StrLt x.2.1 y.2.1) := by
      refine (hsort.filter _).imp_of_mem ?_
      intro x y hx hy hb
      rw [List.mem_filter] at hx hy
      have hx' : InBoth first second x.1 x.2.1 := ⟨by rw [(hplan x.1 x.2.1 x.2.2).1 hx.1]; rfl, hx.2⟩
      have hy' : InBoth first second y.1 y.2.1 := ⟨by rw [(hplan y.1 y.2.1 y.2.2).1 hy.1]; rfl, hy.2⟩
      rcases hb with ⟨a, b, e1, e2, hlt⟩ | ⟨_, hlt⟩
      · have := hone _ _ _ _ hx' hy'
        simp only at e1 e2
        rw [e1, e2] at this
        cases this
        exact absurd hlt (strLt_not_self a)
      · exact hlt
    have hs2 : ((plan.filter (fun x => (second.getByName x.2.1 x.1).isSome)).map (fun x => x.2.1)).Pairwise StrLt := by
      rw [List.pairwise_map]; exact hs1
    have hnd : ((plan.filter (fun x => (second.getByName x.2.1 x.1).isSome)).map (fun x => x.2.1)).Nodup :=
      hs2.imp (by
        intro a b hlt e
        subst e
        exact strLt_not_self a hlt)
    have hkeys := hP.2
    rw [List.Nodup.dedup (List.nodup_reverse.2 hnd), List.reverse_reverse] at hkeys
    rw [h3]
    refine List.Pairwise.sublist (List.Sublist.map _ List.filter_sublist) ?_
    show (Dict.keys st.result.inner).Pairwise StrLt
    rw [hkeys]
    exact hs2

end DK
