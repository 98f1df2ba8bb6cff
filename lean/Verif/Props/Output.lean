import Verif.Props.Report

/-! C71, C72: what is printed about each function, and that printing does not fail. -/

set_option autoImplicit false

namespace DK
open Spec

theorem sections_ok (showDiff : Bool) : ∀ (rs : List (Str × Res)) (ss : List Section), sections showDiff rs = .ok ss →
    List.Forall₂ (fun (a : Str × Res) s => Shows showDiff s a.2)
      (rs.filter (fun a => decide (¬ (a.2.diff = some [] ∧ a.2.first.covered = true)))) ss
  | [], ss, h => by simp [sections] at h; subst h; exact .nil
  | a :: rs, ss, h => by
    unfold sections at h
    rw [List.filter_cons]
    by_cases hc : a.2.diff = some [] ∧ a.2.first.covered = true
    · rw [if_pos hc] at h
      rw [if_neg (by simp [hc])]
      exact sections_ok showDiff rs ss h
    · rw [if_neg hc] at h
      rw [if_pos (by rw [decide_eq_true_eq]; exact hc)]
      cases showDiff with
      | false =>
        simp only [Bool.false_eq_true, if_false] at h
        cases hs : sections false rs with
        | error e => rw [hs] at h; simp at h
        | ok ss' =>
          rw [hs] at h
          simp only [Except.ok.injEq] at h
          subst h
          exact .cons ⟨rfl, rfl, rfl, rfl⟩ (sections_ok false rs ss' hs)
      | true =>
        simp only [if_true] at h
        cases hd : a.2.diff with
        | none => rw [hd] at h; simp at h
        | some d =>
          rw [hd] at h
          simp only at h
          cases hs : sections true rs with
          | error e => rw [hs] at h; simp at h
          | ok ss' =>
            rw [hs] at h
            simp only [Except.ok.injEq] at h
            subst h
            exact .cons ⟨rfl, rfl, rfl, by simp [hd]⟩ (sections_ok true rs ss' hs)

theorem sections_total (showDiff : Bool) : ∀ (rs : List (Str × Res)), (showDiff = true → ∀ a ∈ rs, a.2.diff ≠ none) →
    ∃ ss, sections showDiff rs = .ok ss
  | [], _ => ⟨[], rfl⟩
  | a :: rs, h => by
    obtain ⟨ss, hs⟩ := sections_total showDiff rs (fun hd b hb => h hd b (by simp [hb]))
    unfold sections
    split
    · exact ⟨ss, hs⟩
    · cases showDiff with
      | false => simp only [Bool.false_eq_true, if_false, hs]; exact ⟨_, rfl⟩
      | true =>
        simp only [if_true]
        cases hd : a.2.diff with
        | none => exact absurd hd (h rfl a (by simp))
        | some d => simp only [hs]; exact ⟨_, rfl⟩

theorem printSyntaxDiff_ok {showDiff full : Bool} {g : Option Str} {f : Str} {r : Res} {os : List Out} (hk : Keyed r)
    (h : printSyntaxDiff showDiff full g f r = .ok os) :
    (∃ ss, os = [.diffs g f ss] ∧ Lists showDiff r ss) ∨ (os = [] ∧ r.kind ≠ .notEqual) := by
  unfold printSyntaxDiff at h
  split at h
  · cases hs : sections showDiff (sortItems r.inner) with
    | error e => rw [hs] at h; simp at h
    | ok ss =>
      rw [hs] at h
      simp only [Except.ok.injEq] at h
      subst h
      refine Or.inl ⟨ss, rfl, ?_⟩
      have hf := sections_ok showDiff _ _ hs
      constructor
      · have hsort := (sortItems_sorted r.inner hk.1).filter
          (fun a => decide (¬ (a.2.diff = some [] ∧ a.2.first.covered = true)))
        have hmap : ss.map Section.name =
            ((sortItems r.inner).filter (fun a => decide (¬ (a.2.diff = some [] ∧ a.2.first.covered = true)))).map Prod.fst := by
          have hmem : ∀ a ∈ (sortItems r.inner).filter (fun a => decide (¬ (a.2.diff = some [] ∧ a.2.first.covered = true))),
              a.2.first.name = a.1 := by
            intro a ha
            rw [List.mem_filter, mem_sortItems] at ha
            exact hk.2 a ha.1
          revert hmem
          generalize (sortItems r.inner).filter (fun a => decide (¬ (a.2.diff = some [] ∧ a.2.first.covered = true))) = l at hf
          intro hmem
          clear hsort hs
          induction hf with
          | nil => rfl
          | cons h1 _ ih =>
            rw [List.map_cons, List.map_cons, ih (fun a ha => hmem a (by simp [ha])), h1.1, hmem _ (by simp)]
        rw [hmap, List.pairwise_map]
        exact hsort
      · intro s
        constructor
        · intro hm
          have : ∃ a ∈ (sortItems r.inner).filter (fun a => decide (¬ (a.2.diff = some [] ∧ a.2.first.covered = true))), Shows showDiff s a.2 := by
            clear hs
            generalize (sortItems r.inner).filter (fun a => decide (¬ (a.2.diff = some [] ∧ a.2.first.covered = true))) = l at hf
            induction hf with
            | nil => simp at hm
            | cons h1 _ ih =>
              rcases List.mem_cons.1 hm with rfl | hm
              · exact ⟨_, by simp, h1⟩
              · obtain ⟨a, ha, hsh⟩ := ih hm
                exact ⟨a, by simp [ha], hsh⟩
          obtain ⟨a, ha, hsh⟩ := this
          rw [List.mem_filter, mem_sortItems, decide_eq_true_eq] at ha
          exact ⟨a.2, List.mem_map.2 ⟨a, ha.1, rfl⟩, ha.2, hsh⟩
        · rintro ⟨x, hx, hshown, hsh⟩
          obtain ⟨a, ha, rfl⟩ := List.mem_map.1 hx
          have hm : a ∈ (sortItems r.inner).filter (fun a => decide (¬ (a.2.diff = some [] ∧ a.2.first.covered = true))) := by
            rw [List.mem_filter, mem_sortItems, decide_eq_true_eq]
            exact ⟨ha, hshown⟩
          clear hs
          generalize (sortItems r.inner).filter (fun a => decide (¬ (a.2.diff = some [] ∧ a.2.first.covered = true))) = l at hf hm
          induction hf with
          | nil => simp at hm
          | cons h1 _ ih =>
            rcases List.mem_cons.1 hm with rfl | hm
            · rw [List.mem_cons]
              left
              obtain ⟨a1, a2, a3, a4⟩ := hsh
              obtain ⟨b1, b2, b3, b4⟩ := h1
              rename_i s' _ _ _
              cases s; cases s'
              simp only at a1 a2 a3 a4 b1 b2 b3 b4
              rw [a1, a2, a3, a4, b1, b2, b3, b4]
            · exact List.mem_cons_of_mem _ (ih hm)
  · next hc =>
    simp only [Except.ok.injEq] at h
    subst h
    exact Or.inr ⟨rfl, fun e => hc (Or.inl e)⟩

/-! ### C71 -/

/-- **C71** as stated: every function that is not found equal is mentioned in the output. -/
def C71_statement : Prop :=
  ∀ (σ : Type) (env : CmpEnv σ) (dir : Str) (first second : FunGroups) (w : σ) (st : CmpState (σ × List Compared)),
    RunsFunctionsDiff env → ProperGroups first → compareSnapshots (logged env) dir first second (w, []) = .ok st →
    ∀ f r, Dict.get? st.result.inner f = some r → r.kind ≠ .none → r.kind ≠ .equal → r.kind ≠ .assumedEqual →
      ∃ o ∈ st.outs, o = .status f r.kind ∨ ∃ g ss, o = .diffs g f ss

namespace TimeoutEx
/-- `MacroEx` with a semantic tool that times out. -/
def env : FDEnv := { MacroEx.env with semdiff := some (fun _ => .ok .timeout) }
def res : Res := (compareObjs env MacroEx.acc (Res.new .none (str! "f") (str! "f")) MacroEx.acc.objs).1.setGraph (some MacroEx.graph)

theorem diff : functionsDiff env (str! "f") (str! "f") none 1 LinkEx.state =
    some ({ LinkEx.state with heap := MacroEx.heap, curr := some MacroEx.graph, engineRuns := 1 }, .ok res) := by
  have hl : engineLoop env (str! "f") none 1 { LinkEx.state with curr := none, engineRuns := 0 } =
      some ({ LinkEx.state with heap := MacroEx.heap, curr := some MacroEx.graph, engineRuns := 1 }, .ok MacroEx.graph) := rfl
  rw [functionsDiff_eval hl MacroEx.list]
  rfl
end TimeoutEx

/-- **C71 (violated)** A function whose comparison times out is not mentioned at all. -/
theorem C71_fails : ¬ C71_statement := by
  intro h
  have hrun : ∃ st, compareSnapshots (logged (constEnv (str! "f") TimeoutEx.res false none false false)) [] EqualEx.single EqualEx.single
      ((), []) = .ok st ∧ st.outs = [] ∧ ∃ r, Dict.get? st.result.inner (str! "f") = some r ∧ r.kind = .timeout :=
    ⟨_, rfl, rfl, _, rfl, rfl⟩
  obtain ⟨st, hr, ho, r, hg, hk⟩ := hrun
  obtain ⟨o, hm, _⟩ := h Unit _ _ _ _ _ _ (constEnv_runs rfl TimeoutEx.diff) (properGroups_of_decide (by decide)) hr _ r hg
    (by rw [hk]; decide) (by rw [hk]; decide) (by rw [hk]; decide)
  rw [ho] at hm
  simp at hm

/-- **C71 (partial)** For every function of both snapshots: if it is not-equal, its shown differences are output; if its
verdict is unknown or error and full diff is off, the verdict is printed. Nothing else is output (but names of groups).
Missing: timeouts are not mentioned; with full diff, failed comparisons are not mentioned either. -/
theorem C71_mentioned_partial {σ : Type} (env : CmpEnv σ) (dir : Str) (first second : FunGroups) (w : σ)
    (st : CmpState (σ × List Compared)) (hd : RunsFunctionsDiff env) (hp : ProperGroups first)
    (h : compareSnapshots (logged env) dir first second (w, []) = .ok st) :
    (∀ g f, InBoth first second g f → ∃ r, OwnResult st.world.2 env.regex first second g f r ∧
      (r.kind = .notEqual → ∃ ss, Out.diffs g f ss ∈ st.outs ∧ Lists env.showDiff r ss) ∧
      (env.full = false → r.kind = .unknown ∨ r.kind = .error → Out.status f r.kind ∈ st.outs)) ∧
    (∀ f k, Out.status f k ∈ st.outs → (k = .unknown ∨ k = .error) ∧
      ∃ g r, OwnResult st.world.2 env.regex first second g f r ∧ r.kind = k) ∧
    (∀ g f ss, Out.diffs g f ss ∈ st.outs → ∃ r, OwnResult st.world.2 env.regex first second g f r ∧ Lists env.showDiff r ss ∧
      (r.kind = .notEqual ∨ env.full = true)) := by
  obtain ⟨plan, ⟨_, hP⟩, hplan, _⟩ := compareSnapshots_ind hp h (fun _ done st =>
      FromEnv env st.world.2 ∧
      (∀ g f old, (g, f, old) ∈ done → (second.getByName f g).isSome → ∃ r, OwnResult st.world.2 env.regex first second g f r ∧
        (r.kind = .notEqual → ∃ ss, Out.diffs g f ss ∈ st.outs ∧ Lists env.showDiff r ss) ∧
        (env.full = false → r.kind = .unknown ∨ r.kind = .error → Out.status f r.kind ∈ st.outs)) ∧
      (∀ f k, Out.status f k ∈ st.outs → (k = .unknown ∨ k = .error) ∧
        ∃ g r, OwnResult st.world.2 env.regex first second g f r ∧ r.kind = k) ∧
      (∀ g f ss, Out.diffs g f ss ∈ st.outs → ∃ r, OwnResult st.world.2 env.regex first second g f r ∧ Lists env.showDiff r ss ∧
        (r.kind = .notEqual ∨ env.full = true)))
    ⟨by intro c hc; simp at hc, by simp, by simp, by simp⟩ (fun _ _ _ _ _ h => h) (by
      intro g f old done st st' ho ⟨h0, h1, h2, h3⟩ hc
      -- what was output before is kept
      have hkeep : (∀ c ∈ st.world.2, c ∈ st'.world.2) → (∀ o ∈ st.outs, o ∈ st'.outs) →
          ∀ g f old, (g, f, old) ∈ done → (second.getByName f g).isSome → ∃ r, OwnResult st'.world.2 env.regex first second g f r ∧
            (r.kind = .notEqual → ∃ ss, Out.diffs g f ss ∈ st'.outs ∧ Lists env.showDiff r ss) ∧
            (env.full = false → r.kind = .unknown ∨ r.kind = .error → Out.status f r.kind ∈ st'.outs) := by
        intro hw hos g' f' old' hm hs
        obtain ⟨r, a, b, c⟩ := h1 g' f' old' hm hs
        refine ⟨r, ownResult_mono a hw, ?_, fun e1 e2 => hos _ (c e1 e2)⟩
        intro e
        obtain ⟨ss, e1, e2⟩ := b e
        exact ⟨ss, hos _ e1, e2⟩
      rcases compareFun_logged hc with ⟨hn, rfl⟩ | ⟨new, hn, ⟨hm, hr, hw, hg, hdr, hhdr, houts⟩ | ⟨hm1, hm2, res, res', hdf, hf, hr, hw, hg, hdr, os, hhdr, hrep, houts⟩⟩
      · refine ⟨h0, ?_, h2, h3⟩
        intro g' f' old' hm hs
        rcases List.mem_append.1 hm with hm | hm
        · exact h1 g' f' old' hm hs
        · rw [List.mem_singleton, Prod.mk.injEq, Prod.mk.injEq] at hm
          obtain ⟨rfl, rfl, rfl⟩ := hm
          rw [hn] at hs; simp at hs
      · have hown : OwnResult st'.world.2 env.regex first second g f (Res.new .unknown f f) := ⟨old, new, ho, hn, Or.inl ⟨hm, rfl⟩⟩
        have hmemold : ∀ o ∈ st.outs, o ∈ st'.outs := by
          intro o ho; rw [houts]; simp [ho]
        refine ⟨by rw [hw]; exact h0, ?_, ?_, ?_⟩
        · intro g' f' old' hm' hs
          rcases List.mem_append.1 hm' with hm' | hm'
          · exact hkeep (by rw [hw]; exact fun c hc => hc) hmemold g' f' old' hm' hs
          · rw [List.mem_singleton, Prod.mk.injEq, Prod.mk.injEq] at hm'
            obtain ⟨rfl, rfl, rfl⟩ := hm'
            refine ⟨_, hown, (fun e => by cases e), ?_⟩
            intro _ _
            rw [houts]
            simp [Res.new, Res.kind]
        · intro f' k hs
          rw [houts] at hs
          rcases List.mem_append.1 hs with hs | hs
          · rcases List.mem_append.1 hs with hs | hs
            · obtain ⟨a, g', r, b, c⟩ := h2 f' k hs
              exact ⟨a, g', r, ownResult_mono b (by rw [hw]; exact fun c hc => hc), c⟩
            · obtain ⟨n, hn'⟩ := hhdr _ hs
              cases hn'
          · rw [List.mem_singleton] at hs
            cases hs
            exact ⟨Or.inl rfl, g, _, hown, rfl⟩
        · intro g' f' ss hs
          rw [houts] at hs
          rcases List.mem_append.1 hs with hs | hs
          · rcases List.mem_append.1 hs with hs | hs
            · obtain ⟨r, a, b, c⟩ := h3 g' f' ss hs
              exact ⟨r, ownResult_mono a (by rw [hw]; exact fun c hc => hc), b, c⟩
            · obtain ⟨n, hn'⟩ := hhdr _ hs
              cases hn'
          · rw [List.mem_singleton] at hs
            cases hs
      · have hown : OwnResult st'.world.2 env.regex first second g f res' :=
          ⟨old, new, ho, hn, Or.inr ⟨hm1, hm2, st.graph, res, by rw [hw]; simp, hf⟩⟩
        have hsub : ∀ c ∈ st.world.2, c ∈ st'.world.2 := by rw [hw]; exact fun c hc => List.mem_append_left _ hc
        have hlog : FromEnv env st'.world.2 := by
          intro c hc
          rw [hw] at hc
          rcases List.mem_append.1 hc with hc | hc
          · exact h0 c hc
          · rw [List.mem_singleton] at hc
            subst hc
            exact ⟨_, hdf.symm⟩
        have hkeyed := ownResult_keyed hd hlog hown
        have hmemold : ∀ o ∈ st.outs, o ∈ st'.outs := by
          intro o ho; rw [houts]; simp [ho]
        have hmemnew : ∀ o ∈ os, o ∈ st'.outs := by
          intro o ho; rw [houts]; simp [ho]
        have hos : (res'.kind = .notEqual → ∃ ss, Out.diffs g f ss ∈ os ∧ Lists env.showDiff res' ss) ∧
            (env.full = false → res'.kind = .unknown ∨ res'.kind = .error → Out.status f res'.kind ∈ os) ∧
            (∀ f' k, Out.status f' k ∈ os → f' = f ∧ k = res'.kind ∧ (k = .unknown ∨ k = .error)) ∧
            (∀ g' f' ss, Out.diffs g' f' ss ∈ os → g' = g ∧ f' = f ∧ Lists env.showDiff res' ss ∧ (res'.kind = .notEqual ∨ env.full = true)) := by
          unfold Reported at hrep
          split at hrep
          · next hc1 =>
            rcases printSyntaxDiff_ok hkeyed hrep with ⟨ss, rfl, hl⟩ | ⟨rfl, hne⟩
            · refine ⟨fun _ => ⟨ss, by simp, hl⟩, ?_, by simp, ?_⟩
              · intro e1 e2
                rcases hc1 with hc1 | hc1
                · rcases e2 with e2 | e2 <;> rw [hc1] at e2 <;> cases e2
                · rw [e1] at hc1; cases hc1
              · intro g' f' ss' hs
                rw [List.mem_singleton] at hs
                cases hs
                exact ⟨rfl, rfl, hl, hc1⟩
            · refine ⟨fun e => absurd e hne, ?_, by simp, by simp⟩
              intro e1 e2
              rcases hc1 with hc1 | hc1
              · exact absurd hc1 hne
              · rw [e1] at hc1; cases hc1
          · next hc1 =>
            rw [not_or] at hc1
            split at hrep
            · next hc2 =>
              subst hrep
              refine ⟨fun e => absurd e hc1.1, fun _ _ => by simp, ?_, by simp⟩
              intro f' k hs
              rw [List.mem_singleton] at hs
              cases hs
              exact ⟨rfl, rfl, hc2⟩
            · next hc2 =>
              subst hrep
              exact ⟨fun e => absurd e hc1.1, fun _ e => absurd e hc2, by simp, by simp⟩
        refine ⟨hlog, ?_, ?_, ?_⟩
        · intro g' f' old' hm' hs
          rcases List.mem_append.1 hm' with hm' | hm'
          · exact hkeep hsub hmemold g' f' old' hm' hs
          · rw [List.mem_singleton, Prod.mk.injEq, Prod.mk.injEq] at hm'
            obtain ⟨rfl, rfl, rfl⟩ := hm'
            refine ⟨res', hown, ?_, fun e1 e2 => hmemnew _ (hos.2.1 e1 e2)⟩
            intro e
            obtain ⟨ss, e1, e2⟩ := hos.1 e
            exact ⟨ss, hmemnew _ e1, e2⟩
        · intro f' k hs
          rw [houts] at hs
          rcases List.mem_append.1 hs with hs | hs
          · rcases List.mem_append.1 hs with hs | hs
            · obtain ⟨a, g', r, b, c⟩ := h2 f' k hs
              exact ⟨a, g', r, ownResult_mono b hsub, c⟩
            · obtain ⟨n, hn'⟩ := hhdr _ hs
              cases hn'
          · obtain ⟨rfl, e2, e3⟩ := hos.2.2.1 f' k hs
            exact ⟨e3, g, res', hown, e2.symm⟩
        · intro g' f' ss hs
          rw [houts] at hs
          rcases List.mem_append.1 hs with hs | hs
          · rcases List.mem_append.1 hs with hs | hs
            · obtain ⟨r, a, b, c⟩ := h3 g' f' ss hs
              exact ⟨r, ownResult_mono a hsub, b, c⟩
            · obtain ⟨n, hn'⟩ := hhdr _ hs
              cases hn'
          · obtain ⟨rfl, rfl, e2, e3⟩ := hos.2.2.2 g' f' ss hs
            exact ⟨res', hown, e2, e3⟩)
  obtain ⟨_, h1, h2, h3⟩ := hP
  refine ⟨?_, h2, h3⟩
  rintro g f ⟨ho, hs⟩
  obtain ⟨old, ho⟩ := Option.isSome_iff_exists.1 ho
  exact h1 g f old ((hplan _ _ _).2 ho) hs

namespace DiffEx
def res : Res := (compareObjs MacroEx.env MacroEx.acc (Res.new .none (str! "f") (str! "f")) MacroEx.acc.objs).1.setGraph (some MacroEx.graph)
def cenv : CmpEnv Unit := constEnv (str! "f") res false none true false
theorem runs : RunsFunctionsDiff cenv := constEnv_runs rfl MacroEx.diff
end DiffEx

/-- A not-equal function with three shown differences: they are printed and listed in the YAML output. -/
example : ∃ st, compareSnapshots (logged DiffEx.cenv) [] EqualEx.single EqualEx.single ((), []) = .ok st ∧
    (∃ r, OwnResult st.world.2 none EqualEx.single EqualEx.single none (str! "f") r ∧
      (r.kind = .notEqual → ∃ ss, Out.diffs none (str! "f") ss ∈ st.outs ∧ Lists true r ss)) ∧
    yamlResults st.result = [⟨str! "f", [str! "M", str! "f", str! "g"]⟩] ∧
    (str! "f") ∈ (yamlResults st.result).map YamlResult.function := by
  have hrun : ∃ st, compareSnapshots (logged DiffEx.cenv) [] EqualEx.single EqualEx.single ((), []) = .ok st ∧
      yamlResults st.result = [⟨str! "f", [str! "M", str! "f", str! "g"]⟩] ∧
      ∃ r, Dict.get? st.result.inner (str! "f") = some r ∧ r.kind = .notEqual := ⟨_, rfl, rfl, _, rfl, rfl⟩
  obtain ⟨st, hr, hy, hex⟩ := hrun
  have hp : ProperGroups EqualEx.single := properGroups_of_decide (by decide)
  refine ⟨st, hr, ?_, hy, ((C55_yaml_output _ _ _ _ _ _ DiffEx.runs hp hr).1 _).2 hex⟩
  obtain ⟨r, h1, h2, _⟩ := (C71_mentioned_partial _ _ _ _ _ _ DiffEx.runs hp hr).1 none (str! "f") ⟨by decide, by decide⟩
  exact ⟨r, h1, h2⟩

/-! ### C72 -/

/-- Groups that can be sorted: there is at most one, or all have names. -/
def Spec.Sortable (s : FunGroups) : Prop := s.length ≤ 1 ∨ ∀ a ∈ s, a.1 ≠ none

/-- **C72** as stated: the comparison of two snapshots aborts only by an exception of the comparison of two functions. -/
def C72_statement : Prop :=
  ∀ (σ : Type) (env : CmpEnv σ) (dir : Str) (first second : FunGroups) (w : σ) (e : PyErr),
    RunsFunctionsDiff env → ProperGroups first → Sortable first → compareSnapshots env dir first second w = .error e →
    ∃ g f old new prev w', Comparable first second g f old new ∧ (env.diff g f old new prev w').2 = .error e

namespace UnknownEx
/-- A single function with an unknown result. -/
def heap : Heap := fun _ => { names := fun _ => str! "f", result := .unknown, files := fun _ => some (str! "a.c") }
def graph : Graph := { vertices := [(str! "f", 0)] }

theorem runs (s : Side) : reachableFrom heap graph s (str! "f") = .ok ([0], []) := by
  have h1 : searchIter heap graph s (some (str! "a.c")) 2 { visited := [], queue := [0], result := [0], bt := [] } =
      some (.ok { visited := [0], queue := [], result := [0], bt := [] }) := by cases s <;> rfl
  have h2 := searchLoop_of_iter h1
  unfold reachableFrom
  rw [show graph.vertices.get? (str! "f") = some 0 from rfl]
  simp only
  rw [show (heap 0).files s = some (str! "a.c") from rfl, h2]

def env : FDEnv := { NoneEx.env with full := false, engine := fun _ _ _ _ => .ok (heap, graph, []) }

def acc : PairAcc :=
  { objs := [⟨{ name := str! "f", filename := some (str! "a.c") }, { name := str! "f", filename := some (str! "a.c") }, .unknown⟩]
    bodiesL := [], bodiesR := [] }

theorem list : funPairList id heap graph (str! "f") (str! "f") false = .ok acc := by
  unfold funPairList
  rw [runs .left]
  simp only
  rw [runs .right]
  rfl

def res : Res := (compareObjs env acc (Res.new .none (str! "f") (str! "f")) acc.objs).1.setGraph (some graph)

theorem diff : functionsDiff env (str! "f") (str! "f") none 1 LinkEx.state =
    some ({ LinkEx.state with heap := heap, curr := some graph, engineRuns := 1 }, .ok res) := by
  have hl : engineLoop env (str! "f") none 1 { LinkEx.state with curr := none, engineRuns := 0 } =
      some ({ LinkEx.state with heap := heap, curr := some graph, engineRuns := 1 }, .ok graph) := rfl
  rw [functionsDiff_eval hl list]
  rfl

end UnknownEx

/-- **C72 (violated)** With a regex filter, an unknown function (which has no diff) aborts the comparison. -/
theorem C72_fails : ¬ C72_statement := by
  intro h
  have hrun : compareSnapshots (constEnv (str! "f") UnknownEx.res false (some (fun _ => true)) false false) [] EqualEx.single
      EqualEx.single () = .error .typeError := rfl
  obtain ⟨g, f, old, new, prev, w, _, he⟩ := h Unit _ [] EqualEx.single EqualEx.single () _ (constEnv_runs rfl UnknownEx.diff)
    (properGroups_of_decide (by decide)) (Or.inl (by decide)) hrun
  unfold constEnv at he
  simp only at he
  split at he <;> cases he

/-! When are diffs missing? -/

/-- Inner results without a diff: only without full diff, and never not-equal ones. No inner verdict exceeds the overall. -/
def DiffsGiven (full : Bool) (r : Res) : Prop :=
  ∀ x ∈ r.inner.values, (x.diff = none → full = false ∧ x.kind ≠ .notEqual) ∧ x.kind.toNat ≤ r.kind.toNat

theorem ofInt_toNat (a b : Kind) : (Kind.ofInt (max a.toNat b.toNat)).toNat = max a.toNat b.toNat := by
  cases a <;> cases b <;> rfl

theorem compareObjs_diffs {env : FDEnv} {acc : PairAcc} : ∀ (os : List Obj) (r : Res), (Dict.keys r.inner).Nodup →
    DiffsGiven env.full r → DiffsGiven env.full (compareObjs env acc r os).1
  | [], r, _, h => by simpa [compareObjs] using h
  | o :: os, r, hn, h => by
    unfold compareObjs
    cases objKind env o with
    | error x => exact h
    | ok k =>
      simp only
      cases hd : objDiff env acc k o with
      | error x => exact h
      | ok d =>
        simp only
        split
        · exact compareObjs_diffs os r hn h
        · refine compareObjs_diffs os _ (Dict.nodup_keys_set hn _ _) ?_
          intro x hx
          obtain ⟨a, ha, rfl⟩ := List.mem_map.1 hx
          have ha : a ∈ Dict.set r.inner o.first.name (.mk k o.first o.second d none []) := ha
          rw [Dict.mem_set hn] at ha
          have hkind : (r.addInner (.mk k o.first o.second d none [])).kind.toNat = max r.kind.toNat k.toNat := ofInt_toNat _ _
          rw [hkind]
          rcases ha with rfl | ha
          · refine ⟨?_, Nat.le_max_right _ _⟩
            intro hnone
            have hnone : d = none := hnone
            subst hnone
            unfold objDiff at hd
            by_cases hc : k = .notEqual ∨ env.full = true
            · rw [if_pos hc] at hd
              exfalso
              cases hk : o.first.kind with
              | syntactic =>
                rw [hk] at hd
                simp only at hd
                split at hd
                · cases hd
                · split at hd <;> cases hd
              | function => rw [hk] at hd; cases hs : env.syntaxDiff o <;> rw [hs] at hd <;> cases hd
              | type => rw [hk] at hd; cases hs : env.syntaxDiff o <;> rw [hs] at hd <;> cases hd
            · rw [not_or] at hc
              exact ⟨by simpa using hc.2, hc.1⟩
          · obtain ⟨h1, h2⟩ := h a.2 (List.mem_map.2 ⟨a, ha.1, rfl⟩)
            exact ⟨h1, le_trans h2 (Nat.le_max_left _ _)⟩

/-- In a result of `functions_diff`, a difference has no diff only without full diff, and then it is not a not-equal one;
if the overall verdict is not-equal, its verdict is none, equal or assumed-equal. -/
theorem functionsDiff_diffs {env : FDEnv} {f1 f2 : Str} {prev : Option Graph} {fuel : Nat} {st st' : FDState} {res : Res}
    (h : functionsDiff env f1 f2 prev fuel st = some (st', .ok res)) :
    ∀ x ∈ res.inner.values, x.diff = none → env.full = false ∧ x.kind ≠ .notEqual ∧
      (res.kind = .notEqual → x.kind = .none ∨ x.kind = .equal ∨ x.kind = .assumedEqual) := by
  have hempty : DiffsGiven env.full (Res.new .none f1 f2) := by intro x hx; simp [Res.new, Res.inner, Dict.values] at hx
  have hw : ∀ (st1 : FDState) (r : Res) (e : Except PyErr Unit), DiffsGiven env.full r → wrapUp st1 prev r e = .ok res →
      DiffsGiven env.full res := by
    intro st1 r e hr hw
    unfold wrapUp at hw
    rcases e with x | u
    · cases x <;> simp at hw
      all_goals
        subst hw
        intro x hx
        refine ⟨(hr x hx).1, ?_⟩
        show x.kind.toNat ≤ 6
        cases x.kind <;> decide
    · simp at hw; subst hw; exact hr
  have hg : DiffsGiven env.full res := by
    rcases functionsDiff_cases h with ⟨x, _, h2⟩ | ⟨st1, g, _, _, h2, h3⟩
    · exact hw _ _ _ hempty h2.symm
    · refine hw _ _ _ ?_ h3.symm
      unfold finishDiff
      cases funPairList env.enum st1.heap g f1 f2 env.full with
      | error x => exact hempty
      | ok acc =>
        simp only
        cases acc.objs with
        | nil => intro x hx; simp [Res.new, Res.setKind, Res.inner, Dict.values] at hx
        | cons o os => exact compareObjs_diffs _ _ (by simp [Res.new, Res.inner, Dict.keys]) hempty
  intro x hx hd
  obtain ⟨h1, h2⟩ := hg x hx
  obtain ⟨h3, h4⟩ := h1 hd
  refine ⟨h3, h4, ?_⟩
  intro hk
  rw [hk] at h2
  revert h2 h4
  cases x.kind <;> decide

theorem mapNamed_total : ∀ (s : FunGroups), (∀ a ∈ s, a.1 ≠ none) → ∃ named,
    mapExcept (fun g : Option Str × Dict Str FunDesc =>
      match g.1 with | none => .error .typeError | some n => .ok (n, g.2)) s = .ok named
  | [], _ => ⟨[], rfl⟩
  | (none, l) :: s, h => absurd rfl (h (none, l) (by simp))
  | (some n, l) :: s, h => by
    obtain ⟨named, hn⟩ := mapNamed_total s (fun a ha => h a (by simp [ha]))
    unfold mapExcept
    simp only
    rw [hn]
    exact ⟨_, rfl⟩

theorem sortGroups_total {s : FunGroups} (h : Sortable s) : ∃ gs, sortGroups s = .ok gs := by
  unfold sortGroups
  split
  · exact ⟨_, rfl⟩
  · exact ⟨_, rfl⟩
  · next h1 h2 =>
    rcases h with h | h
    · match s, h1, h2 with
      | [], h1, _ => exact absurd rfl h1
      | [g], _, h2 => exact absurd rfl (h2 g)
      | _ :: _ :: _, _, _ => simp at h
    · obtain ⟨named, hn⟩ := mapNamed_total _ h
      split
      · next e he => cases hn.symm.trans he
      · exact ⟨_, rfl⟩

theorem compareFuns_error {σ : Type} {env : CmpEnv σ} {second : FunGroups} {g : Option Str} {e : PyErr} :
    ∀ (fs : List (Str × FunDesc)) (st : CmpState σ), compareFuns env second g fs st = .error e →
      ∃ f old st', (f, old) ∈ fs ∧ compareFun env second g f old st' = .error e
  | [], st, h => by simp [compareFuns] at h
  | (f, old) :: fs, st, h => by
    unfold compareFuns at h
    cases hc : compareFun env second g f old st with
    | error e' => rw [hc] at h; simp only at h; cases h; exact ⟨f, old, st, by simp, hc⟩
    | ok st1 =>
      rw [hc] at h
      obtain ⟨f', old', st', hm, he⟩ := compareFuns_error fs st1 h
      exact ⟨f', old', st', by simp [hm], he⟩

theorem compareGroups_error {σ : Type} {env : CmpEnv σ} {second : FunGroups} {e : PyErr} :
    ∀ (gs : List (Option Str × Dict Str FunDesc)) (st : CmpState σ), compareGroups env second gs st = .error e →
      ∃ g f old st', (g, f, old) ∈ planOf gs ∧ compareFun env second g f old st' = .error e
  | [], st, h => by simp [compareGroups] at h
  | (g, fs) :: gs, st, h => by
    unfold compareGroups at h
    cases hc : compareFuns env second g (sortItems fs)
        { st with graph := none, groupPrinted := false, world := env.newGroup st.world } with
    | error e' =>
      rw [hc] at h
      simp only at h
      cases h
      obtain ⟨f, old, st', hm, he⟩ := compareFuns_error _ _ hc
      refine ⟨g, f, old, st', ?_, he⟩
      unfold planOf
      rw [List.flatMap_cons, List.mem_append]
      exact Or.inl (List.mem_map.2 ⟨(f, old), hm, rfl⟩)
    | ok st1 =>
      rw [hc] at h
      obtain ⟨g', f, old, st', hm, he⟩ := compareGroups_error gs st1 h
      refine ⟨g', f, old, st', ?_, he⟩
      unfold planOf at hm ⊢
      rw [List.flatMap_cons, List.mem_append]
      exact Or.inr hm

/-- **C72 (partial)** Without a regex filter, and if without full diff no listed difference has one of the verdicts none,
equal and assumed-equal (or diffs are not shown), the comparison of two snapshots aborts only by an exception of the
comparison of two functions. Missing: with a regex filter a listed function without a diff aborts the comparison. -/
theorem C72_aborts_partial {σ : Type} (env : CmpEnv σ) (dir : Str) (first second : FunGroups) (w : σ) (e : PyErr)
    (hd : RunsFunctionsDiff env) (hp : ProperGroups first) (hs : Sortable first) (hre : env.regex = none)
    (hk : env.showDiff = true → env.full = false → ∀ g f old new prev w res, (env.diff g f old new prev w).2 = .ok res →
      ∀ x ∈ res.inner.values, x.kind ≠ .none ∧ x.kind ≠ .equal ∧ x.kind ≠ .assumedEqual)
    (h : compareSnapshots env dir first second w = .error e) :
    ∃ g f old new prev w', Comparable first second g f old new ∧ (env.diff g f old new prev w').2 = .error e := by
  obtain ⟨gs, hgs⟩ := sortGroups_total hs
  unfold compareSnapshots at h
  rw [hgs] at h
  obtain ⟨g, f, old, st, hm, he⟩ := compareGroups_error gs _ h
  have ho := (mem_planOf hp hgs g f old).1 hm
  unfold compareFun at he
  cases hn : second.getByName f g with
  | none => rw [hn] at he; simp at he
  | some new =>
    rw [hn] at he
    simp only at he
    by_cases hmod : old.mod = none ∨ new.mod = none
    · rw [if_pos hmod] at he; simp at he
    · rw [if_neg hmod] at he
      rw [not_or] at hmod
      have hcomp : Comparable first second g f old new := ⟨ho, hn, hmod.1, hmod.2⟩
      cases hdf : (env.diff g f old new st.graph st.world).2 with
      | error e' =>
        rw [hdf] at he
        simp only [Except.error.injEq] at he
        subst he
        exact ⟨g, f, old, new, st.graph, st.world, hcomp, hdf⟩
      | ok res =>
        rw [hdf, hre] at he
        simp only [regexFilter] at he
        exfalso
        unfold reportFun at he
        split at he
        · split at he
          · next hc1 =>
            have hdiffs : env.showDiff = true → ∀ a ∈ sortItems res.inner, a.2.diff ≠ none := by
              intro hsd a ha hnone
              rw [mem_sortItems] at ha
              have ha' : a.2 ∈ res.inner.values := List.mem_map.2 ⟨a, ha, rfl⟩
              obtain ⟨fenv, fuel, s, s', hfull, hfd⟩ := hd _ _ _ _ _ _ _ hdf
              obtain ⟨h1, h2, h3⟩ := functionsDiff_diffs hfd a.2 ha' hnone
              rw [hfull] at h1
              have hne : res.kind = .notEqual := by
                rcases hc1 with hc1 | hc1
                · exact hc1
                · rw [h1] at hc1; cases hc1
              obtain ⟨k1, k2, k3⟩ := hk hsd h1 _ _ _ _ _ _ _ hdf a.2 ha'
              rcases h3 hne with h3 | h3 | h3
              · exact k1 h3
              · exact k2 h3
              · exact k3 h3
            obtain ⟨ss, hss⟩ := sections_total env.showDiff _ hdiffs
            cases hps : printSyntaxDiff env.showDiff env.full g f res with
            | ok os => rw [hps] at he; cases he
            | error e' =>
              unfold printSyntaxDiff at hps
              rw [hss] at hps
              split at hps <;> cases hps
          · cases he
        · cases he

/-- The theorem applies when comparing the second function fails: the exception is the one of that comparison. -/
example : ∃ g f old new prev w', Comparable [(none, [(str! "f", CmpEx.desc), (str! "g", CmpEx.desc)])]
    [(none, [(str! "f", CmpEx.desc), (str! "g", CmpEx.desc)])] g f old new ∧ (DiffEx.cenv.diff g f old new prev w').2 = .error .exit := by
  refine C72_aborts_partial DiffEx.cenv [] _ _ () .exit DiffEx.runs (properGroups_of_decide (by decide)) (Or.inl (by decide)) rfl ?_ rfl
  intro _ _ g f old new prev w res hr x hx
  have hres : res = DiffEx.res := by
    unfold DiffEx.cenv constEnv at hr
    simp only at hr
    split at hr <;> cases hr
    rfl
  subst hres
  have : ∀ x ∈ DiffEx.res.inner.values, x.kind = .notEqual := by
    intro x hx
    change x ∈ [(_ : Res), _, _] at hx
    simp only [List.mem_cons, List.not_mem_nil, or_false] at hx
    rcases hx with rfl | rfl | rfl <;> rfl
  rw [this x hx]
  decide

end DK
