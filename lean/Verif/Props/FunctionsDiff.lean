import Verif.Lemmas.FunctionsDiff
import Verif.Props.FunPairs
import Verif.Props.Result
import Verif.Props.Cache

/-! C17–C20: the comparison of two functions. -/

set_option autoImplicit false

namespace DK
open Spec

/-! ### What a comparison returns -/

theorem wrapUp_graph {st : FDState} {prev : Option Graph} {res r : Res} {e : Except PyErr Unit}
    (h : wrapUp st prev res e = .ok r) : r.graph = (match st.curr with | some g => some g | none => prev) := by
  unfold wrapUp at h
  rcases e with x | u
  · cases x <;> simp at h <;> subst h <;> rfl
  · simp at h; subst h; rfl

theorem wrapUp_kind {st : FDState} {prev : Option Graph} {res r : Res} {e : Except PyErr Unit}
    (h : wrapUp st prev res e = .ok r) :
    (e = .ok () ∧ r.kind = res.kind ∧ r.inner = res.inner) ∨
      ((e = .error .valueError ∨ e = .error .simpll) ∧ r.kind = .error) := by
  unfold wrapUp at h
  rcases e with x | u
  · cases x <;> simp at h <;> subst h <;> simp [Res.setGraph, Res.setKind, Res.kind]
  · simp at h; subst h; exact Or.inl ⟨rfl, rfl, rfl⟩

/-- A comparison that does not end with the verdict error. -/
theorem functionsDiff_good {env : FDEnv} {f1 f2 : Str} {prev : Option Graph} {fuel : Nat} {st st' : FDState} {res : Res}
    (h : functionsDiff env f1 f2 prev fuel st = some (st', .ok res)) (hk : res.kind ≠ .error) :
    ∃ st1 g acc, engineLoop env f1 prev fuel { st with curr := none, engineRuns := 0 } = some (st1, .ok g) ∧
      funPairList env.enum st'.heap g f1 f2 env.full = .ok acc ∧ st'.heap = st1.heap ∧ res.graph = some g ∧
      (∀ s, st'.mods s = (st1.mods s).restore) ∧ st'.written = st1.written ∧
      ((acc.objs = [] ∧ res.kind = .equal ∧ res.inner = []) ∨
       (acc.objs ≠ [] ∧ ∃ r, compareObjs env acc (Res.new .none f1 f2) acc.objs = (r, .ok ()) ∧
          res.kind = r.kind ∧ res.inner = r.inner)) := by
  rcases functionsDiff_cases h with ⟨x, h1, h2⟩ | ⟨st1, g, h1, hc, h2, h3⟩
  · rcases wrapUp_kind h2.symm with ⟨e, _⟩ | ⟨_, e⟩
    · cases e
    · exact absurd e hk
  · obtain ⟨e1, e2, e3, _, _⟩ := finishDiff_state env f1 f2 st1 g
    have hgr := wrapUp_graph h3.symm
    rw [h2, e3, hc] at hgr
    rcases wrapUp_kind h3.symm with ⟨e, hk', hi⟩ | ⟨_, e⟩
    swap
    · exact absurd e hk
    unfold finishDiff at e hk' hi
    rw [h2]
    cases hf : funPairList env.enum st1.heap g f1 f2 env.full with
    | error x => rw [hf] at e; simp at e
    | ok acc =>
      rw [hf] at e hk' hi
      have hst : (finishDiff env f1 f2 st1 g).1 = { st1 with mods := fun s => (st1.mods s).restore } := by
        unfold finishDiff
        rw [hf]
        simp only
        cases acc.objs <;> rfl
      refine ⟨st1, g, acc, h1, by rw [hst]; exact hf, by rw [hst], hgr, by rw [hst]; simp, by rw [hst], ?_⟩
      simp only at e hk' hi
      cases ho : acc.objs with
      | nil =>
        rw [ho] at e hk' hi
        exact Or.inl ⟨rfl, hk', hi⟩
      | cons o os =>
        rw [ho] at e hk' hi
        simp only at e hk' hi
        refine Or.inr ⟨by simp, (compareObjs env acc (Res.new .none f1 f2) (o :: os)).1, ?_, hk', hi⟩
        rw [Prod.ext_iff]
        exact ⟨rfl, e⟩

/-! ### C17 -/

theorem openMods_le (L : Side → Finset ModId) (mods : Side → LMod) : openMods L mods ≤ (L .left).card + (L .right).card := by
  unfold openMods
  exact Nat.add_le_add (Finset.card_le_card Finset.sdiff_subset) (Finset.card_le_card Finset.sdiff_subset)

/-- **C17** Whatever missing definitions the engine reports in each run, and whatever modules are found for them (all
taken from finite sets `L`), the comparison ends, and the engine is run at most once more than there are modules. `fuel`
bounds the iterations of the loop in the model; the result does not depend on it. -/
theorem C17_linking_terminates (env : FDEnv) (L : Side → Finset ModId) (hL : FindsOnly env L) (f1 f2 : Str)
    (prev : Option Graph) (st : FDState) :
    ∃ st' out, (∀ fuel, (L .left).card + (L .right).card + 1 ≤ fuel →
        functionsDiff env f1 f2 prev fuel st = some (st', out)) ∧
      st'.engineRuns ≤ (L .left).card + (L .right).card + 1 := by
  have hle := openMods_le L st.mods
  obtain ⟨o, ho, hr⟩ := engineLoop_ends hL f1 prev ((L .left).card + (L .right).card + 1)
    { st with curr := none, engineRuns := 0 } (by simp only; omega)
  simp only at hr
  have hm := engineLoop_mono _ _ _ ho
  obtain ⟨st1, e⟩ := o
  cases e with
  | error x =>
    refine ⟨st1, wrapUp st1 prev (Res.new .none f1 f2) (.error x), fun fuel hf => ?_, by simp only at hr; omega⟩
    unfold functionsDiff
    rw [hm fuel hf]
  | ok g =>
    refine ⟨(finishDiff env f1 f2 st1 g).1, wrapUp (finishDiff env f1 f2 st1 g).1 prev
      (finishDiff env f1 f2 st1 g).2.1 (finishDiff env f1 f2 st1 g).2.2, fun fuel hf => ?_, ?_⟩
    · unfold functionsDiff
      rw [hm fuel hf]
    · rw [(finishDiff_state env f1 f2 st1 g).2.2.2.1]
      simp only at hr
      omega

/-! ### C18 -/

theorem restore_unlinked {m : LMod} (h : WellLinked m) : Unlinked m.restore (originalFile m) := by
  unfold LMod.restore originalFile Unlinked
  cases hu : m.unlinked with
  | none => exact ⟨rfl, hu, h hu⟩
  | some u => exact ⟨rfl, rfl, rfl⟩

theorem link_original (env : FDEnv) (s : Side) (sym : Str) (st : FDState) (orig : Side → Str)
    (h : ∀ t, WellLinked (st.mods t) ∧ originalFile (st.mods t) = orig t) :
    ∀ t, WellLinked ((linkSymbolDef env s sym st).1.mods t) ∧ originalFile ((linkSymbolDef env s sym st).1.mods t) = orig t := by
  intro t
  obtain ⟨_, h1 | ⟨_, new, _, _, _, h2⟩⟩ := linkSymbolDef_cases env s sym st
  · rw [h1.2.1]; exact h t
  · rw [h2]
    beta_reduce
    by_cases ht : t = s
    · subst ht
      rw [if_pos rfl]
      exact ⟨fun hh => by simp at hh, (h t).2⟩
    · rw [if_neg ht]; exact h t

theorem engineLoop_original {env : FDEnv} {f1 : Str} {prev : Option Graph} {n : Nat} {st : FDState}
    {out : FDState × Except PyErr Graph} (hl : engineLoop env f1 prev n st = some out) (orig : Side → Str)
    (h : ∀ t, WellLinked (st.mods t) ∧ originalFile (st.mods t) = orig t) :
    ∀ t, WellLinked (out.1.mods t) ∧ originalFile (out.1.mods t) = orig t := by
  refine engineLoop_inv (fun st => ∀ t, WellLinked (st.mods t) ∧ originalFile (st.mods t) = orig t)
    (fun _ _ _ _ h => h) (fun _ _ h => h) (fun _ _ h => h) (fun s sym st h => link_original env s sym st orig h) ?_ n st out hl h
  intro st g h
  rw [(mergeResults_runs st prev g).2.1]
  exact h

/-- **C18** as stated: after a comparison of two unlinked modules both modules are unlinked again. -/
def C18_statement : Prop :=
  ∀ (env : FDEnv) (f1 f2 : Str) (prev : Option Graph) (fuel : Nat) (st st' : FDState) (res : Res) (file : Side → Str),
    (∀ s, Unlinked (st.mods s) (file s)) → functionsDiff env f1 f2 prev fuel st = some (st', .ok res) →
    ∀ s, Unlinked (st'.mods s) (file s)

namespace LinkEx
/-- The first run reports a missing definition of `g`, which is found in module 7; the second run fails. -/
def env : FDEnv where
  engine n _ _ h := if n = 0 then .ok (h, {}, [(some (str! "g"), none)]) else .error .simpll
  snapLookup _ _ _ := some 7
  srcLookup _ := none
  linkOk _ := true
  semdiff := none
  syntaxDiff _ := .ok []
  enum := id
  full := false

def state : FDState where
  heap := SearchEx.heap
  mods := fun _ => { llvm := str! "a.ll" }

def after : FDState := { state with
  clock := 1, engineRuns := 2, curr := some {}, written := [str! "a-linked.ll"]
  mods := fun t => if t = .left then { llvm := str! "a-linked.ll", unlinked := some (str! "a.ll"), linked := [7] }
    else { llvm := str! "a.ll" } }

theorem runs : functionsDiff env (str! "f") (str! "f") none 2 state =
    some (after, .ok (((Res.new .none (str! "f") (str! "f")).setKind .error).setGraph (some {}))) := by rfl
end LinkEx

/-- C17 applies to this environment: only module 7 is ever found. -/
example : ∃ st' out, (∀ fuel, 3 ≤ fuel → functionsDiff LinkEx.env (str! "f") (str! "f") none fuel LinkEx.state = some (st', out)) ∧
    st'.engineRuns ≤ 3 :=
  C17_linking_terminates LinkEx.env (fun _ => {7}) ⟨fun _ _ _ m h => by cases h; simp, fun _ _ h => by cases h⟩ _ _ _ _

/-- **C18 (violated)** If the engine fails after a module has been linked, the module stays linked. -/
theorem C18_fails : ¬ C18_statement := by
  intro h
  have := h LinkEx.env _ _ _ _ LinkEx.state _ _ (fun _ => str! "a.ll") (fun s => ⟨rfl, rfl, rfl⟩) LinkEx.runs .left
  exact absurd this.1 (by decide)

/-- **C18 (partial)** A comparison that does not end with the verdict error leaves both modules unlinked and referring to
their original files; and no comparison, failing or not, forgets the original files, so that the next successful
comparison restores them. Missing: after a failure modules stay linked. -/
theorem C18_modules_restored_partial (env : FDEnv) (f1 f2 : Str) (prev : Option Graph) (fuel : Nat) (st st' : FDState)
    (out : Except PyErr Res) (hw : ∀ s, WellLinked (st.mods s))
    (h : functionsDiff env f1 f2 prev fuel st = some (st', out)) :
    (∀ s, WellLinked (st'.mods s) ∧ originalFile (st'.mods s) = originalFile (st.mods s)) ∧
    (∀ res, out = .ok res → res.kind ≠ .error → ∀ s, Unlinked (st'.mods s) (originalFile (st.mods s))) := by
  constructor
  · rcases functionsDiff_cases h with ⟨x, h1, _⟩ | ⟨st1, g, h1, _, h2, _⟩
    · exact engineLoop_original h1 (fun s => originalFile (st.mods s)) (fun t => ⟨hw t, rfl⟩)
    · have h3 := engineLoop_original h1 (fun s => originalFile (st.mods s)) (fun t => ⟨hw t, rfl⟩)
      simp only at h3
      rw [h2]
      have hor : (finishDiff env f1 f2 st1 g).1.mods = st1.mods ∨
          (finishDiff env f1 f2 st1 g).1.mods = fun s => (st1.mods s).restore := by
        unfold finishDiff
        cases funPairList env.enum st1.heap g f1 f2 env.full with
        | error x => exact Or.inl rfl
        | ok acc =>
          right
          simp only
          cases acc.objs <;> rfl
      rcases hor with e | e
      · rw [e]; exact h3
      · rw [e]
        intro s
        obtain ⟨q1, q2, q3⟩ := restore_unlinked (h3 s).1
        refine ⟨fun _ => q3, ?_⟩
        unfold originalFile at q1 ⊢
        rw [q2]
        simp only [Option.getD_none]
        rw [q1]
        exact (h3 s).2
  · rintro res rfl hk s
    obtain ⟨st1, g, acc, h1, _, _, _, h2, _⟩ := functionsDiff_good h hk
    have h3 := engineLoop_original h1 (fun s => originalFile (st.mods s)) (fun t => ⟨hw t, rfl⟩) s
    simp only at h3
    rw [h2 s, ← h3.2]
    exact restore_unlinked h3.1

/-- The theorem applies to the failing run above: the original file is still known. -/
example : ∀ s, originalFile (LinkEx.after.mods s) = str! "a.ll" := by
  intro s
  have := (C18_modules_restored_partial _ _ _ _ _ _ _ _ (fun s _ => rfl) LinkEx.runs).1 s
  exact this.2

/-! ### C64: files written by the linker -/

/-- **C64** as stated: linking never overwrites the original LLVM file of a module. -/
def C64_statement : Prop :=
  ∀ (env : FDEnv) (f1 f2 : Str) (prev : Option Graph) (fuel : Nat) (st st' : FDState) (out : Except PyErr Res)
    (file : Side → Str), (∀ s, Unlinked (st.mods s) (file s)) → st.written = [] →
    functionsDiff env f1 f2 prev fuel st = some (st', out) → ∀ s, file s ∉ st'.written

/-- **C64 (violated)** A file whose path contains `-linked` is taken for the output of an earlier link and overwritten. -/
theorem C64_fails : ¬ C64_statement := by
  intro h
  have := h LinkEx.env (str! "f") (str! "f") none 2
    { LinkEx.state with mods := fun _ => { llvm := str! "p-linked/a.ll" } } _ _ (fun _ => str! "p-linked/a.ll")
    (fun s => ⟨rfl, rfl, rfl⟩) rfl rfl .left
  exact absurd (by decide) this

theorem linkTarget_linked (m : LMod) : containsLinked m.linkTarget = true := by
  unfold LMod.linkTarget
  split
  · next h => exact h
  · unfold containsLinked
    rw [decide_eq_true_eq]
    exact ⟨m.llvm.take (m.llvm.length - 3), str! ".ll", by simp⟩

/-- **C64 (partial)** Every file written by the linker has `-linked` in its path, so a module whose path does not contain
it is never overwritten. Missing: modules whose path contains `-linked`. -/
theorem C64_originals_not_overwritten_partial (env : FDEnv) (f1 f2 : Str) (prev : Option Graph) (fuel : Nat)
    (st st' : FDState) (out : Except PyErr Res) (hw : st.written = [])
    (h : functionsDiff env f1 f2 prev fuel st = some (st', out)) :
    (∀ f ∈ st'.written, (str! "-linked") <:+: f) ∧
    (∀ s, ¬ (str! "-linked") <:+: originalFile (st.mods s) → originalFile (st.mods s) ∉ st'.written) := by
  have key : ∀ f ∈ st'.written, (str! "-linked") <:+: f := by
    have hloop : ∀ o, engineLoop env f1 prev fuel { st with curr := none, engineRuns := 0 } = some o →
        ∀ f ∈ o.1.written, (str! "-linked") <:+: f := by
      intro o ho
      refine engineLoop_inv (fun st => ∀ f ∈ st.written, (str! "-linked") <:+: f) (fun _ _ _ _ h => h) (fun _ _ h => h)
        (fun _ _ h => h) ?_ ?_ fuel _ o ho (by simp [hw])
      · intro s sym st hst
        have hlt : (str! "-linked") <:+: (st.mods s).linkTarget := by
          have := linkTarget_linked (st.mods s)
          unfold containsLinked at this
          simpa using this
        obtain ⟨_, ⟨_, _, h1 | h1⟩ | ⟨_, new, _, _, h1, _⟩⟩ := linkSymbolDef_cases env s sym st
        · rw [h1]; exact hst
        all_goals
          rw [h1]
          intro f hf
          rw [List.mem_append, List.mem_singleton] at hf
          rcases hf with hf | rfl
          · exact hst f hf
          · exact hlt
      · intro st g hst
        rw [(mergeResults_runs st prev g).2.2]; exact hst
    rcases functionsDiff_cases h with ⟨x, h1, _⟩ | ⟨st1, g, h1, _, h2, _⟩
    · exact hloop _ h1
    · rw [h2, (finishDiff_state env f1 f2 st1 g).2.1]
      exact hloop _ h1
  exact ⟨key, fun s hs hmem => hs (key _ hmem)⟩

/-- In the run above one file is written, and it is not the original one. -/
example : LinkEx.after.written = [str! "a-linked.ll"] ∧ (str! "a.ll") ∉ LinkEx.after.written :=
  ⟨rfl, (C64_originals_not_overwritten_partial _ _ _ _ _ _ _ _ rfl LinkEx.runs).2 .left (by decide)⟩

end DK
