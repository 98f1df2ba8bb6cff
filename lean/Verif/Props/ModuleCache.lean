import Verif.Spec.ModuleCache
import Verif.Lemmas.Dict

/-! Properties of runs of the engine (C138–C140). -/

set_option autoImplicit false

namespace DK

open Spec

variable {M : Type}

private theorem process_fresh (E : EngineRun M) (pats : Dict Str Bool) (disk : Str → M) (c : EngineCall) :
    processAndCompare E pats c.var c.funFirst c.funSecond ⟨disk c.first, false⟩ ⟨disk c.second, false⟩ = comparison E pats disk c := by
  unfold processAndCompare comparison preprocessModule prepared
  cases c.var <;> rfl

/-! ### C138 -/

/-- The statement of C138: in every session, every comparison receives what the engine says about it, or an error. -/
def C138_statement : Prop :=
  ∀ (M : Type) (E : EngineRun M) (ffi : Bool) (pats : Dict Str Bool) (toCache : List Str) (disk : Str → M) (calls : List EngineCall),
    List.Forall₂ (fun c o => Received (comparison E pats disk c) o) calls (engineSession E ffi none pats toCache disk calls [])

private def plainEngine (t : Option Str) : EngineRun Unit := ⟨fun _ _ m => m, fun _ m => m, fun _ _ _ _ => t⟩

private def aCall : EngineCall := ⟨str! "a.ll", str! "b.ll", str! "f", str! "f", none⟩

/-- The code does not satisfy C138: a crash of the engine ends the whole tool (unless the option to disable the library is used). -/
theorem C138_fails : ¬ C138_statement := by
  intro h
  have := h Unit (plainEngine none) true [] [] (fun _ => ()) [aCall]
  cases this with
  | cons h1 _ => cases h1

/-- Texts that do not fit into the buffer are written behind its end. -/
theorem C138_fails_long : ∃ t : Str, comparison (plainEngine (some t)) [] (fun _ => ()) aCall = some t ∧
    engineSession (plainEngine (some t)) true none [] [] (fun _ => ()) [aCall] [] = [.dead] := by
  have long : ∀ t : Str, ¬ t.length < bufferSize →
      (runSimpll (plainEngine (some t)) true none [] [] (fun _ => ()) aCall []).1 = .dead := fun t ht => by
    show (if t.length < bufferSize then RunOut.text t else RunOut.dead) = _
    exact if_neg ht
  have comp : ∀ t : Str, comparison (plainEngine (some t)) [] (fun _ => ()) aCall = some t := fun _ => rfl
  have e := long (List.replicate bufferSize 'a') (by rw [List.length_replicate]; exact Nat.lt_irrefl _)
  refine ⟨List.replicate bufferSize 'a', comp _, ?_⟩
  unfold engineSession
  dsimp only
  rw [e]
  rfl

/-- When a module is loaded in advance, the tool ends with a `TypeError`. -/
theorem C138_fails_cached : engineSession (plainEngine (some [])) true none [] [str! "a.ll"] (fun _ => ()) [aCall, aCall] [] =
    [.exception .typeError] := by decide

private theorem received_fatal {t : Option Str} {o : RunOut} (h : Received t o) : o.fatal = false := by
  cases t with
  | none => rw [show o = _ from h]; rfl
  | some t => rw [show o = _ from h]; rfl

/-- **C138 (partial)** If the program of the engine is used, every comparison receives what the engine says, or an error if it
crashes, whatever happens in other comparisons. -/
theorem C138_program_partial (E : EngineRun M) (conv : Option (Dict Str Bool)) (pats : Dict Str Bool) (toCache : List Str) (disk : Str → M)
    (calls : List EngineCall) (cache : Dict Str (LoadedMod M)) :
    List.Forall₂ (fun c o => Received (comparison E pats disk c) o) calls (engineSession E false conv pats toCache disk calls cache) := by
  induction calls with
  | nil => exact .nil
  | cons c cs ih =>
    have h1 : runSimpll E false conv pats toCache disk c cache =
      (runBinary E pats c.var c.funFirst c.funSecond (disk c.first) (disk c.second), cache) := rfl
    have h2 : Received (comparison E pats disk c) (runBinary E pats c.var c.funFirst c.funSecond (disk c.first) (disk c.second)) := by
      unfold runBinary
      rw [process_fresh]
      cases comparison E pats disk c <;> rfl
    unfold engineSession
    dsimp only
    rw [h1]
    dsimp only
    rw [received_fatal h2]
    exact .cons h2 ih

example : engineSession (M := Bool) ⟨fun _ _ m => m, fun _ m => m, fun _ _ l r => if l = r then some (str! "equal") else none⟩ false none []
    [] (fun p => decide (p = str! "a.ll")) [aCall, { aCall with second := str! "a.ll" }] [] =
      [.exception .simpll, .text (str! "equal")] := by decide

private theorem preload_other (E : EngineRun M) (conv : Option (Dict Str Bool)) (toCache : List Str) (disk : Str → M) (path : Str)
    (cache : Dict Str (LoadedMod M)) (h : path ∉ toCache) : preload E conv toCache disk path cache = (cache, none) := by
  unfold preload
  rw [if_neg]
  simp [h]

private theorem direct_received (E : EngineRun M) (pats : Dict Str Bool) (disk : Str → M) (c : EngineCall)
    (h : ∃ t, comparison E pats disk c = some t ∧ t.length < bufferSize) :
    Received (comparison E pats disk c) (runDirect E pats c.var c.funFirst c.funSecond (disk c.first) (disk c.second)) := by
  obtain ⟨t, h1, h2⟩ := h
  unfold runDirect
  rw [process_fresh, h1]
  exact if_pos h2

/-- **C138 (partial)** With the library, every comparison receives what the engine says, if the engine does not crash, no text is
longer than the buffer, and no module of the comparisons is loaded in advance. Missing: the other cases
(`C138_fails`, `C138_fails_long`, `C138_fails_cached`). -/
theorem C138_library_partial (E : EngineRun M) (conv : Option (Dict Str Bool)) (pats : Dict Str Bool) (toCache : List Str) (disk : Str → M)
    (calls : List EngineCall) (h : ∀ c ∈ calls, ∃ t, comparison E pats disk c = some t ∧ t.length < bufferSize)
    (hc : ∀ c ∈ calls, c.first ∉ toCache ∧ c.second ∉ toCache) :
    List.Forall₂ (fun c o => Received (comparison E pats disk c) o) calls (engineSession E true conv pats toCache disk calls []) := by
  induction calls with
  | nil => exact .nil
  | cons c cs ih =>
    have hc' := hc c (by simp)
    have h1 : runSimpll E true conv pats toCache disk c [] =
        (runDirect E pats c.var c.funFirst c.funSecond (disk c.first) (disk c.second), []) := by
      unfold runSimpll
      rw [if_pos rfl, preload_other _ _ _ _ _ _ hc'.1]
      dsimp only
      rw [preload_other _ _ _ _ _ _ hc'.2]
      rfl
    have h2 := direct_received E pats disk c (h c (by simp))
    unfold engineSession
    dsimp only
    rw [h1]
    dsimp only
    rw [received_fatal h2]
    exact .cons h2 (ih (fun c hm => h c (by simp [hm])) (fun c hm => hc c (by simp [hm])))

example : (∀ c ∈ [aCall, aCall], ∃ t, comparison (plainEngine (some (str! "x"))) [] (fun _ => ()) c = some t ∧ t.length < bufferSize) ∧
    ∀ c ∈ [aCall, aCall], c.first ∉ [str! "c.ll"] ∧ c.second ∉ [str! "c.ll"] :=
  ⟨fun c _ => ⟨str! "x", rfl, by decide⟩, by decide⟩

/-! ### C139 -/

/-- The statement of C139: loading modules in advance changes no outcome of a session. -/
def C139_statement (conv : Dict Str Bool → Option (Dict Str Bool)) : Prop :=
  ∀ (M : Type) (E : EngineRun M) (pats : Dict Str Bool) (toCache : List Str) (disk : Str → M) (calls : List EngineCall),
    engineSession E true (conv pats) pats toCache disk calls [] = engineSession E true (conv pats) pats [] disk calls []

/-- The code does not satisfy C139: loading in advance ends with a `TypeError`. -/
theorem C139_fails : ¬ C139_statement (fun _ => none) := by
  intro h
  have := h Unit (plainEngine (some [])) [] [str! "a.ll"] (fun _ => ()) [aCall]
  revert this
  decide

/-- Even if the settings were passed as a structure, C139 would not hold: the module is simplified before and not after it is
sliced with respect to a variable. -/
theorem C139_fails_order : ¬ C139_statement some := by
  intro h
  have := h Nat ⟨fun _ _ m => m + 1, fun _ m => 2 * m, fun _ _ l _ => some (List.replicate l 'a')⟩ [] [str! "a.ll", str! "b.ll"] (fun _ => 1)
    [{ aCall with var := some (str! "v") }]
  revert this
  decide +kernel

/-- What is in the cache of modules. -/
private def ModCacheInv (E : EngineRun M) (pats : Dict Str Bool) (disk : Str → M) (cache : Dict Str (LoadedMod M)) : Prop :=
  ∀ p m, cache.get? p = some m → m = ⟨E.passes pats (disk p), true⟩

private theorem preload_inv {E : EngineRun M} {pats : Dict Str Bool} {toCache : List Str} {disk : Str → M} {path : Str}
    {cache : Dict Str (LoadedMod M)} (h : ModCacheInv E pats disk cache) :
    ∃ cache', preload E (some pats) toCache disk path cache = (cache', none) ∧ ModCacheInv E pats disk cache' := by
  unfold preload
  split
  · refine ⟨_, rfl, ?_⟩
    intro p m hm
    rw [Dict.get?_set] at hm
    split at hm
    · next he =>
      cases hm
      subst he
      rfl
    · exact h p m hm
  · exact ⟨_, rfl, h⟩

/-- **C139 (partial)** If the settings were passed as a structure, then for comparisons without variables, an engine that does not
crash, and texts that fit into the buffer, every comparison would receive what the engine says, whichever modules are loaded in
advance. Missing: comparisons with variables (`C139_fails_order`), and the code as it is (`C139_fails`). -/
theorem C139_converted_partial (E : EngineRun M) (pats : Dict Str Bool) (toCache : List Str) (disk : Str → M) (calls : List EngineCall)
    (h : ∀ c ∈ calls, ∃ t, comparison E pats disk c = some t ∧ t.length < bufferSize) (hv : ∀ c ∈ calls, c.var = none) :
    List.Forall₂ (fun c o => Received (comparison E pats disk c) o) calls
      (engineSession E true (some pats) pats toCache disk calls []) := by
  have key : ∀ cache, ModCacheInv E pats disk cache → List.Forall₂ (fun c o => Received (comparison E pats disk c) o) calls
      (engineSession E true (some pats) pats toCache disk calls cache) := by
    induction calls with
    | nil => intro _ _; exact .nil
    | cons c cs ih =>
      intro cache hi
      obtain ⟨cache1, e1, i1⟩ := preload_inv (toCache := toCache) (path := c.first) hi
      obtain ⟨cache2, e2, i2⟩ := preload_inv (toCache := toCache) (path := c.second) i1
      have hr : ∃ o, runSimpll E true (some pats) pats toCache disk c cache = (o, cache2) ∧ Received (comparison E pats disk c) o := by
        unfold runSimpll
        rw [if_pos rfl, e1]
        dsimp only
        rw [e2]
        dsimp only
        split
        · next l r hl hr =>
          refine ⟨_, rfl, ?_⟩
          have e3 : processAndCompare E pats c.var c.funFirst c.funSecond l r = comparison E pats disk c := by
            rw [i2 _ _ hl, i2 _ _ hr]
            unfold processAndCompare comparison preprocessModule prepared
            rw [hv c (by simp)]
            rfl
          obtain ⟨t, h1, h2⟩ := h c (by simp)
          unfold runForked
          rw [e3, h1]
          exact if_pos h2
        · exact ⟨_, rfl, direct_received E pats disk c (h c (by simp))⟩
      obtain ⟨o, ho, hro⟩ := hr
      unfold engineSession
      dsimp only
      rw [ho]
      dsimp only
      rw [received_fatal hro]
      exact .cons hro (ih (fun c hm => h c (by simp [hm])) (fun c hm => hv c (by simp [hm])) cache2 i2)
  exact key [] (fun p m hm => by cases hm)

/-- Modules that are not used in a session may be loaded in advance (**C139**, partial: the code as it is). -/
theorem C139_unused_partial (E : EngineRun M) (conv : Option (Dict Str Bool)) (pats : Dict Str Bool) (toCache : List Str) (disk : Str → M)
    (calls : List EngineCall) (hc : ∀ c ∈ calls, c.first ∉ toCache ∧ c.second ∉ toCache) (cache : Dict Str (LoadedMod M)) :
    engineSession E true conv pats toCache disk calls cache = engineSession E true conv pats [] disk calls cache := by
  induction calls generalizing cache with
  | nil => rfl
  | cons c cs ih =>
    have hc' := hc c (by simp)
    have h1 : runSimpll E true conv pats toCache disk c cache = runSimpll E true conv pats [] disk c cache := by
      unfold runSimpll
      simp only [preload_other _ _ _ _ _ _ hc'.1, preload_other _ _ _ _ _ _ hc'.2, preload_other _ _ _ _ _ _ (List.not_mem_nil (a := c.first)),
        preload_other _ _ _ _ _ _ (List.not_mem_nil (a := c.second))]
    unfold engineSession
    dsimp only
    rw [h1, ih (fun c hm => hc c (by simp [hm]))]

example : (∀ c ∈ [aCall, aCall], c.var = none) ∧ ∀ c ∈ [aCall], c.first ∉ [str! "c.ll"] ∧ c.second ∉ [str! "c.ll"] :=
  ⟨by decide, by decide⟩

/-! ### C140 -/

private theorem countModule_get (m : Option Str) (d : Dict Str Nat) (p : Str) :
    ((countModule m d).get? p).getD 0 = (d.get? p).getD 0 + (if m = some p then 1 else 0) := by
  cases m with
  | none => simp [countModule]
  | some q =>
    unfold countModule
    dsimp only
    have e : ((if d.contains q then d else d.set q 0).get? p).getD 0 = (d.get? p).getD 0 := by
      split
      · rfl
      · next h =>
        rw [Dict.get?_set]
        split
        · next he =>
          subst he
          have : d.get? p = none := by simpa [Dict.contains] using h
          rw [this]
          rfl
        · rfl
    by_cases hq : p = q
    · subst hq
      rw [Dict.get?_set_self, if_pos rfl, Option.getD_some, e]
    · rw [Dict.get?_set_ne _ _ hq, e, if_neg (fun h => hq (Option.some.inj h).symm)]
      rfl

private theorem countModules_get (other : Str → Option (Option Str)) (fs : List (Str × Option Str)) (d : Dict Str Nat) (p : Str) :
    ((countModules other fs d).get? p).getD 0 = (d.get? p).getD 0 + uses other fs p := by
  induction fs generalizing d with
  | nil => rfl
  | cons x fs ih =>
    obtain ⟨f, old⟩ := x
    rw [countModules]
    unfold uses at ih ⊢
    rw [List.countP_cons, List.countP_cons]
    cases ho : other f with
    | none =>
      dsimp only
      rw [ih]
      simp
    | some new =>
      dsimp only
      rw [ih, countModule_get, countModule_get]
      simp only [decide_eq_true_eq, Bool.and_eq_true, Option.isSome_some, and_true, Option.some.injEq]
      omega

private theorem countModule_keys (m : Option Str) (d : Dict Str Nat) (h : d.keys.Nodup) : (countModule m d).keys.Nodup := by
  cases m with
  | none => exact h
  | some q =>
    unfold countModule
    dsimp only
    refine Dict.nodup_keys_set ?_ _ _
    split
    · exact h
    · exact Dict.nodup_keys_set h _ _

private theorem countModules_keys (other : Str → Option (Option Str)) (fs : List (Str × Option Str)) (d : Dict Str Nat)
    (h : d.keys.Nodup) : (countModules other fs d).keys.Nodup := by
  induction fs generalizing d with
  | nil => exact h
  | cons x fs ih =>
    obtain ⟨f, old⟩ := x
    rw [countModules]
    cases other f with
    | none => exact ih d h
    | some new => exact ih _ (countModule_keys _ _ (countModule_keys _ _ h))

/-- **C140** For every positive number, the modules that are loaded in advance are exactly those that are used that often by
functions that are in both snapshots; each of them is listed once. -/
theorem C140_modules (other : Str → Option (Option Str)) (functions : List (Str × Option Str)) (n : Nat) (hn : 0 < n) :
    (∀ m, m ∈ modulesToCache other functions n ↔ n ≤ uses other functions m) ∧ (modulesToCache other functions n).Nodup := by
  have hk := countModules_keys other functions [] .nil
  constructor
  · intro m
    have h1 := countModules_get other functions [] m
    have h2 : uses other functions m = ((countModules other functions []).get? m).getD 0 := by rw [h1]; simp
    rw [h2]
    unfold modulesToCache
    constructor
    · intro h
      obtain ⟨⟨p, k⟩, hp, rfl⟩ := List.mem_map.1 h
      rw [List.mem_filter] at hp
      rw [Dict.mem_get? hk hp.1]
      simpa using hp.2
    · intro h
      cases hg : (countModules other functions []).get? m with
      | none => rw [hg] at h; simp at h; omega
      | some k =>
        rw [hg] at h
        exact List.mem_map.2 ⟨(m, k), List.mem_filter.2 ⟨Dict.get?_mem hg, by simpa using h⟩, rfl⟩
  · unfold modulesToCache
    exact hk.sublist (List.filter_sublist.map _)

example : modulesToCache (fun f => if f = str! "h" then none else some (some (str! "b.ll")))
    [(str! "f", some (str! "a.ll")), (str! "g", some (str! "c.ll")), (str! "h", some (str! "a.ll"))] 2 = [str! "b.ll"] := by decide

end DK
