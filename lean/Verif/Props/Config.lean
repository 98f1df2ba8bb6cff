import Verif.Spec.Config
import Verif.Lemmas.Dict

/-! Configuration: C28, C29 and C78. -/

set_option autoImplicit false

namespace DK
open Spec

/-! ### C28 -/

/-- **C28** (full statement): for all options accepted on the command line, every pattern that can be named there is
configured, and it is active iff it was requested or is implied. -/
def C28_statement : Prop :=
  ∀ eo do' enable disable, parsePatternArgs eo = .ok enable → parsePatternArgs do' = .ok disable →
    ∃ s, builtinPatterns enable disable = .ok s ∧
      ∀ p ∈ cliPatterns, ∃ b, Dict.get? s p = some b ∧ (b = true ↔ Active enable disable p)

/-- It is violated: the option names a pattern `unused-returns`, which is not among the patterns. -/
theorem C28_fails : ¬ C28_statement := by
  intro h
  obtain ⟨s, h1, h2⟩ := h [] [] [] [] rfl rfl
  obtain ⟨b, hb, _⟩ := h2 (str! "unused-returns") (by decide)
  have : builtinPatterns [] [] = .ok defaultSettings := by rfl
  rw [this] at h1; cases h1
  revert hb; cases b <;> decide

/-- The options for `unused-returns` are accepted and have no effect. -/
theorem C28_unused_returns_ignored (enable disable : List Str) :
    builtinPatterns (str! "unused-returns" :: enable) disable = builtinPatterns enable disable ∧
    builtinPatterns enable (str! "unused-returns" :: disable) = builtinPatterns enable disable := by
  have hall : (str! "all" = str! "unused-returns") = False := by decide
  have key : ∀ s : Dict Str Bool, (∀ p ∈ s, p.1 ≠ str! "unused-returns") →
      setListed (str! "unused-returns" :: enable) disable s = setListed enable disable s ∧
      setListed enable (str! "unused-returns" :: disable) s = setListed enable disable s := by
    intro s hs
    constructor <;> (apply List.map_congr_left; intro p hp; simp [hs p hp])
  have hset : ∀ b (s : Dict Str Bool), (∀ p ∈ s, p.1 ≠ str! "unused-returns") →
      ∀ p ∈ setAll b s, p.1 ≠ str! "unused-returns" := by
    intro b s hs p hp
    simp only [setAll, List.mem_map] at hp
    obtain ⟨q, hq, rfl⟩ := hp
    exact hs q hq
  have hd : ∀ p ∈ defaultSettings, p.1 ≠ str! "unused-returns" := by decide
  have hres : resolveDeps defaultSettings = .ok defaultSettings := by rfl
  unfold builtinPatterns
  rw [hres]
  simp only [updateFromArgs, List.mem_cons, hall, false_or]
  constructor
  · rw [(key _ ?_).1]
    split <;> split <;> first | exact hd | exact hset _ _ hd | exact hset _ _ (hset _ _ hd)
  · rw [(key _ ?_).2]
    split <;> split <;> first | exact hd | exact hset _ _ hd | exact hset _ _ (hset _ _ hd)

theorem get?_map_val {β : Type} (f : Str → β → β) (d : Dict Str β) (n : Str) :
    Dict.get? (d.map (fun p => (p.1, f p.1 p.2))) n = (Dict.get? d n).map (f n) := by
  induction d with
  | nil => rfl
  | cons a d ih =>
    simp only [List.map_cons, Dict.get?]
    by_cases h : a.1 = n
    · rw [if_pos h, if_pos h, h]; rfl
    · rw [if_neg h, if_neg h, ih]

/-- The value of a pattern before dependencies are resolved. -/
theorem listed_value (enable disable : List Str) (p : Str) :
    Dict.get? (setListed enable disable
      (if str! "all" ∈ disable then setAll false (if str! "all" ∈ enable then setAll true defaultSettings else defaultSettings)
        else if str! "all" ∈ enable then setAll true defaultSettings else defaultSettings)) p =
    (Dict.get? defaultSettings p).map (fun b => if p ∈ disable then false else if p ∈ enable then true
      else if str! "all" ∈ disable then false else if str! "all" ∈ enable then true else b) := by
  unfold setListed
  rw [get?_map_val (fun n b => if n ∈ disable then false else if n ∈ enable then true else b)]
  have ha : ∀ (c : Bool) (d : Dict Str Bool), Dict.get? (setAll c d) p = (Dict.get? d p).map (fun _ => c) := fun c d =>
    get?_map_val (fun _ _ => c) d p
  have h2 : Dict.get? (if str! "all" ∈ disable then
        setAll false (if str! "all" ∈ enable then setAll true defaultSettings else defaultSettings)
      else if str! "all" ∈ enable then setAll true defaultSettings else defaultSettings) p =
      (Dict.get? defaultSettings p).map (fun b => if str! "all" ∈ disable then false
        else if str! "all" ∈ enable then true else b) := by
    by_cases h3 : str! "all" ∈ disable <;> by_cases h4 : str! "all" ∈ enable <;> simp [h3, h4, ha, Function.comp_def]
  rw [h2, Option.map_map]; rfl

theorem default_value {p : Str} (hp : p ∈ allPatterns) :
    Dict.get? defaultSettings p = some (decide (p ∉ [str! "type-casts", str! "control-flow-only"])) := by
  simp only [allPatterns, List.mem_cons, List.not_mem_nil, or_false] at hp
  rcases hp with rfl | rfl | rfl | rfl | rfl | rfl | rfl | rfl | rfl | rfl | rfl | rfl <;> rfl

open Classical in
theorem requested_value (enable disable : List Str) (p : Str) :
    (if p ∈ disable then false else if p ∈ enable then true else if str! "all" ∈ disable then false
      else if str! "all" ∈ enable then true else decide (p ∉ [str! "type-casts", str! "control-flow-only"])) =
      decide (Requested enable disable p) := by
  unfold Requested
  by_cases h1 : p ∈ disable
  · simp [h1]
  · by_cases h2 : p ∈ enable
    · simp [h1, h2]
    · by_cases h3 : str! "all" ∈ disable
      · simp [h1, h2, h3]
      · by_cases h4 : str! "all" ∈ enable
        · simp [h1, h2, h3, h4]
        · simp [h1, h2, h3, h4]

/-- **C28** (partial): for all options, each of the twelve patterns is active iff it was requested or is implied.
Missing: the name `unused-returns` of the command line, which is not the name of a pattern. -/
theorem C28_patterns_partial (enable disable : List Str) :
    ∃ s, builtinPatterns enable disable = .ok s ∧ (Dict.keys s) = allPatterns ∧
      ∀ p ∈ allPatterns, ∃ b, Dict.get? s p = some b ∧ (b = true ↔ Active enable disable p) := by
  classical
  have hres : resolveDeps defaultSettings = .ok defaultSettings := by rfl
  unfold builtinPatterns
  rw [hres]
  simp only [updateFromArgs]
  have hv : ∀ p ∈ allPatterns, Dict.get? (setListed enable disable
      (if str! "all" ∈ disable then setAll false (if str! "all" ∈ enable then setAll true defaultSettings else defaultSettings)
        else if str! "all" ∈ enable then setAll true defaultSettings else defaultSettings)) p =
      some (decide (Requested enable disable p)) := by
    intro p hp
    rw [listed_value, default_value hp, Option.map_some, requested_value]
  have hkeys : Dict.keys (setListed enable disable
      (if str! "all" ∈ disable then setAll false (if str! "all" ∈ enable then setAll true defaultSettings else defaultSettings)
        else if str! "all" ∈ enable then setAll true defaultSettings else defaultSettings)) = allPatterns := by
    have hk : ∀ (f : Str → Bool → Bool) (d : Dict Str Bool), Dict.keys (d.map (fun p => (p.1, f p.1 p.2))) = Dict.keys d := by
      intro f d; simp [Dict.keys, Function.comp_def]
    have hd : Dict.keys defaultSettings = allPatterns := by rfl
    have hs : ∀ b d, Dict.keys (setAll b d) = Dict.keys d := fun b d => hk (fun _ _ => b) d
    unfold setListed
    rw [hk (fun n b => if n ∈ disable then false else if n ∈ enable then true else b)]
    split <;> split <;> simp only [hs, hd]
  generalize setListed enable disable
      (if str! "all" ∈ disable then setAll false (if str! "all" ∈ enable then setAll true defaultSettings else defaultSettings)
        else if str! "all" ∈ enable then setAll true defaultSettings else defaultSettings) = s at hv hkeys
  have hcf := hv (str! "control-flow-only") (by decide)
  unfold resolveDeps
  rw [hcf]
  by_cases hr : Requested enable disable (str! "control-flow-only")
  · rw [decide_eq_true hr]
    refine ⟨_, rfl, ?_, ?_⟩
    · rw [Dict.keys_set, if_pos (by rw [hkeys]; decide), hkeys]
    · intro p hp
      by_cases ht : p = str! "type-casts"
      · subst ht
        exact ⟨true, Dict.get?_set_self _ _ _, by simp [Active, hr]⟩
      · refine ⟨_, by rw [Dict.get?_set_ne _ _ ht]; exact hv p hp, ?_⟩
        simp [Active, ht]
  · rw [decide_eq_false hr]
    refine ⟨_, rfl, hkeys, fun p hp => ⟨_, hv p hp, ?_⟩⟩
    simp [Active, hr]

example : ∃ s, builtinPatterns [str! "control-flow-only"] [str! "all"] = .ok s ∧
    Dict.get? s (str! "type-casts") = some true ∧ Dict.get? s (str! "relocations") = some false := ⟨_, rfl, rfl, rfl⟩

/-! ### C78 -/

/-- **C78**: for every configuration made from the command line, the engine gets the same patterns through the library as
through the command line of its binary, and these are the configured ones. -/
theorem C78_same_patterns (enable disable : List Str) :
    ∃ s e, builtinPatterns enable disable = .ok s ∧ asFfiStruct s = .ok e ∧ parseOptions (simpllOptions s) {} = some e ∧
      ∀ p ∈ allPatterns, Dict.get? s p = fieldOf e p := by
  obtain ⟨s, h1, h2, h3⟩ := C28_patterns_partial enable disable
  refine ⟨s, ?_⟩
  -- a dictionary with these keys is a list of twelve values
  have hs : ∃ a b c d e f g h i j k l : Bool, s =
      [(str! "struct-alignment", a), (str! "function-splits", b), (str! "unused-return-types", c),
       (str! "kernel-prints", d), (str! "dead-code", e), (str! "numerical-macros", f), (str! "relocations", g),
       (str! "type-casts", h), (str! "control-flow-only", i), (str! "inverse-conditions", j),
       (str! "reordered-bin-ops", k), (str! "group-vars", l)] := by
    clear h1 h3
    unfold allPatterns at h2
    match s, h2 with
    | [(a0, a), (b0, b), (c0, c), (d0, d), (e0, e), (f0, f), (g0, g), (h0, h), (i0, i), (j0, j), (k0, k), (l0, l)], h2 =>
      simp only [Dict.keys, List.map_cons, List.map_nil, List.cons.injEq, and_true] at h2
      obtain ⟨rfl, rfl, rfl, rfl, rfl, rfl, rfl, rfl, rfl, rfl, rfl, rfl⟩ := h2
      exact ⟨a, b, c, d, e, f, g, h, i, j, k, l, rfl⟩
  obtain ⟨a, b, c, d, e, f, g, h, i, j, k, l, rfl⟩ := hs
  have hb : ∀ b, clBool (pyBool b) = some b := by intro b; cases b <;> rfl
  refine ⟨⟨a, b, c, d, e, f, g, h, i, j, k, l⟩, h1, by rfl, ?_, ?_⟩
  · clear h1 h2 h3
    simp only [simpllOptions, List.map_cons, List.map_nil, List.cons_append, List.nil_append, parseOptions, splitEq,
      hb, EnginePatterns.setOpt, reduceCtorEq, if_true, if_false, Char.reduceEq, List.cons.injEq, and_false, false_and,
      and_true, true_and]
  · intro p hp
    simp only [allPatterns, List.mem_cons, List.not_mem_nil, or_false] at hp
    rcases hp with rfl | rfl | rfl | rfl | rfl | rfl | rfl | rfl | rfl | rfl | rfl | rfl <;> rfl

/-! ### C29 -/

/-- **C29** (full statement): if a configuration with the list `ps` of patterns is loaded, the result is exactly the good
patterns; with the warning policy loading succeeds, with the error policy (the default) it succeeds iff all are good. -/
def C29_statement : Prop :=
  ∀ (env : PatEnv) (dir : Option Str) (path : Str) (policy : Option Str) (ps : List Str), env.readable path = true →
    getExtension path ≠ str! "ll" → env.yaml path = (policy, some ps) → (policy = none ∨ policy = some (str! "ERROR") ∨
      policy = some (str! "WARN")) →
    (∀ files, createFromFile env dir path = .ok files →
      ∀ f, f ∈ files ↔ (∃ p ∈ ps, f = located dir p) ∧ GoodPattern env f) ∧
    ((∃ files, createFromFile env dir path = .ok files) ↔
      (policy = some (str! "WARN") ∨ ∀ p ∈ ps, GoodPattern env (located dir p)))

/-- It is violated: with the warning policy, patterns that the verifier rejects are kept. -/
theorem C29_fails : ¬ C29_statement := by
  intro h
  obtain ⟨h1, _⟩ := h ⟨fun _ => true, fun _ => false, fun _ => (some (str! "WARN"), some [str! "p.ll"])⟩ none (str! "c.yaml")
    (some (str! "WARN")) [str! "p.ll"] rfl (by decide) rfl (by simp)
  have := (h1 [str! "p.ll"] rfl (str! "p.ll")).1 (by simp)
  exact absurd this.2.2.2 (by simp)

/-- It is also violated if the name of the configuration file has no extension: it is taken for a pattern. -/
theorem C29_fails_extension : ¬ ∀ (env : PatEnv) (path : Str), env.readable path = true → getExtension path ≠ str! "ll" →
    env.yaml path = (none, some []) → createFromFile env none path = .ok [] := by
  intro h
  have := h ⟨fun _ => true, fun _ => true, fun _ => (none, some [])⟩ (str! "patterns") rfl (by decide) rfl
  revert this; decide

/-- And with the warning policy an unreadable pattern aborts loading. -/
theorem C29_fails_unreadable : ¬ ∀ (env : PatEnv) (path : Str) (ps : List Str), env.readable path = true →
    getExtension path = str! "yaml" → env.yaml path = (some (str! "WARN"), some ps) →
    ∃ files, createFromFile env none path = .ok files := by
  intro h
  obtain ⟨files, hf⟩ := h ⟨fun f => f = str! "c.yaml", fun _ => true, fun _ => (some (str! "WARN"), some [str! "p.ll"])⟩
    (str! "c.yaml") [str! "p.ll"] (by decide) (by decide) rfl
  have : createFromFile ⟨fun f => f = str! "c.yaml", fun _ => true, fun _ => (some (str! "WARN"), some [str! "p.ll"])⟩ none
    (str! "c.yaml") = .error .valueError := by decide
  rw [this] at hf; cases hf

theorem addPatterns_error (env : PatEnv) : ∀ (ps files : List Str),
    ((∀ f ∈ ps, GoodPattern env f) → ∃ r, addPatterns env none (str! "ERROR") ps files = .ok r) ∧
    ∀ r, addPatterns env none (str! "ERROR") ps files = .ok r →
      (∀ f ∈ ps, GoodPattern env f) ∧ ∀ f, f ∈ r ↔ f ∈ ps ∨ f ∈ files := by
  intro ps
  induction ps with
  | nil => intro files; exact ⟨fun _ => ⟨files, rfl⟩, fun r h => by cases h; simp⟩
  | cons p ps ih =>
    intro files
    by_cases hg : GoodPattern env p
    · have hp : addPattern env none (str! "ERROR") p files = .ok (p :: files) := by
        unfold addPattern; simp [hg.1, hg.2.1, hg.2.2]
      rw [addPatterns, hp]
      obtain ⟨h1, h2⟩ := ih (p :: files)
      refine ⟨fun h => h1 (fun f hf => h f (by simp [hf])), fun r hr => ?_⟩
      obtain ⟨h3, h4⟩ := h2 r hr
      refine ⟨fun f hf => ?_, fun f => by rw [h4]; simp; tauto⟩
      rcases List.mem_cons.1 hf with rfl | hf
      · exact hg
      · exact h3 f hf
    · have hp : addPattern env none (str! "ERROR") p files = .error .valueError := by
        unfold addPattern GoodPattern at *
        by_cases h1 : env.readable p = true
        · by_cases h2 : getExtension p = str! "ll"
          · have h3 : env.verifies p = false := by
              cases h : env.verifies p
              · rfl
              · exact absurd ⟨h1, h2, h⟩ hg
            simp [h1, h2, h3, onParseFailure]
          · simp [h1, h2, onParseFailure]
        · simp [h1]
      rw [addPatterns, hp]
      exact ⟨fun h => absurd (h p (by simp)) hg, fun r hr => by cases hr⟩

theorem addPatterns_warn (env : PatEnv) : ∀ (ps files : List Str),
    ((∀ f ∈ ps, env.readable f = true) ↔ ∃ r, addPatterns env none (str! "WARN") ps files = .ok r) ∧
    ∀ r, addPatterns env none (str! "WARN") ps files = .ok r →
      ∀ f, f ∈ r ↔ (f ∈ ps ∧ getExtension f = str! "ll") ∨ f ∈ files := by
  intro ps
  induction ps with
  | nil => intro files; exact ⟨⟨fun _ => ⟨files, rfl⟩, by simp⟩, fun r h => by cases h; simp⟩
  | cons p ps ih =>
    intro files
    by_cases hr : env.readable p = true
    · have hp : addPattern env none (str! "WARN") p files =
          .ok (if getExtension p = str! "ll" then p :: files else files) := by
        unfold addPattern onParseFailure
        by_cases h2 : getExtension p = str! "ll" <;> simp [hr, h2]
      rw [addPatterns, hp]
      obtain ⟨h1, h2⟩ := ih (if getExtension p = str! "ll" then p :: files else files)
      refine ⟨?_, fun r hr' f => ?_⟩
      · rw [← h1]; simp [hr]
      · rw [h2 r hr' f]
        by_cases he : getExtension p = str! "ll"
        · rw [if_pos he]
          simp only [List.mem_cons]
          constructor
          · rintro (⟨a, b⟩ | rfl | c)
            · exact Or.inl ⟨Or.inr a, b⟩
            · exact Or.inl ⟨Or.inl rfl, he⟩
            · exact Or.inr c
          · rintro (⟨rfl | a, b⟩ | c)
            · exact Or.inr (Or.inl rfl)
            · exact Or.inl ⟨a, b⟩
            · exact Or.inr (Or.inr c)
        · rw [if_neg he]
          simp only [List.mem_cons]
          constructor
          · rintro (⟨a, b⟩ | c)
            · exact Or.inl ⟨Or.inr a, b⟩
            · exact Or.inr c
          · rintro (⟨rfl | a, b⟩ | c)
            · exact absurd b he
            · exact Or.inl ⟨a, b⟩
            · exact Or.inr c
    · have hp : addPattern env none (str! "WARN") p files = .error .valueError := by
        unfold addPattern; simp [hr]
      rw [addPatterns, hp]
      refine ⟨⟨fun h => absurd (h p (by simp)) hr, fun ⟨r, hr'⟩ => by cases hr'⟩, fun r hr' => by cases hr'⟩

theorem addPattern_located (env : PatEnv) (dir : Option Str) (policy p : Str) (files : List Str) :
    addPattern env dir policy p files = addPattern env none policy (located dir p) files := by
  cases dir with
  | none => rfl
  | some d =>
    have : ∀ x, located (some d) p = x → addPattern env (some d) policy p files = addPattern env none policy x files := by
      rintro x rfl
      cases d with
      | nil => simp [located, addPattern]
      | cons c d =>
        have h : pathJoin (c :: d) p = located (some (c :: d)) p := by
          simp only [located, pathJoin]
          by_cases h : p.head? = some '/'
          · simp [h]
          · simp only [h, if_false, reduceCtorEq, false_or]
        rw [← h]
        rfl
    exact this _ rfl

theorem addPatterns_located (env : PatEnv) (dir : Option Str) (policy : Str) : ∀ (ps files : List Str),
    addPatterns env dir policy ps files = addPatterns env none policy (ps.map (located dir)) files := by
  intro ps
  induction ps with
  | nil => intro files; rfl
  | cons p ps ih =>
    intro files
    rw [List.map_cons, addPatterns, addPatterns, addPattern_located]
    cases addPattern env none policy (located dir p) files with
    | error e => rfl
    | ok fs => exact ih fs

/-- **C29** (partial): with the error policy the statement holds; with the warning policy loading succeeds iff all files
are readable, and it keeps all listed LLVM files, which contain the good patterns. The configuration file has an extension
other than those of LLVM files. Missing: skipping of the patterns that the verifier rejects, unreadable patterns. -/
theorem C29_loading_partial (env : PatEnv) (dir : Option Str) (path : Str) (policy : Option Str) (ps : List Str)
    (hr : env.readable path = true) (he : getExtension path ∉ [[], str! "l", str! "ll"])
    (hy : env.yaml path = (policy, some ps)) :
    ((policy = none ∨ policy = some (str! "ERROR")) →
      (∀ files, createFromFile env dir path = .ok files →
        ∀ f, f ∈ files ↔ (∃ p ∈ ps, f = located dir p) ∧ GoodPattern env f) ∧
      ((∃ files, createFromFile env dir path = .ok files) ↔ ∀ p ∈ ps, GoodPattern env (located dir p))) ∧
    (policy = some (str! "WARN") →
      (∀ files, createFromFile env dir path = .ok files →
        ∀ f, f ∈ files ↔ (∃ p ∈ ps, f = located dir p) ∧ getExtension f = str! "ll") ∧
      ((∃ files, createFromFile env dir path = .ok files) ↔ ∀ p ∈ ps, env.readable (located dir p) = true)) ∧
    (policy ∉ [none, some (str! "ERROR"), some (str! "WARN")] → createFromFile env dir path = .error .valueError) := by
  have hc : createFromFile env dir path = loadPatternYaml env dir path := by
    unfold createFromFile; rw [if_neg (by simp [hr]), if_neg he]
  have hmem : ∀ f, f ∈ ps.map (located dir) ↔ ∃ p ∈ ps, f = located dir p := by
    intro f; simp only [List.mem_map]
    exact ⟨fun ⟨a, h1, h2⟩ => ⟨a, h1, h2.symm⟩, fun ⟨a, h1, h2⟩ => ⟨a, h1, h2.symm⟩⟩
  have hall : ∀ P : Str → Prop, (∀ f ∈ ps.map (located dir), P f) ↔ ∀ p ∈ ps, P (located dir p) := by
    intro P; simp
  rw [hc]
  refine ⟨fun hp => ?_, fun hp => ?_, fun hp => ?_⟩
  · have hload : loadPatternYaml env dir path = addPatterns env none (str! "ERROR") (ps.map (located dir)) [] := by
      rw [← addPatterns_located]
      unfold loadPatternYaml; rw [hy]
      rcases hp with rfl | rfl
      · rfl
      · simp
    rw [hload, ← hall]
    obtain ⟨h1, h2⟩ := addPatterns_error env (ps.map (located dir)) []
    refine ⟨fun files hf f => ?_, ⟨fun ⟨files, hf⟩ => (h2 files hf).1, h1⟩⟩
    rw [(h2 files hf).2, ← hmem]
    simp only [List.not_mem_nil, or_false]
    exact ⟨fun h => ⟨h, (h2 files hf).1 f h⟩, fun h => h.1⟩
  · subst hp
    have hload : loadPatternYaml env dir path = addPatterns env none (str! "WARN") (ps.map (located dir)) [] := by
      rw [← addPatterns_located]
      unfold loadPatternYaml; rw [hy]; simp
    rw [hload, ← hall (fun f => env.readable f = true)]
    obtain ⟨h1, h2⟩ := addPatterns_warn env (ps.map (located dir)) []
    refine ⟨fun files hf f => ?_, h1.symm⟩
    rw [h2 files hf, ← hmem]; simp
  · cases policy with
    | none => simp at hp
    | some q =>
      unfold loadPatternYaml
      rw [hy]
      simp only
      rw [if_neg]
      simpa using hp

example : createFromFile ⟨fun _ => true, fun f => f ≠ str! "b.ll", fun _ => (none, some [str! "a.ll", str! "d/c.LL"])⟩ none
    (str! "c.yaml") = .ok [str! "d/c.LL", str! "a.ll"] := by decide

example : createFromFile ⟨fun _ => true, fun f => f = str! "d/a.ll", fun _ => (none, some [str! "a.ll"])⟩ (some (str! "d"))
    (str! "c.yaml") = .ok [str! "d/a.ll"] := by decide

end DK
