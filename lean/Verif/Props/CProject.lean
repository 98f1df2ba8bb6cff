import Verif.Spec.CProject
import Verif.Lemmas.YamlOut
import Verif.Lemmas.Paths

/-! Properties C148–C151: settings of the compiler wrapper, log of `configure`, command that configures the project, and
lists of symbols. -/

set_option autoImplicit false

namespace DK
open Spec

/-! ### C148: settings of the compiler wrapper -/

/-- **C148** as stated: the wrapper that runs in the build works with the programs and options given on the command line,
and the build sees the other variables of the environment. -/
def C148_statement : Prop :=
  ∀ (a : BuildArgs) (db : Str) (osEnv : Dict Str Str) (app drp : List Str), (Dict.keys osEnv).Nodup →
    GivenOptions a.clangAppend app → GivenOptions a.clangDrop drp →
    (wrapperEnvOf (buildEnvironment a db osEnv)).db = some db ∧
    (wrapperEnvOf (buildEnvironment a db osEnv)).clang = some a.clang ∧
    (wrapperEnvOf (buildEnvironment a db osEnv)).llvmLink = some a.llvmLink ∧
    wrapperLists (wrapperEnvOf (buildEnvironment a db osEnv)) = some (app, drp) ∧
    ∀ k, ¬ (str! "DIFFKEMP_WRAPPER_") <+: k → (buildEnvironment a db osEnv).get? k = osEnv.get? k

/-- **C148 (violated)** An option with a comma becomes two options. -/
theorem C148_fails : ¬ C148_statement := by
  intro h
  have := (h ⟨str! "clang", some [str! "-Wa,-q"], some [str! "-O2"], str! "llvm-link"⟩ (str! "db") [] _ _ (by decide)
    (.inl rfl) (.inl rfl)).2.2.2.1
  revert this
  decide

/-- **C148 (violated)** Without options to append, clang gets an empty argument. -/
theorem C148_fails_none : ¬ C148_statement := by
  intro h
  have := (h ⟨str! "clang", none, none, str! "llvm-link"⟩ (str! "db") [] [] [] (by decide)
    (.inr ⟨rfl, rfl⟩) (.inr ⟨rfl, rfl⟩)).2.2.2.1
  revert this
  decide

/-- **C148 (violated)** Variables set in the environment of the tool have precedence over the command line. -/
theorem C148_fails_environment : ¬ C148_statement := by
  intro h
  have := (h ⟨str! "clang-15", some [str! "-O1"], some [str! "-O2"], str! "llvm-link"⟩ (str! "db")
    [(str! "DIFFKEMP_WRAPPER_CLANG", str! "clang")] _ _ (by decide) (.inl rfl) (.inl rfl)).2.1
  revert this
  decide

private theorem env_get {a : BuildArgs} {db : Str} {osEnv : Dict Str Str} (hn : (Dict.keys osEnv).Nodup) (k : Str) :
    (buildEnvironment a db osEnv).get? k = match osEnv.get? k with
      | some x => some x
      | none => Dict.get? [(envDb, db), (envClang, a.clang), (envAppend, joinOptions a.clangAppend),
          (envDrop, joinOptions a.clangDrop), (envLink, a.llvmLink)] k := by
  unfold buildEnvironment
  rw [get?_dictUpdate osEnv hn]
  cases osEnv.get? k <;> rfl

private theorem env_free {osEnv : Dict Str Str} (h : NotInEnvironment osEnv) {k : Str} (hk : (str! "DIFFKEMP_WRAPPER_") <+: k) :
    osEnv.get? k = none := by
  rw [Dict.get?_eq_none_iff]
  intro hm
  exact h k hm hk

private theorem not_key {k e : Str} (he : (str! "DIFFKEMP_WRAPPER_") <+: e) (hk : ¬ (str! "DIFFKEMP_WRAPPER_") <+: k) : ¬ e = k := by
  rintro rfl
  exact hk he

/-- **C148 (partial)** If options are given and have no commas and no variable of the wrapper is set before, the wrapper
works with what is given. Missing: see `C148_fails`, `C148_fails_none`, `C148_fails_environment`. -/
theorem C148_settings_partial (a : BuildArgs) (db : Str) (osEnv : Dict Str Str) {app drp : List Str}
    (hn : (Dict.keys osEnv).Nodup) (he : NotInEnvironment osEnv)
    (ha : a.clangAppend = some app) (hd : a.clangDrop = some drp) (ha' : app ≠ []) (hd' : drp ≠ [])
    (hac : ∀ o ∈ app, ',' ∉ o) (hdc : ∀ o ∈ drp, ',' ∉ o) :
    (wrapperEnvOf (buildEnvironment a db osEnv)).db = some db ∧
    (wrapperEnvOf (buildEnvironment a db osEnv)).clang = some a.clang ∧
    (wrapperEnvOf (buildEnvironment a db osEnv)).llvmLink = some a.llvmLink ∧
    wrapperLists (wrapperEnvOf (buildEnvironment a db osEnv)) = some (app, drp) ∧
    ∀ k, ¬ (str! "DIFFKEMP_WRAPPER_") <+: k → (buildEnvironment a db osEnv).get? k = osEnv.get? k := by
  have e1 : (buildEnvironment a db osEnv).get? envDb = some db := by
    rw [env_get hn, env_free he (by decide)]; rfl
  have e2 : (buildEnvironment a db osEnv).get? envClang = some a.clang := by
    rw [env_get hn, env_free he (by decide)]; rfl
  have e3 : (buildEnvironment a db osEnv).get? envAppend = some (joinChar ',' app) := by
    rw [env_get hn, env_free he (by decide), ha]; rfl
  have e4 : (buildEnvironment a db osEnv).get? envDrop = some (joinChar ',' drp) := by
    rw [env_get hn, env_free he (by decide), hd]; rfl
  have e5 : (buildEnvironment a db osEnv).get? envLink = some a.llvmLink := by
    rw [env_get hn, env_free he (by decide)]; rfl
  refine ⟨e1, e2, e5, ?_, ?_⟩
  · unfold wrapperLists wrapperEnvOf
    simp only [e3, e4]
    rw [splitChar_join ',' app ha' hac, splitChar_join ',' drp hd' hdc]
  · intro k hk
    rw [env_get hn]
    cases osEnv.get? k with
    | some x => rfl
    | none =>
      have f : ∀ e : Str, (str! "DIFFKEMP_WRAPPER_") <+: e → ¬ e = k := fun e h => not_key h hk
      simp only [Dict.get?]
      rw [if_neg (f envDb (by decide)), if_neg (f envClang (by decide)), if_neg (f envAppend (by decide)),
        if_neg (f envDrop (by decide)), if_neg (f envLink (by decide))]

/-- **C148 (partial)** Each compilation to LLVM IR in the build gets the appended options, behind those of the build. -/
theorem C148_calls_partial (a : BuildArgs) (db : Str) (osEnv : Dict Str Str) {app drp : List Str}
    (hn : (Dict.keys osEnv).Nodup) (he : NotInEnvironment osEnv)
    (ha : a.clangAppend = some app) (hd : a.clangDrop = some drp) (ha' : app ≠ []) (hd' : drp ≠ [])
    (hac : ∀ o ∈ app, ',' ∉ o) (hdc : ∀ o ∈ drp, ',' ∉ o) (run : Programs) (cwd : Str) (args : List Str) (files : Files)
    (hg : a.clang ≠ str! "gcc") (hlink : a.clang ≠ a.llvmLink) (argv : List Str) (status : Nat)
    (hc : (a.clang, argv, status) ∈ (wrapper (wrapperEnvOf (buildEnvironment a db osEnv)) run cwd args files).calls) :
    ∃ front, argv = a.clang :: front ++ app ++ [str! "-S", str! "-emit-llvm", str! "-g"] := by
  obtain ⟨e1, e2, e3, e4, -⟩ := C148_settings_partial a db osEnv hn he ha hd ha' hd' hac hdc
  generalize wrapperEnvOf (buildEnvironment a db osEnv) = w at *
  obtain ⟨d, c, ap, dr, l⟩ := w
  simp only at e1 e2 e3
  subst e1 e2 e3
  unfold wrapperLists at e4
  cases ap with
  | none => simp at e4
  | some ap =>
    cases dr with
    | none => simp at e4
    | some dr =>
      simp only [Option.some.injEq, Prod.mk.injEq] at e4
      have one : ∀ x : Nat, (a.clang, argv, status) ∈ [((str! "gcc"), (str! "gcc") :: args, x)] → False := by
        intro x hx
        rw [List.mem_singleton] at hx
        exact hg (congrArg (·.1) hx)
      unfold wrapper at hc
      simp only at hc
      split at hc
      · exact (one _ hc).elim
      · split at hc
        · exact (one _ hc).elim
        · split at hc
          · exact (one _ hc).elim
          · rename_i st cargv hp
            have hm : (a.clang, argv, status) ∈ [(str! "gcc", (str! "gcc") :: args, (run (str! "gcc") ((str! "gcc") :: args) cwd files).2)] ++
                [((phase1 (splitChar ',' dr) a.clang a.llvmLink ((str! "gcc") :: args)).clang, cargv,
                  (run (phase1 (splitChar ',' dr) a.clang a.llvmLink ((str! "gcc") :: args)).clang cargv cwd
                    (run (str! "gcc") ((str! "gcc") :: args) cwd files).1).2)] := by
              split at hc <;> exact hc
            rw [List.mem_append] at hm
            rcases hm with hm | hm
            · exact (one _ hm).elim
            · rw [List.mem_singleton] at hm
              have h1 : a.clang = (phase1 (splitChar ',' dr) a.clang a.llvmLink ((str! "gcc") :: args)).clang := congrArg (·.1) hm
              have h2 : argv = cargv := congrArg (·.2.1) hm
              subst h2
              unfold phase2 at hp
              split at hp
              · cases hp
              · rw [if_pos (by rw [← h1]; exact hlink)] at hp
                simp only [Option.some.injEq] at hp
                rename_i args' _
                refine ⟨args', ?_⟩
                rw [← hp, ← h1, e4.1]

/-- The usual settings. -/
example : wrapperLists (wrapperEnvOf (buildEnvironment ⟨str! "clang", some [str! "-O1", str! "-g0"], some [str! "-O2"],
    str! "llvm-link"⟩ (str! "/tmp/db") [(str! "PATH", str! "/bin")])) = some ([str! "-O1", str! "-g0"], [str! "-O2"]) :=
  (C148_settings_partial _ _ _ (by decide) (by intro k hk; revert k; decide) rfl rfl (by decide) (by decide) (by decide)
    (by decide)).2.2.2.1

/-! ### C149: the log of `configure` -/

/-- **C149** as stated: cleaning the project before the build changes neither `config.log` nor `config.log.bak`. -/
def C149_statement : Prop :=
  ∀ (clean : Option Str → Option Str) (s : ConfigLog), cleanProject clean s = s

/-- **C149 (violated)** An existing `config.log.bak` is lost. -/
theorem C149_fails : ¬ C149_statement := by
  intro h
  have := h id ⟨some (str! "new"), some (str! "old")⟩
  revert this
  decide

/-- **C149 (violated)** Without `config.log`, an existing `config.log.bak` is used instead of it. -/
theorem C149_fails_renamed : ¬ C149_statement := by
  intro h
  have := h id ⟨none, some (str! "old")⟩
  revert this
  decide

/-- **C149 (partial)** An existing `config.log` stays, whatever `make clean` does with it. Missing: see `C149_fails`,
`C149_fails_renamed`. -/
theorem C149_kept_partial (clean : Option Str → Option Str) (s : ConfigLog) {c : Str} (h : s.log = some c) :
    cleanProject clean s = ⟨some c, none⟩ := by
  unfold cleanProject ConfigLog.backup
  rw [h]
  rfl

/-- **C149 (partial)** If the tool is interrupted during the cleaning, the log is in one of the two files, and the next run
puts it back (if `make clean` does not create a log). -/
theorem C149_interrupted_partial (clean clean' : Option Str → Option Str) (s : ConfigLog) {c : Str} (h : s.log = some c)
    (hc : clean none = none) (hc' : clean' none = none) :
    ∀ t ∈ cleanStates clean s, (t.log = some c ∨ t.bak = some c) ∧ (cleanProject clean' t).log = some c := by
  intro t ht
  have hb : s.backup = ⟨none, some c⟩ := by unfold ConfigLog.backup; rw [h]
  unfold cleanStates at ht
  rw [hb] at ht
  simp only [List.mem_cons, List.not_mem_nil, or_false, hc] at ht
  rcases ht with rfl | rfl | rfl | rfl
  · exact ⟨.inl h, by rw [C149_kept_partial clean' t h]⟩
  · exact ⟨.inr rfl, by simp [cleanProject, ConfigLog.backup, ConfigLog.restore]⟩
  · exact ⟨.inr rfl, by simp [cleanProject, ConfigLog.backup, ConfigLog.restore]⟩
  · exact ⟨.inl rfl, by rw [C149_kept_partial clean' _ rfl]⟩

/-- `make clean` removes the log. -/
example : cleanProject (fun _ => none) ⟨some (str! "log"), none⟩ = ⟨some (str! "log"), none⟩ :=
  C149_kept_partial _ _ rfl

/-! ### C150: the command that configures the project -/

private theorem strip_line {cmd : Str} (h : Trimmed cmd) : strip (str! "  $ " ++ cmd ++ str! "\n") = str! "$ " ++ cmd := by
  obtain ⟨h1, -, h3⟩ := h
  unfold strip rstrip
  have e : (str! "  $ " ++ cmd ++ str! "\n").dropWhile pySpace = str! "$ " ++ cmd ++ str! "\n" := by
    simp [List.dropWhile, pySpace]
  rw [e, List.reverse_append, List.reverse_append]
  have e2 : (str! "\n").reverse = ['\n'] := rfl
  rw [e2, List.singleton_append, List.dropWhile_cons_of_pos (by decide)]
  have e3 : ∃ c cs, cmd.reverse = c :: cs ∧ pySpace c = false := by
    cases hr : cmd.reverse with
    | nil => exact absurd (List.reverse_eq_nil_iff.1 hr) h1
    | cons c cs =>
      refine ⟨c, cs, rfl, h3 c ?_⟩
      rw [← List.head?_reverse, hr]; rfl
  obtain ⟨c, cs, hr, hc⟩ := e3
  rw [hr, List.cons_append, List.dropWhile_cons_of_neg (by simp [hc]), ← List.cons_append, ← hr]
  simp

private theorem occursInC_iff {p s : Str} (hp : p ≠ []) : occursIn p s = true ↔ ∃ a b, s = a ++ p ++ b := by
  induction s with
  | nil =>
    rw [occursIn]
    unfold startsWith
    rw [List.isPrefixOf_iff_prefix]
    constructor
    · rintro ⟨r, hr⟩
      exact ⟨[], r, by simp [hr]⟩
    · rintro ⟨a, b, h⟩
      cases p with
      | nil => exact absurd rfl hp
      | cons x xs => simp at h
  | cons c cs ih =>
    rw [occursIn, Bool.or_eq_true, ih]
    unfold startsWith
    rw [List.isPrefixOf_iff_prefix]
    constructor
    · rintro (⟨r, hr⟩ | ⟨a, b, rfl⟩)
      · exact ⟨[], r, by simp [hr]⟩
      · exact ⟨c :: a, b, by simp⟩
    · rintro ⟨a, b, h⟩
      cases a with
      | nil => exact .inl ⟨b, by simpa using h.symm⟩
      | cons x a =>
        simp only [List.cons_append, List.cons.injEq] at h
        exact .inr ⟨a, b, by simp [h.2]⟩

private theorem configureLog_find {lines : List Str} {cmd : Str} (h : ConfigureLog lines cmd) :
    lines.find? (fun l => decide ('$' ∈ l)) = some (str! "  $ " ++ cmd ++ str! "\n") := by
  obtain ⟨header, rest, hh, rfl⟩ := h
  rw [List.find?_append, List.find?_eq_none.2 (by intro l hl; simpa using hh l hl), Option.none_or,
    List.find?_cons_of_pos (by simp)]

/-- **C150** The project is configured again with the command that the log shows and with the wrapper as the compiler,
exactly if the command does not contain this setting yet. -/
theorem C150_command {lines : List Str} {cmd : Str} (wrapperPath : Str) (h : ConfigureLog lines cmd) (ht : Trimmed cmd) :
    ((∃ a b, str! "$ " ++ cmd = a ++ (str! "CC=\"" ++ wrapperPath ++ str! "\"") ++ b) ∧
      configureCommand (str! "CC=\"" ++ wrapperPath ++ str! "\"") lines = .ok none) ∨
    ((¬ ∃ a b, str! "$ " ++ cmd = a ++ (str! "CC=\"" ++ wrapperPath ++ str! "\"") ++ b) ∧
      configureCommand (str! "CC=\"" ++ wrapperPath ++ str! "\"") lines =
        .ok (some (cmd ++ str! " " ++ (str! "CC=\"" ++ wrapperPath ++ str! "\"")))) := by
  have hne : str! "CC=\"" ++ wrapperPath ++ str! "\"" ≠ [] := by simp
  generalize str! "CC=\"" ++ wrapperPath ++ str! "\"" = setting at hne ⊢
  unfold configureCommand
  rw [configureLog_find h]
  dsimp only
  unfold commandOfLine
  rw [strip_line ht]
  by_cases ho : ∃ a b, str! "$ " ++ cmd = a ++ setting ++ b
  · left
    exact ⟨ho, by rw [if_pos (.inr ((occursInC_iff hne).2 ho))]⟩
  · right
    refine ⟨ho, ?_⟩
    rw [if_neg]
    · have e : afterPrompt (str! "$ " ++ cmd) = .ok cmd := rfl
      rw [e]
      simp [Except.map]
    · rintro (hh | hh)
      · simp at hh
      · exact ho ((occursInC_iff hne).1 hh)

/-- A log of `configure`. -/
example : configureCommand (str! "CC=\"cc\"") [str! "It was created by x configure\n", str! "\n",
    str! "  $ ./configure --prefix=/usr\n", str! "uname -m = x\n"] = .ok (some (str! "./configure --prefix=/usr CC=\"cc\"")) := by
  decide

/-- It is a log as assumed. -/
example : ConfigureLog [str! "It was created by x configure\n", str! "\n",
    str! "  $ ./configure --prefix=/usr\n", str! "uname -m = x\n"] (str! "./configure --prefix=/usr") ∧
    Trimmed (str! "./configure --prefix=/usr") :=
  ⟨⟨[str! "It was created by x configure\n", str! "\n"], [str! "uname -m = x\n"], by decide, rfl⟩,
    by decide, by decide, by decide⟩

/-- Without a space behind the first dollar, the build ends with an exception. -/
theorem C150_exception : configureCommand (str! "CC=\"cc\"") [str! "It was created by US$ configure\n",
      str! "  $ ./configure\n"] = .ok (some (str! "configure CC=\"cc\"")) ∧
    configureCommand (str! "CC=\"cc\"") [str! "It was created by $x configure\n", str! "  $ ./configure\n"] = .error .indexError := by
  decide

/-! ### C151: lists of symbols -/

/-- **C151** as stated: reading the list of functions written for a project gives all its functions. -/
def C151_statement : Prop := ∀ names : List Str, (∀ n ∈ names, n ≠ [] ∧ ∀ c ∈ n, pySpace c = false) →
  readSymbols (functionListLines names) = names

/-- **C151 (violated)** Functions with other names, such as those that clang creates for OpenMP, are left out. -/
theorem C151_fails : ¬ C151_statement := by
  intro h
  have := h [str! "main", str! ".omp_outlined."] (by decide)
  revert this
  decide

private theorem strip_name {n : Str} (h : ∀ c ∈ n, pySpace c = false) : strip (n ++ ['\n']) = n := by
  unfold strip rstrip
  cases n with
  | nil => decide
  | cons c cs =>
    have e : (c :: cs ++ ['\n']).dropWhile pySpace = c :: cs ++ ['\n'] := by
      rw [List.cons_append, List.dropWhile_cons_of_neg (by simp [h c (by simp)])]
    rw [e, List.reverse_append, List.reverse_singleton, List.singleton_append, List.dropWhile_cons_of_pos (by decide)]
    cases hr : (c :: cs).reverse with
    | nil => simp at hr
    | cons d ds =>
      have hd : d ∈ c :: cs := by rw [← List.mem_reverse, hr]; simp
      rw [List.dropWhile_cons_of_neg (by simp [h d hd]), ← hr, List.reverse_reverse]

private theorem symbolOfLine_name {n : Str} (h : Identifier n) : symbolOfLine (n ++ ['\n']) = some n := by
  obtain ⟨⟨c, cs, rfl, hc⟩, hs⟩ := h
  unfold symbolOfLine
  rw [strip_name hs]
  dsimp only
  rw [if_pos (by simpa using hc)]

/-- **C151 (partial)** Functions with names of C are all read, in the same order. Missing: see `C151_fails`. -/
theorem C151_names_partial {names : List Str} (h : ∀ n ∈ names, Identifier n) : readSymbols (functionListLines names) = names := by
  unfold readSymbols functionListLines
  induction names with
  | nil => rfl
  | cons n ns ih =>
    rw [List.map_cons, List.filterMap_cons, symbolOfLine_name (h n (by simp)), ih (fun m hm => h m (by simp [hm]))]

/-- **C151 (partial)** The symbols read are the lines without surrounding white space that start with a letter or an
underscore; all other lines (comments, empty lines) are left out. -/
theorem C151_read_partial (lines : List Str) (n : Str) :
    n ∈ readSymbols lines ↔ ∃ l ∈ lines, strip l = n ∧ ∃ c cs, n = c :: cs ∧ (c.isAlpha = true ∨ c = '_') := by
  unfold readSymbols
  rw [List.mem_filterMap]
  apply exists_congr
  intro l
  apply and_congr_right
  intro _
  unfold symbolOfLine
  cases hs : strip l with
  | nil =>
    constructor
    · intro h; cases h
    · rintro ⟨rfl, c, cs, h, _⟩; cases h
  | cons c cs =>
    dsimp only
    by_cases hc : c.isAlpha = true ∨ c = '_'
    · rw [if_pos (by simpa using hc)]
      constructor
      · intro h
        simp only [Option.some.injEq] at h
        exact ⟨h, c, cs, h.symm, hc⟩
      · rintro ⟨rfl, _⟩; rfl
    · rw [if_neg (by simpa using hc)]
      constructor
      · intro h; cases h
      · rintro ⟨rfl, c', cs', h, hc'⟩
        simp only [List.cons.injEq] at h
        rw [← h.1] at hc'
        exact absurd hc' hc

/-- A list with a comment. -/
example : readSymbols [str! "# functions\n", str! "\n", str! "  main \n", str! "_f\n"] = [str! "main", str! "_f"] := by
  decide

end DK
