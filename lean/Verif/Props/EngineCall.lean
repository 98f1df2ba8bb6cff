import Verif.Spec.EngineCall
import Verif.Props.SyntaxDiff

/-! C189: running the engine as a program does the same as calling it as a library. -/

set_option autoImplicit false

namespace DK
open Spec

private def optTok (x : Str) (o : Option Str) : List ClArg := (o.map (ClArg.opt x)).toList
private def oT (x : Str) (o : Option Str) : List (Str × Str) := (o.map fun v => (x, v)).toList

private theorem rec_opt {x : Str} (hx : x ∈ valueOpts) (he : '=' ∉ x) (o : Option Str) (rest : List Str) :
    recognise (optArg ('-' :: '-' :: x) o ++ rest) = (recognise rest).map (optTok x o ++ ·) := by
  cases o with
  | none => simp [optArg, optTok]
  | some v =>
    have hb : optBody ('-' :: '-' :: x) = some x := rfl
    simp only [optArg, List.cons_append, List.nil_append, optTok, Option.map_some, Option.toList]
    rw [recognise.eq_def]
    simp only [hb]
    rw [if_neg he, if_pos hx]

private theorem rec_flag {x : Str} (hx : x ∉ valueOpts) (he : '=' ∉ x) (b : Bool) (rest : List Str) :
    recognise (flagArg ('-' :: '-' :: x) b ++ rest) =
      (recognise rest).map (optTok x (if b then some (str! "true") else none) ++ ·) := by
  cases b with
  | false => simp [flagArg, optTok]
  | true =>
    have hb : optBody ('-' :: '-' :: x) = some x := rfl
    simp only [flagArg, if_true, List.cons_append, List.nil_append, optTok, Option.map_some, Option.toList]
    rw [recognise.eq_def]
    cases rest with
    | nil =>
      simp only [hb]
      rw [if_neg he, if_neg hx]
      rfl
    | cons b rest =>
      simp only [hb]
      rw [if_neg he, if_neg hx]

private theorem rec_pos {a : Str} (ha : NoOption a) (rest : List Str) :
    recognise (a :: rest) = (recognise rest).map (.pos a :: ·) := by
  have hb : optBody a = none := by
    cases a with
    | nil => rfl
    | cons c s =>
      have : c ≠ '-' := fun h => ha (by rw [h]; rfl)
      unfold optBody
      split <;> first | rfl | (rename_i h; cases h; exact absurd rfl this) | (rename_i h _; cases h; exact absurd rfl this)
  rw [recognise.eq_def]
  cases rest with
  | nil => simp only [hb]; rfl
  | cons b rest => simp only [hb]

/-- The text after `--fun`. -/
private def funText (q : Request) : Str :=
  if q.funFirst ≠ q.funSecond then q.funFirst ++ ',' :: q.funSecond else q.funFirst

private def flagTok (x : Str) (b : Bool) : List ClArg := optTok x (if b then some (str! "true") else none)

private def verbText (q : Request) : Option Str :=
  if q.verbosity > 0 then some (Nat.toDigits 10 q.verbosity) else none

private theorem recognise_command (q : Request) (h1 : NoOption q.first) (h2 : NoOption q.second) :
    recognise (command q) = some ([.pos q.first, .pos q.second] ++ (flagTok (str! "print-callstacks") true ++
      (optTok (str! "fun") (some (funText q)) ++ (optTok (str! "var") (ifGiven q.var) ++
      (optTok (str! "suffix") (if q.outputIR then ifGiven q.suffix else none) ++
      (optTok (str! "cache-dir") (ifGiven q.cacheDir) ++
      (optTok (str! "custom-pattern-config") q.custom ++
      (flagTok (str! "output-llvm-ir") q.outputIR ++
      (flagTok (str! "print-asm-diffs") q.asmDiffs ++
      (flagTok (str! "extended-stat") q.extended ++ optTok (str! "verbosity") (verbText q)))))))))) ) := by
  have hcmd : command q = q.first :: q.second :: (flagArg ('-' :: '-' :: str! "print-callstacks") true ++
      (optArg ('-' :: '-' :: str! "fun") (some (funText q)) ++
      (optArg ('-' :: '-' :: str! "var") (ifGiven q.var) ++
      (optArg ('-' :: '-' :: str! "suffix") (if q.outputIR then ifGiven q.suffix else none) ++
      (optArg ('-' :: '-' :: str! "cache-dir") (ifGiven q.cacheDir) ++
      (optArg ('-' :: '-' :: str! "custom-pattern-config") q.custom ++
      (flagArg ('-' :: '-' :: str! "output-llvm-ir") q.outputIR ++
      (flagArg ('-' :: '-' :: str! "print-asm-diffs") q.asmDiffs ++
      (flagArg ('-' :: '-' :: str! "extended-stat") q.extended ++
      (optArg ('-' :: '-' :: str! "verbosity") (verbText q) ++ [])))))))))) := by
    rw [List.append_nil]
    rfl
  rw [hcmd, rec_pos h1, rec_pos h2, rec_flag (by decide) (by decide), rec_opt (by decide) (by decide),
    rec_opt (by decide) (by decide), rec_opt (by decide) (by decide), rec_opt (by decide) (by decide),
    rec_opt (by decide) (by decide), rec_flag (by decide) (by decide), rec_flag (by decide) (by decide),
    rec_flag (by decide) (by decide), rec_opt (by decide) (by decide)]
  simp only [recognise, Option.map_some, List.append_nil]
  rfl

private theorem optsOf_append (a b : List ClArg) : optsOf (a ++ b) = optsOf a ++ optsOf b := List.filterMap_append
private theorem posOf_append (a b : List ClArg) : posOf (a ++ b) = posOf a ++ posOf b := List.filterMap_append
private theorem optsOf_tok (x : Str) (o : Option Str) : optsOf (optTok x o) = oT x o := by cases o <;> rfl
private theorem posOf_tok (x : Str) (o : Option Str) : posOf (optTok x o) = [] := by cases o <;> rfl
private theorem lookup_oT (n x : Str) (o : Option Str) : (oT x o).lookup n = if n = x then o else none := by
  cases o with
  | none => simp [oT]
  | some v =>
    by_cases h : n = x
    · subst h; simp [oT, List.lookup]
    · have : (n == x) = false := by simpa using h
      simp [oT, List.lookup, this, h]
private theorem names_oT (x : Str) (o : Option Str) : ((oT x o).map Prod.fst).Sublist [x] := by
  cases o <;> simp [oT]

/-- The options of the command. -/
private def cmdOpts (q : Request) : List (Str × Str) :=
  oT (str! "print-callstacks") (some (str! "true")) ++ (oT (str! "fun") (some (funText q)) ++ (oT (str! "var") (ifGiven q.var) ++
      (oT (str! "suffix") (if q.outputIR then ifGiven q.suffix else none) ++
      (oT (str! "cache-dir") (ifGiven q.cacheDir) ++
      (oT (str! "custom-pattern-config") q.custom ++
      (oT (str! "output-llvm-ir") (if q.outputIR then some (str! "true") else none) ++
      (oT (str! "print-asm-diffs") (if q.asmDiffs then some (str! "true") else none) ++
      (oT (str! "extended-stat") (if q.extended then some (str! "true") else none) ++ oT (str! "verbosity") (verbText q)))))))))

private theorem cmdOpts_names (q : Request) : ((cmdOpts q).map Prod.fst).Sublist
    [str! "print-callstacks", str! "fun", str! "var", str! "suffix", str! "cache-dir", str! "custom-pattern-config",
      str! "output-llvm-ir", str! "print-asm-diffs", str! "extended-stat", str! "verbosity"] := by
  unfold cmdOpts
  simp only [List.map_append]
  exact (names_oT _ _).append ((names_oT _ _).append ((names_oT _ _).append ((names_oT _ _).append ((names_oT _ _).append
    ((names_oT _ _).append ((names_oT _ _).append ((names_oT _ _).append ((names_oT _ _).append (names_oT _ _)))))))))

private theorem parse_fun (q : Request) (h : ',' ∉ q.funFirst) : parseFun (funText q) = (q.funFirst, q.funSecond) := by
  have h1 : ∀ (a b : Str), ',' ∉ a → (a ++ ',' :: b).takeWhile (· ≠ ',') = a ∧ (a ++ ',' :: b).dropWhile (· ≠ ',') = ',' :: b := by
    intro a b ha
    induction a with
    | nil => simp
    | cons c a ih =>
      rw [List.mem_cons, not_or] at ha
      obtain ⟨i1, i2⟩ := ih ha.2
      have hc : decide (c ≠ ',') = true := by simpa using fun h => ha.1 (Eq.symm h)
      simp only [List.cons_append, List.takeWhile_cons, List.dropWhile_cons, hc, if_true]
      exact ⟨by rw [i1], i2⟩
  by_cases he : q.funFirst = q.funSecond
  · have : funText q = q.funFirst := by unfold funText; rw [if_neg fun hne => hne he]
    rw [this, parseFun, if_neg h, ← he]
  · have : funText q = q.funFirst ++ ',' :: q.funSecond := by unfold funText; rw [if_pos he]
    rw [this, parseFun, if_pos (by simp), (h1 _ _ h).1, (h1 _ _ h).2]
    rfl

private theorem flag_lookup (b : Bool) : (match (if b then some (str! "true") else none : Option Str) with
    | none => some false
    | some v => clBool v) = some b := by
  cases b <;> decide

private theorem num_lookup (q : Request) : (match verbText q with
    | none => some 0
    | some v => if v ≠ [] ∧ v.all (fun c => c.isDigit) = true then some (digitsVal v) else none) = some q.verbosity := by
  unfold verbText
  by_cases h : q.verbosity > 0
  · rw [if_pos h]
    dsimp only
    rw [if_pos ⟨dec_ne_nil _, List.all_eq_true.2 fun c hc => dec_digit hc⟩]
    exact congrArg some (digitsVal_dec _)
  · rw [if_neg h]
    dsimp only
    congr 1
    omega

private theorem program_command (q : Request) (h1 : NoOption q.first) (h2 : NoOption q.second) (hc : ',' ∉ q.funFirst) :
    programCfg (command q) =
      (outFiles ((if q.outputIR then ifGiven q.suffix else none).getD []) q.first q.second).map fun out =>
        { libraryCfg q with written := if q.outputIR then some out else none } := by
  unfold programCfg
  rw [recognise_command q h1 h2]
  dsimp only
  have ho : optsOf ([.pos q.first, .pos q.second] ++ (flagTok (str! "print-callstacks") true ++
      (optTok (str! "fun") (some (funText q)) ++ (optTok (str! "var") (ifGiven q.var) ++
      (optTok (str! "suffix") (if q.outputIR then ifGiven q.suffix else none) ++
      (optTok (str! "cache-dir") (ifGiven q.cacheDir) ++
      (optTok (str! "custom-pattern-config") q.custom ++
      (flagTok (str! "output-llvm-ir") q.outputIR ++
      (flagTok (str! "print-asm-diffs") q.asmDiffs ++
      (flagTok (str! "extended-stat") q.extended ++ optTok (str! "verbosity") (verbText q)))))))))) ) = cmdOpts q := by
    simp only [flagTok, optsOf_append, optsOf_tok]
    rfl
  have hp : posOf ([.pos q.first, .pos q.second] ++ (flagTok (str! "print-callstacks") true ++
      (optTok (str! "fun") (some (funText q)) ++ (optTok (str! "var") (ifGiven q.var) ++
      (optTok (str! "suffix") (if q.outputIR then ifGiven q.suffix else none) ++
      (optTok (str! "cache-dir") (ifGiven q.cacheDir) ++
      (optTok (str! "custom-pattern-config") q.custom ++
      (flagTok (str! "output-llvm-ir") q.outputIR ++
      (flagTok (str! "print-asm-diffs") q.asmDiffs ++
      (flagTok (str! "extended-stat") q.extended ++ optTok (str! "verbosity") (verbText q)))))))))) ) = [q.first, q.second] := by
    simp only [flagTok, posOf_append, posOf_tok, List.append_nil]
    rfl
  rw [ho, hp]
  have hn := cmdOpts_names q
  have hall : ((cmdOpts q).map Prod.fst).all (fun n => decide (n ∈ valueOpts ++ flagOpts)) = true := by
    refine List.all_eq_true.2 fun n hn' => ?_
    have key : ∀ n ∈ [str! "print-callstacks", str! "fun", str! "var", str! "suffix", str! "cache-dir",
        str! "custom-pattern-config", str! "output-llvm-ir", str! "print-asm-diffs", str! "extended-stat", str! "verbosity"],
        decide (n ∈ valueOpts ++ flagOpts) = true := by decide
    exact key n (hn.subset hn')
  have hnd : ((cmdOpts q).map Prod.fst).Nodup := hn.nodup (by decide)
  rw [if_pos (by rw [hall, decide_eq_true hnd]; rfl)]
  have l1 : (cmdOpts q).lookup (str! "output-llvm-ir") = if q.outputIR then some (str! "true") else none := by
    simp [cmdOpts, List.lookup_append, lookup_oT]
  have l2 : (cmdOpts q).lookup (str! "print-asm-diffs") = if q.asmDiffs then some (str! "true") else none := by
    simp [cmdOpts, List.lookup_append, lookup_oT]
  have l3 : (cmdOpts q).lookup (str! "extended-stat") = if q.extended then some (str! "true") else none := by
    simp [cmdOpts, List.lookup_append, lookup_oT]
  have l4 : (cmdOpts q).lookup (str! "print-callstacks") = if true then some (str! "true") else none := by
    simp [cmdOpts, List.lookup_append, lookup_oT]
  have l5 : (cmdOpts q).lookup (str! "verbosity") = verbText q := by
    simp [cmdOpts, List.lookup_append, lookup_oT]
  have l6 : (cmdOpts q).lookup (str! "fun") = some (funText q) := by
    simp [cmdOpts, List.lookup_append, lookup_oT]
  have l7 : (cmdOpts q).lookup (str! "var") = ifGiven q.var := by
    simp [cmdOpts, List.lookup_append, lookup_oT]
  have l8 : (cmdOpts q).lookup (str! "suffix") = if q.outputIR then ifGiven q.suffix else none := by
    simp [cmdOpts, List.lookup_append, lookup_oT]
  have l9 : (cmdOpts q).lookup (str! "cache-dir") = ifGiven q.cacheDir := by
    simp [cmdOpts, List.lookup_append, lookup_oT]
  have l10 : (cmdOpts q).lookup (str! "custom-pattern-config") = q.custom := by
    simp [cmdOpts, List.lookup_append, lookup_oT]
  have f1 : flagVal (cmdOpts q) (str! "output-llvm-ir") = some q.outputIR := by
    unfold flagVal; rw [l1]; exact flag_lookup _
  have f2 : flagVal (cmdOpts q) (str! "print-asm-diffs") = some q.asmDiffs := by
    unfold flagVal; rw [l2]; exact flag_lookup _
  have f3 : flagVal (cmdOpts q) (str! "print-callstacks") = some true := by
    unfold flagVal; rw [l4]; exact flag_lookup true
  have f4 : flagVal (cmdOpts q) (str! "extended-stat") = some q.extended := by
    unfold flagVal; rw [l3]; exact flag_lookup _
  have f5 : numVal (cmdOpts q) (str! "verbosity") = some q.verbosity := by
    unfold numVal; rw [l5]; exact num_lookup q
  rw [f1, f2, f3, f4, f5]
  dsimp only
  simp only [optVal, l6, l7, l8, l9, l10, Option.getD_some, parse_fun q hc]
  cases outFiles ((if q.outputIR then ifGiven q.suffix else none).getD []) q.first q.second <;> rfl

private theorem splitLast_none {c : Char} {s : Str} (h : c ∉ s) : splitLast c s = none := by
  induction s with
  | nil => rfl
  | cons x s ih =>
    rw [List.mem_cons, not_or] at h
    rw [splitLast, ih h.2]
    exact if_neg fun he => h.1 he.symm

private theorem splitLast_at {c : Char} (a : Str) {b : Str} (h : c ∉ b) : splitLast c (a ++ c :: b) = some (a, c :: b) := by
  induction a with
  | nil => rw [List.nil_append, splitLast, splitLast_none h]; exact if_pos rfl
  | cons x a ih => rw [List.cons_append, splitLast, ih]

/-- The names with suffix of a proper file name. -/
private theorem suffix_eq {file dir stem ext : Str} (h : ExtFile file dir stem ext) (s : Str) :
    addSuffixC file s = some (dir ++ (stem ++ ('-' :: s ++ '.' :: ext))) ∧
      addSuffixPy file s = dir ++ (stem ++ ('-' :: s ++ '.' :: ext)) := by
  have hs : splitLast '.' file = some (dir ++ stem, '.' :: ext) := by
    rw [h.eq, ← List.append_assoc]
    exact splitLast_at _ h.extName.2
  constructor
  · rw [addSuffixC, hs]
    simp [List.append_assoc]
  · have hstem : lastPart (dir ++ stem) = stem := by
      unfold lastPart
      rcases h.dirEnd with rfl | ⟨d, rfl⟩
      · rw [List.nil_append, splitLast_none h.stemName.1]
      · rw [List.append_assoc, List.singleton_append, splitLast_at d h.stemName.1]
        rfl
    have hx : splitExt file = (dir ++ stem, '.' :: ext) := by
      unfold splitExt
      rw [hs]
      dsimp only
      rw [if_neg (by
        rw [List.mem_cons, not_or]
        exact ⟨by decide, h.extName.1⟩), hstem]
      rw [if_neg]
      intro hall
      obtain ⟨c, hc, hne⟩ := h.stemName.2
      have := List.all_eq_true.1 hall c hc
      exact hne (by simpa using this)
    rw [addSuffixPy, hx]
    simp [List.append_assoc]

/-- **C189** Run as a program, the engine works with the same files, functions and settings as when it is called as a
library, and writes the modules to the files that are read afterwards. -/
def C189_statement : Prop :=
  ∀ q : Request, PlainRequest q → NoOption q.first → NoOption q.second →
    programCfg (command q) = some (libraryCfg q) ∧
    ∀ c, programCfg (command q) = some c → c.written = if q.outputIR then some (readFiles q) else none

/-- A request for files in a directory with a dot in its name. -/
def dotRequest (file : Str) : Request :=
  { first := str! "old.d/" ++ file, second := str! "new.d/" ++ file, funFirst := str! "f", funSecond := str! "f", var := none
    suffix := some (str! "simpl"), cacheDir := some (str! "cache"), custom := none, outputIR := true, asmDiffs := false
    extended := true, verbosity := 12 }

/-- **C189 fails** for files without extension: the program takes the dot of the directory for that of the file. -/
theorem C189_fails : ¬ C189_statement := by
  intro h
  have := (h (dotRequest (str! "m")) ⟨⟨_, rfl, by decide⟩, by decide⟩ (by unfold NoOption; decide) (by unfold NoOption; decide)).1
  revert this
  decide +kernel

/-- **C189 fails** also in another way: without any dot, the program crashes. -/
theorem C189_fails_crash : ∃ q : Request, PlainRequest q ∧ NoOption q.first ∧ NoOption q.second ∧
    programCfg (command q) = none :=
  ⟨{ dotRequest [] with first := str! "m", second := str! "n" }, ⟨⟨_, rfl, by decide⟩, by decide⟩, by unfold NoOption; decide,
    by unfold NoOption; decide, by decide +kernel⟩

/-- **C189 (partial)** It holds for files with an extension, for all requests: same files, functions, variable, directory,
patterns, flags and verbosity. Missing: other file names, see `C189_fails` and `C189_fails_crash`. -/
theorem C189_same_partial (q : Request) (hq : PlainRequest q) (n1 : NoOption q.first) (n2 : NoOption q.second)
    (d1 s1 e1 d2 s2 e2 : Str) (f1 : ExtFile q.first d1 s1 e1) (f2 : ExtFile q.second d2 s2 e2) :
    programCfg (command q) = some (libraryCfg q) := by
  obtain ⟨⟨s, hs, hne⟩, hc⟩ := hq
  have ht : ifGiven q.suffix = some s := by
    rw [hs]
    cases s with
    | nil => exact absurd rfl hne
    | cons c s => rfl
  rw [program_command q n1 n2 hc, ht]
  cases ho : q.outputIR with
  | false => simp [outFiles, libraryCfg, ho]
  | true =>
    simp only [if_true, Option.getD_some, outFiles, if_neg hne, (suffix_eq f1 s).1, (suffix_eq f2 s).1, Option.map_some,
      libraryCfg, ho, readFiles, ht, (suffix_eq f1 s).2, (suffix_eq f2 s).2]

/-- **C189 (partial)** What the library works with is what was requested, and the files are named with the suffix before
the extension. Missing: as before. -/
theorem C189_request_partial (q : Request) (s : Str) (hs : q.suffix = some s) (hne : s ≠ [])
    (d1 s1 e1 d2 s2 e2 : Str) (f1 : ExtFile q.first d1 s1 e1) (f2 : ExtFile q.second d2 s2 e2) :
    (libraryCfg q).first = q.first ∧ (libraryCfg q).second = q.second ∧ (libraryCfg q).funFirst = q.funFirst ∧
    (libraryCfg q).funSecond = q.funSecond ∧ (libraryCfg q).var = q.var.getD [] ∧
    (libraryCfg q).cacheDir = q.cacheDir.getD [] ∧ (libraryCfg q).custom = q.custom.getD [] ∧
    (libraryCfg q).asmDiffs = q.asmDiffs ∧ (libraryCfg q).extended = q.extended ∧ (libraryCfg q).callStacks = true ∧
    (libraryCfg q).verbosity = q.verbosity ∧
    readFiles q = (d1 ++ (s1 ++ ('-' :: s ++ '.' :: e1)), d2 ++ (s2 ++ ('-' :: s ++ '.' :: e2))) ∧
    (libraryCfg q).written = if q.outputIR then some (readFiles q) else none := by
  have ht : ∀ o : Option Str, (ifGiven o).getD [] = o.getD [] := by
    intro o
    rcases o with _ | _ | _ <;> rfl
  refine ⟨rfl, rfl, rfl, rfl, ht _, ht _, rfl, rfl, rfl, rfl, rfl, ?_, rfl⟩
  have : ifGiven q.suffix = some s := by
    rw [hs]
    cases s with
    | nil => exact absurd rfl hne
    | cons c s => rfl
  simp only [readFiles, this, (suffix_eq f1 s).2, (suffix_eq f2 s).2]

/-- The name `m.v2.ll` in such a directory. -/
example : PlainRequest (dotRequest (str! "m.v2.ll")) ∧ ExtFile (dotRequest (str! "m.v2.ll")).first (str! "old.d/") (str! "m.v2") (str! "ll") ∧
    ExtFile (dotRequest (str! "m.v2.ll")).second (str! "new.d/") (str! "m.v2") (str! "ll") ∧
    readFiles (dotRequest (str! "m.v2.ll")) = (str! "old.d/m.v2-simpl.ll", str! "new.d/m.v2-simpl.ll") ∧
    (programCfg (command (dotRequest (str! "m.v2.ll")))).map EngineCfg.verbosity = some 12 :=
  ⟨⟨⟨_, rfl, by decide⟩, by decide⟩, ⟨by decide, .inr ⟨str! "old.d", rfl⟩, by decide, by decide⟩,
    ⟨by decide, .inr ⟨str! "new.d", rfl⟩, by decide, by decide⟩, by decide +kernel, by decide +kernel⟩

end DK
