import Verif.Spec.OptCommand

/-! C190: the optimiser runs the requested passes in order, with the same result for all versions of LLVM. -/

set_option autoImplicit false

namespace DK
open Spec

private theorem parse_unit (u v rest : Str) (h : '(' ∉ u) :
    parsePipe (u ++ '(' :: rest) (.unit v) = parsePipe rest (.name (v ++ u) []) := by
  induction u generalizing v with
  | nil => rw [List.nil_append, parsePipe, if_pos rfl, List.append_nil]
  | cons c u ih =>
    rw [List.mem_cons, not_or] at h
    rw [List.cons_append, parsePipe, if_neg fun he => h.1 he.symm, ih _ h.2]
    simp

private theorem parse_name (u n v rest : Str) (h : ')' ∉ n) :
    parsePipe (n ++ ')' :: rest) (.name u v) = (parsePipe rest .after).map ((v ++ n, u) :: ·) := by
  induction n generalizing v with
  | nil => rw [List.nil_append, parsePipe, if_pos rfl, List.append_nil]
  | cons c n ih =>
    rw [List.mem_cons, not_or] at h
    rw [List.cons_append, parsePipe, if_neg fun he => h.1 he.symm, ih _ h.2]
    simp

private theorem passName_no {n : Str} (h : PassName n) : '(' ∉ n ∧ ')' ∉ n := by
  constructor <;> intro hm <;> rcases h _ hm with h | h <;> revert h <;> decide

private theorem parse_pipeline (ps : List (Str × Str)) (hne : ps ≠ []) (h : ∀ p ∈ ps, PassName p.1 ∧ PassName p.2) :
    parsePipe (pipelineText ps) (.unit []) = some ps := by
  induction ps with
  | nil => exact absurd rfl hne
  | cons p ps ih =>
    have hp := h p List.mem_cons_self
    have h1 := (passName_no hp.1).2
    have h2 := (passName_no hp.2).1
    cases ps with
    | nil =>
      rw [pipelineText, List.append_assoc, List.cons_append, parse_unit _ _ _ h2, parse_name _ _ _ _ h1]
      rfl
    | cons q ps =>
      have : pipelineText (p :: q :: ps) = p.2 ++ '(' :: (p.1 ++ ')' :: (',' :: pipelineText (q :: ps))) := by
        simp [pipelineText]
      rw [this, parse_unit _ _ _ h2, parse_name _ _ _ _ h1, parsePipe, if_pos rfl,
        ih (by simp) fun x hx => h x (List.mem_cons_of_mem _ hx)]
      rfl

private theorem read_end (version : Nat) (unitOf : Str → Str) (overwrite : Bool) (file : Str) (r : OptRun) :
    readOpt version unitOf (if overwrite then [str! "-S", str! "-o", file] else []) r =
      some (if overwrite then { r with text := true, output := some file } else r) := by
  cases overwrite <;> rfl

private theorem read_passes (version : Nat) (unitOf : Str → Str) (hv : ¬ version ≥ 16) (ps : List (Str × Str))
    (h : ∀ p ∈ ps, p.1 ≠ str! "S" ∧ p.1 ≠ str! "o" ∧ unitOf p.1 = p.2) (rest : List Str) (r : OptRun) :
    readOpt version unitOf (ps.map (fun p => '-' :: p.1) ++ rest) r =
      readOpt version unitOf rest { r with passes := r.passes ++ ps } := by
  induction ps generalizing r with
  | nil => simp
  | cons p ps ih =>
    obtain ⟨h1, h2, h3⟩ := h p List.mem_cons_self
    rw [List.map_cons, List.cons_append, readOpt.eq_def]
    dsimp only
    rw [if_pos (List.head?_cons), List.tail_cons, if_neg h1, if_neg h2, if_neg hv, ih fun x hx => h x (List.mem_cons_of_mem _ hx), h3]
    simp

/-- **C190** Whatever the version of LLVM, the optimiser reads the file, runs exactly the requested passes on their units in
the requested order, and replaces the file by the text of the result exactly if this is asked for. -/
theorem C190_passes (version : Nat) (unitOf : Str → Str) (passes : List (Str × Str)) (file : Str) (overwrite : Bool)
    (hne : passes ≠ []) (hf : file.head? ≠ some '-') (hn : ∀ p ∈ passes, PassName p.1 ∧ PassName p.2)
    (hu : ∀ p ∈ passes, unitOf p.1 = p.2) (ho : ∀ p ∈ passes, p.1 ≠ str! "S" ∧ p.1 ≠ str! "o") :
    readOpt version unitOf (optCommand version passes file overwrite) ⟨none, [], none, false⟩ =
      some ⟨some file, passes, if overwrite then some file else none, overwrite⟩ := by
  have hfile : ∀ rest, readOpt version unitOf (file :: rest) ⟨none, [], none, false⟩ =
      readOpt version unitOf rest ⟨some file, [], none, false⟩ := by
    intro rest
    rw [readOpt.eq_def]
    dsimp only
    rw [if_neg hf, if_pos rfl]
  unfold optCommand
  rw [List.singleton_append, List.cons_append, hfile]
  by_cases hv : version ≥ 16
  · rw [if_pos hv, List.singleton_append, readOpt.eq_def]
    have e : str! "-passes=" ++ pipelineText passes = '-' :: (str! "passes=" ++ pipelineText passes) := rfl
    simp only [e]
    rw [if_pos (List.head?_cons), List.tail_cons, if_neg (by simp), if_neg (by simp), if_pos hv, if_pos (by
      rw [List.isPrefixOf_iff_prefix]; exact List.prefix_append _ _)]
    have e2 : (str! "passes=" ++ pipelineText passes).drop 7 = pipelineText passes := rfl
    rw [e2, parse_pipeline _ hne hn]
    dsimp only
    rw [read_end]
    cases overwrite <;> rfl
  · rw [if_neg hv, read_passes version unitOf hv passes fun p hp => ⟨(ho p hp).1, (ho p hp).2, hu p hp⟩, read_end]
    cases overwrite <;> rfl

private theorem runOld_eq {F : Type} (fsem : Str → F → F) (msem : Str → List F → List F) (ps : List (Str × Str))
    (pending : List Str) (m : List F) :
    runOld fsem msem ps pending m = runNew fsem msem ps (m.map (onFunction fsem pending)) := by
  induction ps generalizing pending m with
  | nil => rfl
  | cons p ps ih =>
    rw [runOld, runNew]
    by_cases h : p.2 = str! "module"
    · rw [if_pos h, if_pos h, ih]
      congr 1
      have : onFunction fsem [] = id := rfl
      rw [this, List.map_id]
    · rw [if_neg h, if_neg h, ih, List.map_map]
      congr 2
      funext f
      simp [onFunction, List.foldl_append]

private theorem optResult_eq {F : Type} (fsem : Str → F → F) (msem : Str → List F → List F) (version : Nat)
    (passes : List (Str × Str)) (m : List F) : optResult fsem msem version passes m = runNew fsem msem passes m := by
  unfold optResult
  split
  · rfl
  · rw [runOld_eq]
    have : onFunction fsem [] = id := rfl
    rw [this, List.map_id]

/-- **C190** The optimised module does not depend on the version: the commands for two versions replace the file by the
same module, although one version runs the passes one after the other on all functions and the other one runs them
together on one function after the other. This is for passes of functions that only look at their function. -/
theorem C190_result {F : Type} (fsem : Str → F → F) (msem : Str → List F → List F) (version version' : Nat)
    (unitOf : Str → Str) (passes : List (Str × Str)) (file : Str) (m : List F)
    (hne : passes ≠ []) (hf : file.head? ≠ some '-') (hn : ∀ p ∈ passes, PassName p.1 ∧ PassName p.2)
    (hu : ∀ p ∈ passes, unitOf p.1 = p.2) (ho : ∀ p ∈ passes, p.1 ≠ str! "S" ∧ p.1 ≠ str! "o") :
    ∃ r r', readOpt version unitOf (optCommand version passes file true) ⟨none, [], none, false⟩ = some r ∧
      readOpt version' unitOf (optCommand version' passes file true) ⟨none, [], none, false⟩ = some r' ∧
      r.input = some file ∧ r'.input = some file ∧ r.output = some file ∧ r'.output = some file ∧
      optResult fsem msem version r.passes m = optResult fsem msem version' r'.passes m :=
  ⟨_, _, C190_passes version unitOf passes file true hne hf hn hu ho,
    C190_passes version' unitOf passes file true hne hf hn hu ho, rfl, rfl, rfl, rfl, by
      rw [optResult_eq, optResult_eq]⟩

/-- The passes for kernel modules, with versions 15 and 16. -/
example : (∀ p ∈ kernelPasses, PassName p.1 ∧ PassName p.2) ∧ kernelPasses ≠ [] ∧
    (∀ p ∈ kernelPasses, p.1 ≠ str! "S" ∧ p.1 ≠ str! "o") ∧
    (∀ p ∈ kernelPasses, (if p.1 = str! "constmerge" then str! "module" else str! "function") = p.2) ∧
    optCommand 16 [(str! "gvn", str! "function"), (str! "constmerge", str! "module")] (str! "a.ll") true =
      [str! "a.ll", str! "-passes=function(gvn),module(constmerge)", str! "-S", str! "-o", str! "a.ll"] ∧
    optCommand 15 [(str! "gvn", str! "function"), (str! "constmerge", str! "module")] (str! "a.ll") true =
      [str! "a.ll", str! "-gvn", str! "-constmerge", str! "-S", str! "-o", str! "a.ll"] := by
  refine ⟨?_, by decide, by decide, by decide, by decide, by decide⟩
  unfold PassName
  decide

end DK
