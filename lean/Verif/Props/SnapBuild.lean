import Verif.Spec.SnapBuild
import Verif.Lemmas.Dict
import Verif.Props.Text

/-! Properties of snapshots whose creation may stop: C161, C162, C163. -/

set_option autoImplicit false

namespace DK
open Spec

/-! ### C161 -/

/-- The statement of C161: whenever the command stops, a directory that can be loaded is the whole old snapshot or the whole
new one. -/
def C161_statement : Prop :=
  ∀ (parse : Str → Option (List Str)) (b : SnapRun) (old : OutDir) (oldFiles files : List (Str × Str)) (yaml : Str),
    ConsistentContent parse b → Succeeds b files yaml → WholeSnapshot parse oldFiles old →
    ∀ s ∈ snapStates b old, NoSnapshot parse s ∨ WholeSnapshot parse oldFiles s ∨ WholeSnapshot parse files s

/-- A reader of descriptions: lines of names with a last line. -/
def parseLines (t : Str) : Option (List Str) :=
  if t.getLast? = some '!' then some (splitChar '\n' t).dropLast else none

/-- A run that creates a snapshot with one file. -/
def oneFileRun : SnapRun :=
  ⟨[str! "a.ll", str! "snapshot.yaml"], some [str! "f\n"], true,
    fun _ => some ([(str! "b.ll", str! "define f")], str! "b.ll\n!")⟩

/-- The old snapshot. -/
def oldSnapshot : Dict Str Str := [(str! "a.ll", str! "define g"), (str! "snapshot.yaml", str! "a.ll\n!")]

theorem oneFileRun_consistent : ConsistentContent parseLines oneFileRun := by
  intro syms files yaml h
  cases h
  refine ⟨by decide, by decide, ?_, ?_⟩
  · intro ms h
    cases h
    decide
  · intro n
    by_cases hn : n < 6
    · revert n; decide
    · rw [List.take_of_length_le (by simp; omega)]
      exact .inr rfl

theorem oneFileRun_succeeds : Succeeds oneFileRun [(str! "b.ll", str! "define f")] (str! "b.ll\n!") :=
  ⟨[str! "f\n"], rfl, fun _ => by decide, rfl⟩

theorem oldSnapshot_whole : WholeSnapshot parseLines [(str! "a.ll", str! "define g")] (some oldSnapshot) := by
  refine ⟨[str! "a.ll"], oldSnapshot, by decide, rfl, ?_⟩
  intro m hm
  rw [List.mem_singleton] at hm
  subst hm
  exact ⟨str! "define g", by decide, by decide⟩

/-- The code does not satisfy C161: while an existing snapshot is deleted, it can be loaded although files are missing. -/
theorem C161_fails : ¬ C161_statement := by
  intro h
  have := h parseLines oneFileRun (some oldSnapshot) _ _ _ oneFileRun_consistent oneFileRun_succeeds oldSnapshot_whole
    (some [(str! "snapshot.yaml", str! "a.ll\n!")]) (by decide)
  rcases this with h | ⟨ms, dir, h1, h2, h3⟩ | ⟨ms, dir, h1, h2, h3⟩
  · exact absurd h (by unfold NoSnapshot; decide)
  all_goals
    cases h1
    cases h2
    obtain ⟨c, hc, _⟩ := h3 (str! "a.ll") (by decide)
    exact absurd hc (by rw [show Dict.get? [(str! "snapshot.yaml", str! "a.ll\n!")] (str! "a.ll") = none by decide]; exact fun h => nomatch h)

theorem removeStates_sub (rm : List Str) : ∀ (d : Dict Str Str), ∀ s ∈ removeStates rm d, ∀ k, Dict.get? d k = none → Dict.get? s k = none := by
  induction rm with
  | nil => intro d s hs k hk; rw [removeStates, List.mem_singleton] at hs; rw [hs]; exact hk
  | cons f fs ih =>
    intro d s hs k hk
    rw [removeStates, List.mem_cons] at hs
    rcases hs with rfl | hs
    · exact hk
    · refine ih _ s hs k ?_
      rw [Dict.get?_eq_none_iff] at hk ⊢
      intro hm
      obtain ⟨p, hp, rfl⟩ := List.mem_map.1 hm
      exact hk (List.mem_map.2 ⟨p, (List.mem_filter.1 hp).1, rfl⟩)

theorem copied_cons (f : Str × Str) (fs : List (Str × Str)) (d : Dict Str Str) : copied (f :: fs) d = copied fs (d.set f.1 f.2) := rfl

theorem copied_other {files : List (Str × Str)} {k : Str} (h : k ∉ files.map Prod.fst) :
    ∀ d : Dict Str Str, Dict.get? (copied files d) k = Dict.get? d k := by
  induction files with
  | nil => intro d; rfl
  | cons f fs ih =>
    intro d
    rw [List.map_cons, List.mem_cons, not_or] at h
    rw [copied_cons, ih h.2, Dict.get?_set_ne _ _ h.1]

theorem copied_get {files : List (Str × Str)} (hn : (files.map Prod.fst).Nodup) {f : Str × Str} (hf : f ∈ files) :
    ∀ d : Dict Str Str, Dict.get? (copied files d) f.1 = some f.2 := by
  induction files with
  | nil => exact absurd hf List.not_mem_nil
  | cons g fs ih =>
    intro d
    rw [List.map_cons, List.nodup_cons] at hn
    rw [copied_cons]
    rcases List.mem_cons.1 hf with rfl | hf
    · rw [copied_other hn.1, Dict.get?_set_self]
    · exact ih hn.2 hf _

theorem fileStates_get {name text : Str} {d s : Dict Str Str} (h : s ∈ fileStates name text d) :
    ∃ n, s = d.set name (text.take n) := by
  obtain ⟨n, _, rfl⟩ := List.mem_map.1 h
  exact ⟨n, rfl⟩

theorem copyStates_other {files : List (Str × Str)} {k : Str} (h : ∀ f ∈ files, f.1 ≠ k) :
    ∀ (d : Dict Str Str), ∀ s ∈ copyStates files d, Dict.get? s k = Dict.get? d k := by
  induction files with
  | nil => intro d s hs; rw [copyStates, List.mem_singleton] at hs; rw [hs]
  | cons f fs ih =>
    intro d s hs
    have hk : k ≠ f.1 := (h f List.mem_cons_self).symm
    rw [copyStates, List.cons_append, List.mem_cons, List.mem_append] at hs
    rcases hs with rfl | hs | hs
    · rfl
    · obtain ⟨n, rfl⟩ := fileStates_get hs
      exact Dict.get?_set_ne _ _ hk
    · rw [ih (fun g hg => h g (List.mem_cons_of_mem _ hg)) _ s hs, Dict.get?_set_ne _ _ hk]

theorem loadOut_none_of {parse : Str → Option (List Str)} {d : Dict Str Str} (h : Dict.get? d snapYamlName = none) :
    loadOut parse (some d) = none := by
  unfold loadOut
  rw [Option.bind_some, h]; rfl

/-- Every state of the writing is no snapshot or the whole one. -/
theorem writeStates_whole {parse : Str → Option (List Str)} {files : List (Str × Str)} {yaml : Str}
    (hn : (files.map Prod.fst).Nodup) (hy : ∀ f ∈ files, f.1 ≠ str! "snapshot.yaml")
    (hl : ∀ ms, parse yaml = some ms → ∀ m ∈ ms, m ∈ files.map Prod.fst)
    (ht : ∀ n, parse (yaml.take n) = none ∨ parse (yaml.take n) = parse yaml) :
    ∀ s ∈ writeStates files yaml, NoSnapshot parse s ∨ WholeSnapshot parse files s := by
  intro s hs
  obtain ⟨d, hd, rfl⟩ := List.mem_map.1 hs
  rcases List.mem_append.1 hd with hd | hd
  · exact .inl (loadOut_none_of ((copyStates_other hy [] d hd).trans rfl))
  · obtain ⟨n, rfl⟩ := fileStates_get hd
    have hload : loadOut parse (some ((copied files []).set snapYamlName (yaml.take n))) = parse (yaml.take n) := by
      unfold loadOut
      rw [Option.bind_some, Dict.get?_set_self, Option.bind_some]
    cases hp : parse (yaml.take n) with
    | none => exact .inl (hload.trans hp)
    | some ms =>
      refine .inr ⟨ms, _, hload.trans hp, rfl, fun m hm => ?_⟩
      have hm' : m ∈ files.map Prod.fst := by
        refine hl ms ?_ m hm
        rcases ht n with h | h
        · rw [hp] at h; exact nomatch h
        · rw [← h]; exact hp
      obtain ⟨f, hf, rfl⟩ := List.mem_map.1 hm'
      refine ⟨f.2, ?_, hf⟩
      exact (Dict.get?_set_ne _ _ (hy f hf)).trans (copied_get hn hf [])

/-- **C161 (partial)** Whenever the command stops, successfully or not, a directory that can be loaded is a whole new
snapshot, if the directory did not exist or contained no description before. Missing: existing snapshots, which can be loaded
while their files are deleted (`C161_fails`). -/
theorem C161_new_partial (parse : Str → Option (List Str)) (b : SnapRun) (old : OutDir) (hc : ConsistentContent parse b)
    (hold : ∀ d, old = some d → Dict.get? d (str! "snapshot.yaml") = none) :
    ∀ s ∈ snapStates b old, NoSnapshot parse s ∨ ∃ syms files yaml, b.content syms = some (files, yaml) ∧
      WholeSnapshot parse files s := by
  intro s hs
  rcases List.mem_append.1 hs with hs | hs
  · left
    have hempty : ∀ s ∈ [none, some ([] : Dict Str Str)], NoSnapshot parse s := by
      intro s hs
      rcases List.mem_cons.1 hs with rfl | hs
      · rfl
      · rw [List.mem_singleton] at hs; rw [hs]; rfl
    unfold prepareStates at hs
    cases old with
    | none => exact hempty s hs
    | some d =>
      rcases List.mem_append.1 hs with hs | hs
      · obtain ⟨d', hd', rfl⟩ := List.mem_map.1 hs
        exact loadOut_none_of (removeStates_sub _ _ d' hd' _ (hold d rfl))
      · exact hempty s hs
  · unfold listStates at hs
    cases hls : b.lines with
    | none => rw [hls] at hs; exact absurd hs List.not_mem_nil
    | some ls =>
      rw [hls] at hs
      dsimp only at hs
      unfold symbolStates at hs
      split at hs
      · exact absurd hs List.not_mem_nil
      · split at hs
        · exact absurd hs List.not_mem_nil
        · next files yaml hcont =>
          obtain ⟨h1, h2, h3, h4⟩ := hc _ _ _ hcont
          rcases writeStates_whole h1 h2 h3 h4 s hs with h | h
          · exact .inl h
          · exact .inr ⟨_, _, _, hcont, h⟩

/-- A run into a new directory, with states that cannot be loaded and one that can. -/
example : (∀ s ∈ snapStates oneFileRun none, NoSnapshot parseLines s ∨ ∃ syms files yaml,
      oneFileRun.content syms = some (files, yaml) ∧ WholeSnapshot parseLines files s) ∧
    (snapStates oneFileRun none).length = 20 ∧
    ((snapStates oneFileRun none).map fun s => (loadOut parseLines s).isSome).count true = 1 :=
  ⟨C161_new_partial _ _ _ oneFileRun_consistent (fun _ h => nomatch h), by decide, by decide⟩

/-! ### C162 -/

/-- The statement of C162: a command that fails leaves an existing snapshot as it is. -/
def C162_statement : Prop :=
  ∀ (parse : Str → Option (List Str)) (b : SnapRun) (old : OutDir) (oldFiles : List (Str × Str)),
    ConsistentContent parse b → WholeSnapshot parse oldFiles old → (∀ files yaml, ¬ Succeeds b files yaml) →
    (snapStates b old).getLast? = some old

/-- The code does not satisfy C162: the snapshot is deleted before an empty list of symbols is noticed. -/
theorem C162_fails : ¬ C162_statement := by
  intro h
  have := h parseLines { oneFileRun with lines := some [str! "# nothing\n"] } (some oldSnapshot) _ oneFileRun_consistent
    oldSnapshot_whole (by
      rintro files yaml ⟨ls, hl, hs, _⟩
      cases hl
      exact hs rfl (by decide))
  exact absurd this (by decide)

/-- **C162 (partial)** A command that succeeds ends with the complete new snapshot, whatever the directory contained before:
all files are there with their texts, and the description. A command that fails leaves an empty directory. Missing: the old
snapshot is not kept (`C162_fails`). -/
theorem C162_end_partial (b : SnapRun) (old : OutDir) :
    (∀ files yaml, Succeeds b files yaml → (files.map Prod.fst).Nodup → (∀ f ∈ files, f.1 ≠ str! "snapshot.yaml") →
      ∃ d, (snapStates b old).getLast? = some (some d) ∧ Dict.get? d (str! "snapshot.yaml") = some yaml ∧
        (∀ f ∈ files, Dict.get? d f.1 = some f.2) ∧
        ∀ k, k ≠ str! "snapshot.yaml" → k ∉ files.map Prod.fst → Dict.get? d k = none) ∧
    ((∀ files yaml, ¬ Succeeds b files yaml) → (snapStates b old).getLast? = some (some [])) := by
  constructor
  · rintro files yaml ⟨ls, hl, hs, hc⟩ hn hy
    have hlist : listStates b = writeStates files yaml := by
      unfold listStates
      rw [hl]
      show symbolStates b (readSymbols ls) = _
      unfold symbolStates
      rw [if_neg (fun h => hs h.1 h.2), hc]
    refine ⟨(copied files []).set snapYamlName yaml, ?_, Dict.get?_set_self _ _ _, fun f hf => ?_, fun k hk hk' => ?_⟩
    · unfold snapStates
      rw [hlist]
      unfold writeStates
      rw [List.map_append, ← List.append_assoc]
      unfold fileStates
      rw [List.range_succ, List.map_append, List.map_append, ← List.append_assoc, List.map_singleton, List.map_singleton,
        List.getLast?_concat, List.take_length]
    · exact (Dict.get?_set_ne _ _ (hy f hf)).trans (copied_get hn hf [])
    · exact (Dict.get?_set_ne _ _ hk).trans ((copied_other hk' []).trans rfl)
  · intro hno
    have hlist : listStates b = [] := by
      unfold listStates
      cases hl : b.lines with
      | none => rfl
      | some ls =>
        show symbolStates b (readSymbols ls) = _
        unfold symbolStates
        split
        · rfl
        · next hne =>
          cases hc : b.content (readSymbols ls) with
          | none => rfl
          | some r => exact absurd ⟨ls, hl, fun h1 h2 => hne ⟨h1, h2⟩, hc⟩ (hno r.1 r.2)
    unfold snapStates
    rw [hlist, List.append_nil]
    unfold prepareStates
    cases old with
    | none => rfl
    | some d =>
      show ((removeStates b.removal d).map some ++ ([none] ++ [some []])).getLast? = _
      rw [← List.append_assoc, List.getLast?_concat]

/-- Both cases occur: the old snapshot is replaced, or lost. -/
example : (snapStates oneFileRun (some oldSnapshot)).getLast? =
      some (some [(str! "b.ll", str! "define f"), (str! "snapshot.yaml", str! "b.ll\n!")]) ∧
    (snapStates { oneFileRun with lines := none } (some oldSnapshot)).getLast? = some (some []) := by decide

/-! ### C163 -/

/-- The statement of C163: a command that stops anywhere leaves the headers of the kernel as they were. -/
def C163_statement : Prop := ∀ (h : Headers) (n : Nat), CleanHeader h.source → (headerRun n h).source = h.source

/-- A header that is changed. -/
def gotoHeader : List Str := [str! "#define asm_volatile_goto(x...) asm goto(x)"]

theorem gotoHeader_clean : CleanHeader gotoHeader := by unfold CleanHeader; decide

/-- The code does not satisfy C163: the command returns without restoring the headers when the list is empty. -/
theorem C163_fails : ¬ C163_statement := fun h => absurd (h ⟨gotoHeader, none⟩ 2 gotoHeader_clean) (by decide)

theorem clean_occurs {h : List Str} (hc : CleanHeader h) :
    (∀ l ∈ h, ¬ Occurs (str! "#undef CONFIG_CC_HAS_ASM_INLINE // DiffKemp generated") l) ∧
    (∀ l ∈ h, ¬ Occurs (str! "asm (\"goto(\" #x \")\")") l) := by
  constructor
  · intro l hl ho
    have := (hc l hl).1
    rw [hasText_iff.2 ho] at this
    exact nomatch this
  · intro l hl ho
    have := (hc l hl).2
    rw [hasText_iff.2 ho] at this
    exact nomatch this

theorem headerRun_cases (n : Nat) (h : Headers) :
    (headerRun n h).source = h.source ∨ (headerRun n h).source = disableAsm h.source ∨
      (headerRun n h).source = enableAsm (disableAsm h.source) := by
  match n with
  | 0 => exact .inl rfl
  | 1 => exact .inr (.inl rfl)
  | 2 => exact .inr (.inl rfl)
  | 3 => exact .inr (.inl rfl)
  | 4 => exact .inr (.inr rfl)
  | n + 5 =>
    have : headerRun (n + 5) h = headerRun 5 h := by
      unfold headerRun
      rw [List.take_of_length_le (show headerSteps.length ≤ n + 5 from Nat.le_add_left 5 n),
        List.take_of_length_le (show headerSteps.length ≤ 5 from Nat.le_refl 5)]
    rw [this]
    exact .inr (.inr rfl)

theorem headerRuns_source {orig : List Str} (hc : CleanHeader orig) (stops : List Nat) :
    ∀ (h : Headers) (k : Nat), h.source = disableAsm^[k] orig → ∃ k', (headerRuns stops h).source = disableAsm^[k'] orig := by
  induction stops with
  | nil => intro h k hk; exact ⟨k, hk⟩
  | cons n ns ih =>
    intro h k hk
    have : ∃ k', (headerRun n h).source = disableAsm^[k'] orig := by
      rcases headerRun_cases n h with h1 | h1 | h1
      · exact ⟨k, h1.trans hk⟩
      · exact ⟨k + 1, by rw [h1, hk, Function.iterate_succ_apply']⟩
      · refine ⟨0, ?_⟩
        rw [h1, hk, ← Function.iterate_succ_apply' disableAsm]
        exact C36_restored_partial orig (clean_occurs hc).1 (clean_occurs hc).2 k
    obtain ⟨k', hk'⟩ := this
    exact ih (headerRun n h) k' hk'

/-- **C163 (partial)** However many commands were stopped anywhere before, a command that runs to its end restores the
headers of the kernel, and the snapshot gets the original headers, too. Missing: after a command that stopped the headers
stay changed until the next command (`C163_fails`). -/
theorem C163_restored_partial (h : Headers) (hc : CleanHeader h.source) (stops : List Nat) :
    headerRun 5 (headerRuns stops h) = ⟨h.source, some h.source⟩ := by
  obtain ⟨k, hk⟩ := headerRuns_source hc stops h 0 rfl
  have hr : enableAsm (disableAsm (headerRuns stops h).source) = h.source := by
    rw [hk, ← Function.iterate_succ_apply' disableAsm]
    exact C36_restored_partial _ (clean_occurs hc).1 (clean_occurs hc).2 k
  show (⟨enableAsm (disableAsm (headerRuns stops h).source),
    (some (disableAsm (headerRuns stops h).source)).map enableAsm⟩ : Headers) = _
  rw [Option.map_some, hr]

/-- Two commands that were stopped, then one that was not. -/
example : headerRuns [1, 3] ⟨gotoHeader, none⟩ ≠ ⟨gotoHeader, none⟩ ∧
    headerRun 5 (headerRuns [1, 3] ⟨gotoHeader, none⟩) = ⟨gotoHeader, some gotoHeader⟩ :=
  ⟨by decide, C163_restored_partial ⟨gotoHeader, none⟩ gotoHeader_clean [1, 3]⟩

end DK
