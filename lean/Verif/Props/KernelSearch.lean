import Verif.Spec.KernelSearch
import Verif.Lemmas.Paths
import Verif.Lemmas.Snapshot
import Verif.Lemmas.Text
import Verif.Lemmas.Dict

/-! Properties of the search in sources of kernels (C158) and of the search for commands of kernel modules (C159). -/

set_option autoImplicit false

namespace DK

open Spec

/-! ### The search -/

private theorem occursIn_split {p : Str} : ∀ {s : Str}, occursIn p s = true → ∃ a b, s = a ++ (p ++ b)
  | [], h => by
    obtain ⟨r, hr⟩ := startsWith_iff.1 h
    exact ⟨[], r, by simpa using hr⟩
  | c :: cs, h => by
    rw [occursIn, Bool.or_eq_true] at h
    rcases h with h | h
    · obtain ⟨r, hr⟩ := startsWith_iff.1 h
      exact ⟨[], r, by simpa using hr⟩
    · obtain ⟨a, b, hab⟩ := occursIn_split h
      exact ⟨c :: a, b, by rw [hab]; rfl⟩

private theorem split_absPath {ws : List Str} (h : ∀ w ∈ ws, FileName w) :
    ∀ x ∈ splitChar '/' ('/' :: joinChar '/' ws), x = [] ∨ x ∈ ws := by
  intro x hx
  have h1 := splitChar_append_sep '/' [] (joinChar '/' ws)
  rw [List.nil_append] at h1
  rw [h1, List.mem_append] at hx
  rcases hx with hx | hx
  · left
    simpa [splitChar] using hx
  · by_cases hw : ws = []
    · subst hw
      left
      simpa [joinChar, splitChar] using hx
    · rw [splitChar_join '/' ws hw fun w hm => (h w hm).2.2.2] at hx
      exact .inr hx

private theorem splitChar_head (c : Char) (b : Str) : ∀ w : Str, c ∉ w → ∃ t ts, splitChar c (w ++ b) = (w ++ t) :: ts
  | [], _ => by
    obtain ⟨x, xs, hx⟩ := List.exists_cons_of_ne_nil (splitChar_ne_nil c b)
    exact ⟨x, xs, hx⟩
  | y :: w, h => by
    obtain ⟨t, ts, ht⟩ := splitChar_head c b w fun hm => h (List.mem_cons_of_mem _ hm)
    have hy : y ≠ c := fun he => h (he ▸ List.mem_cons_self)
    exact ⟨t, ts, by rw [List.cons_append, splitChar, if_neg hy, ht]; rfl⟩

/-- A directory that is skipped has a component because of which it is skipped. -/
private theorem skippedRoot_comp {k : KTree} {d : List Str} (h : ∀ w ∈ k.src ++ d, FileName w)
    (hs : skippedRoot (rootOf k d) = true) : ∃ w ∈ k.src ++ d, LooksExcluded w := by
  have hsp := split_absPath h
  unfold skippedRoot at hs
  rw [Bool.or_eq_true, Bool.or_eq_true] at hs
  have inner : ∀ u : Str, '/' ∉ u → u ≠ [] → occursIn ('/' :: (u ++ ['/'])) (rootOf k d) = true → u ∈ k.src ++ d := by
    intro u hu hne ho
    obtain ⟨a, b, hab⟩ := occursIn_split ho
    have hm : u ∈ splitChar '/' (rootOf k d) := by
      rw [hab]
      have e : a ++ ('/' :: (u ++ ['/']) ++ b) = a ++ '/' :: (u ++ '/' :: b) := by simp
      rw [e, splitChar_append_sep, splitChar_append '/' u b hu]
      exact List.mem_append_right _ List.mem_cons_self
    rcases hsp u hm with h0 | h0
    · exact absurd h0 hne
    · exact h0
  rcases hs with (hs | hs) | hs
  · exact ⟨_, inner (str! "Documentation") (by decide) (by decide) hs, .inl rfl⟩
  · exact ⟨_, inner (str! "scripts") (by decide) (by decide) hs, .inr (.inl rfl)⟩
  · obtain ⟨a, b, hab⟩ := occursIn_split hs
    obtain ⟨t, ts, ht⟩ := splitChar_head '/' b (str! "tmp") (by decide)
    have hm : str! "tmp" ++ t ∈ splitChar '/' (rootOf k d) := by
      rw [hab]
      have e : a ++ (str! "/tmp" ++ b) = a ++ '/' :: (str! "tmp" ++ b) := rfl
      rw [e, splitChar_append_sep, ht]
      exact List.mem_append_right _ List.mem_cons_self
    rcases hsp _ hm with h0 | h0
    · exact absurd h0 (by simp)
    · exact ⟨_, h0, .inr (.inr ⟨t, rfl⟩)⟩

private theorem mem_joinChar {c : Char} {x : Char} : ∀ {ws : List Str}, x ∈ joinChar c ws → x = c ∨ ∃ w ∈ ws, x ∈ w
  | [], h => nomatch h
  | [w], h => .inr ⟨w, List.mem_cons_self, h⟩
  | w :: w' :: ws, h => by
    rw [joinChar] at h
    rcases List.mem_append.1 h with h | h
    · exact .inr ⟨w, List.mem_cons_self, h⟩
    · rcases List.mem_cons.1 h with h | h
      · exact .inl h
      · rcases mem_joinChar h with h | ⟨v, hv, hx⟩
        · exact .inl h
        · exact .inr ⟨v, List.mem_cons_of_mem _ hv, hx⟩

private theorem firstWord_line {p h : Str} (hne : p ≠ []) (hb : ∀ c ∈ p, pySpace c = false) :
    firstWord (p ++ ' ' :: h) = p := by
  unfold firstWord
  have h1 : (p ++ ' ' :: h).dropWhile pySpace = p ++ ' ' :: h := by
    cases p with
    | nil => exact absurd rfl hne
    | cons x xs => rw [List.cons_append, List.dropWhile_cons, if_neg (by rw [hb x List.mem_cons_self]; decide)]
  rw [h1, List.takeWhile_append_of_pos (fun c hc => by rw [hb c hc]; rfl), List.takeWhile_cons,
    if_neg (by decide), List.append_nil]

private theorem joinChar_last (c : Char) (f : Str) : ∀ ws : List Str, ∃ r, joinChar c (ws ++ [f]) = r ++ f
  | [] => ⟨[], rfl⟩
  | [w] => ⟨w ++ [c], by simp [joinChar]⟩
  | w :: w' :: ws => by
    obtain ⟨r, hr⟩ := joinChar_last c f (w' :: ws)
    refine ⟨w ++ c :: r, ?_⟩
    have e : joinChar c (w :: w' :: ws ++ [f]) = w ++ c :: joinChar c (w' :: ws ++ [f]) := rfl
    rw [e, hr]
    simp

private theorem last_eq {a b : Str} {x y : Char} (h : a ++ [x] = b ++ [y]) : x = y := by
  have := congrArg List.getLast? h
  simpa using this

private theorem scanned_c {f : Str} (hs : scannedName f = true) {r b : Str}
    (he : r ++ f = b ++ str! "c") : ∃ base, f = base ++ str! ".c" := by
  have key : ∀ x : Char, x ≠ 'c' → endsWith f ['.', x] = true → False := by
    intro x hx h
    obtain ⟨t, ht⟩ := endsWith_iff.1 h
    rw [ht] at he
    have e : r ++ (t ++ ['.', x]) = (r ++ (t ++ ['.'])) ++ [x] := by simp
    rw [e] at he
    exact hx (last_eq he)
  unfold scannedName at hs
  simp only [Bool.or_eq_true] at hs
  rcases hs with (((hs | hs) | hs) | hs) | hs
  · exact endsWith_iff.1 hs
  · exact (key _ (by decide) hs).elim
  · exact (key _ (by decide) hs).elim
  · exact (key _ (by decide) hs).elim
  · exact (key _ (by decide) hs).elim

private theorem line_path {k : KTree} (hk : KernelTree k) (hb : NoBlanks k) {dir : List Str} {files : List (Str × Bool)}
    {f : Str} {l : Bool} (hd : (dir, files) ∈ k.dirs) (hf : (f, l) ∈ files) (h : Str) :
    firstWord (joinChar '/' (dir ++ [f]) ++ ' ' :: h) = joinChar '/' (dir ++ [f]) := by
  apply firstWord_line
  · obtain ⟨r, hr⟩ := joinChar_last '/' f dir
    rw [hr]
    intro h0
    exact ((hk.2 _ hd).2 _ hf).1 (List.append_eq_nil_iff.1 h0).2
  · intro c hc
    rcases mem_joinChar hc with hc | ⟨w, hw, hc⟩
    · rw [hc]; decide
    · rcases List.mem_append.1 hw with hw | hw
      · exact (hb _ hd).1 w hw c hc
      · rw [List.mem_singleton.1 hw] at hc
        exact (hb _ hd).2 _ hf c hc

/-- Searching the database of the kernel. -/
private theorem search_all {k : KTree} (hk : KernelTree k) (hb : NoBlanks k)
    (hsrc : ∀ w ∈ k.src, ¬ LooksExcluded w) (hdir : ∀ d ∈ k.dirs, ∀ w ∈ d.1, ∀ t, w = str! "tmp" ++ t → t = [])
    (hits : Str → Str × Bool → List Str) (q : Str × Bool) :
    LinesAll k hits q (sourceLines (cscopeLines hits (scanKernel k) q)) := by
  rintro dir f ⟨⟨files, hd, hf⟩, base, hbase⟩ hex h hh
  refine List.mem_filter.2 ⟨?_, ?_⟩
  · refine List.mem_flatMap.2 ⟨(joinChar '/' (dir ++ [f]), k.text (dir ++ [f])), ?_, ?_⟩
    · refine List.mem_flatMap.2 ⟨_, hd, ?_⟩
      unfold scannedFiles
      rw [if_neg]
      · refine List.mem_map.2 ⟨(f, false), List.mem_filter.2 ⟨hf, ?_⟩, rfl⟩
        have : endsWith f (str! ".c") = true := endsWith_iff.2 ⟨base, hbase⟩
        simp [scannedName, this]
      · intro hs
        have hcomp : ∀ w ∈ k.src ++ dir, FileName w := by
          intro w hw
          rcases List.mem_append.1 hw with hw | hw
          · exact hk.1 w hw
          · exact (hk.2 _ hd).1 w hw
        obtain ⟨w, hw, hl⟩ := skippedRoot_comp hcomp hs
        rcases List.mem_append.1 hw with hw | hw
        · exact hsrc w hw hl
        · refine hex ⟨w, hw, ?_⟩
          rcases hl with hl | hl | ⟨t, ht⟩
          · exact .inl hl
          · exact .inr (.inl hl)
          · have := hdir _ hd w hw t ht
            subst this
            exact .inr (.inr ht)
    · refine List.mem_map.2 ⟨h, hh, ?_⟩
      simp [lineOf]
  · have e : lineOf dir f h = joinChar '/' (dir ++ [f]) ++ ' ' :: h := by simp [lineOf]
    rw [e, line_path hk hb hd hf]
    obtain ⟨r, hr⟩ := joinChar_last '/' f dir
    exact endsWith_iff.2 ⟨r ++ (base ++ ['.']), by rw [hr, hbase]; simp⟩

private theorem search_only {k : KTree} (hk : KernelTree k) (hb : NoBlanks k)
    (hits : Str → Str × Bool → List Str) (q : Str × Bool) :
    LinesOnly k hits q (sourceLines (cscopeLines hits (scanKernel k) q)) := by
  intro l hl
  obtain ⟨hl, hc⟩ := List.mem_filter.1 hl
  obtain ⟨⟨p, t⟩, hp, hl⟩ := List.mem_flatMap.1 hl
  obtain ⟨h, hh, rfl⟩ := List.mem_map.1 hl
  obtain ⟨⟨dir, files⟩, hd, hp⟩ := List.mem_flatMap.1 hp
  unfold scannedFiles at hp
  by_cases hs : skippedRoot (rootOf k dir) = true
  · rw [if_pos hs] at hp
    exact nomatch hp
  · rw [if_neg hs] at hp
    obtain ⟨⟨f, lnk⟩, hf, he⟩ := List.mem_map.1 hp
    obtain ⟨hf, hflt⟩ := List.mem_filter.1 hf
    obtain ⟨rfl, rfl⟩ := Prod.mk.inj he
    simp only [Bool.and_eq_true, Bool.not_eq_true'] at hflt
    obtain ⟨rfl, hsn⟩ := hflt
    dsimp only at hh hc
    rw [line_path hk hb hd hf] at hc
    obtain ⟨b, hbb⟩ := endsWith_iff.1 hc
    obtain ⟨r, hr⟩ := joinChar_last '/' f dir
    rw [hr] at hbb
    exact ⟨dir, f, h, ⟨⟨files, hd, hf⟩, scanned_c hsn hbb⟩, hh, by simp [lineOf]⟩

/-- The database, if there is one, belongs to the kernel, and the cached answers are those of a search in it. -/
private def Fresh (k : KTree) (hits : Str → Str × Bool → List Str) (st : CscopeState) : Prop :=
  (st.db = none ∨ st.db = some (scanKernel k)) ∧
  ∀ q r, st.cache.get? q = some r → r = sourceLines (cscopeLines hits (scanKernel k) q)

private theorem run_fresh {k : KTree} {hits : Str → Str × Bool → List Str} {st : CscopeState} (h : Fresh k hits st)
    (q : Str × Bool) : (cscopeRun k hits true true q st).1 = some (sourceLines (cscopeLines hits (scanKernel k) q)) ∧
      Fresh k hits (cscopeRun k hits true true q st).2 := by
  unfold cscopeRun
  cases hc : st.cache.get? q with
  | some r => exact ⟨congrArg some (h.2 q r hc), h⟩
  | none =>
    have hdb : buildDatabase k true st = some (scanKernel k) := by
      unfold buildDatabase
      rcases h.1 with h | h <;> rw [h]
      rfl
    dsimp only
    rw [hdb]
    refine ⟨rfl, .inr rfl, ?_⟩
    intro q' r hr
    change (st.cache.set q _).get? q' = some r at hr
    rw [Dict.get?_set] at hr
    split at hr
    · rename_i he
      rw [he]
      exact (Option.some.inj hr).symm
    · exact h.2 q' r hr

/-- **C158** Searching the sources of a kernel finds all occurrences in C sources that are not in directories excluded on
purpose, whatever was left by previous runs, and nothing else. -/
def C158_statement : Prop :=
  ∀ (k : KTree) (hits : Str → Str × Bool → List Str) (q : Str × Bool) (db : Option (List (Str × Str))), KernelTree k →
    ∃ r, (cscopeRun k hits true true q ⟨db, []⟩).1 = some r ∧ LinesAll k hits q r ∧ LinesOnly k hits q r

private def exTree (src dir : List Str) : KTree := ⟨src, [(dir, [(str! "a.c", false)])], fun _ => str! "int f;"⟩

private def exHits : Str → Str × Bool → List Str := fun t _ => if t = str! "int f;" then [str! "f 1 int f;"] else []

private theorem exTree_ok (src dir : List Str) (h : ∀ w ∈ src ++ dir, FileName w) : KernelTree (exTree src dir) := by
  refine ⟨fun w hw => h w (List.mem_append_left _ hw), ?_⟩
  intro d hd
  rw [List.mem_singleton.1 hd]
  refine ⟨fun w hw => h w (List.mem_append_right _ hw), ?_⟩
  intro f hf
  rw [List.mem_singleton.1 hf]
  unfold FileName
  decide

private theorem exTree_source (src dir : List Str) : SourceFile (exTree src dir) dir (str! "a.c") :=
  ⟨⟨_, List.mem_singleton.2 rfl, List.mem_singleton.2 rfl⟩, str! "a", rfl⟩

/-- **C158 (violated)** In a kernel whose directory is below a directory with a name that begins with `tmp`, no symbol is
found. -/
theorem C158_fails : ¬ C158_statement := by
  intro h
  obtain ⟨r, hr, hall, _⟩ := h (exTree [str! "tmp", str! "linux"] [str! "mm"]) exHits (str! "f", true) none
    (exTree_ok _ _ (by unfold FileName; decide))
  have := hall _ _ (exTree_source _ _) (by unfold Excluded; decide) (str! "f 1 int f;") (by decide)
  have e : r = [] := (Option.some.inj (hr.symm.trans (by decide : _ = some []))).trans rfl
  rw [e] at this
  exact nomatch this

/-- **C158 (violated)** The same for directories of the kernel, as in tools/testing/selftests/tmpfs. -/
theorem C158_fails_tmpfs : ¬ C158_statement := by
  intro h
  obtain ⟨r, hr, hall, _⟩ := h (exTree [str! "src", str! "linux"] [str! "tmpfs"]) exHits (str! "f", true) none
    (exTree_ok _ _ (by unfold FileName; decide))
  have := hall _ _ (exTree_source _ _) (by unfold Excluded; decide) (str! "f 1 int f;") (by decide)
  have e : r = [] := (Option.some.inj (hr.symm.trans (by decide : _ = some []))).trans rfl
  rw [e] at this
  exact nomatch this

/-- **C158 (violated)** A database left by a previous run is used although the sources have changed. -/
theorem C158_fails_stale : ¬ C158_statement := by
  intro h
  obtain ⟨r, hr, hall, _⟩ := h (exTree [str! "src", str! "linux"] [str! "mm"]) exHits (str! "f", true)
    (some [(str! "mm/a.c", str! "int g;")]) (exTree_ok _ _ (by unfold FileName; decide))
  have := hall _ _ (exTree_source _ _) (by unfold Excluded; decide) (str! "f 1 int f;") (by decide)
  have e : r = [] := (Option.some.inj (hr.symm.trans (by decide : _ = some []))).trans rfl
  rw [e] at this
  exact nomatch this

/-- **C158 (partial)** For any sequence of searches that begins without a database, each answer consists of all occurrences in
C sources that are not excluded, and of occurrences in C sources only, if no directory above the kernel is named like an excluded
one, no directory in the kernel has a longer name that begins with `tmp`, and names contain no white space. Missing: see
`C158_fails`, `C158_fails_tmpfs`, `C158_fails_stale`. -/
theorem C158_search_partial {k : KTree} (hk : KernelTree k) (hb : NoBlanks k)
    (hsrc : ∀ w ∈ k.src, ¬ LooksExcluded w) (hdir : ∀ d ∈ k.dirs, ∀ w ∈ d.1, ∀ t, w = str! "tmp" ++ t → t = [])
    (hits : Str → Str × Bool → List Str) (qs : List (Str × Bool)) :
    (cscopeSession k hits qs ⟨none, []⟩).length = qs.length ∧
    ∀ q a, (q, a) ∈ qs.zip (cscopeSession k hits qs ⟨none, []⟩) → ∃ r, a = some r ∧ LinesAll k hits q r ∧ LinesOnly k hits q r := by
  have key : ∀ (qs : List (Str × Bool)) (st : CscopeState), Fresh k hits st →
      cscopeSession k hits qs st = qs.map fun q => some (sourceLines (cscopeLines hits (scanKernel k) q)) := by
    intro qs
    induction qs with
    | nil => intro _ _; rfl
    | cons q qs ih =>
      intro st hst
      have h := run_fresh hst q
      rw [cscopeSession, h.1, ih _ h.2]
      rfl
  have h0 := key qs ⟨none, []⟩ ⟨.inl rfl, fun q r h => nomatch h⟩
  rw [h0]
  refine ⟨List.length_map _, ?_⟩
  intro q a hm
  rw [List.zip_map_right] at hm
  obtain ⟨⟨q1, q2⟩, hz, he⟩ := List.mem_map.1 hm
  obtain ⟨rfl, rfl⟩ := Prod.mk.inj he
  have : q1 = q2 := by
    clear hm he h0
    induction qs with
    | nil => exact nomatch hz
    | cons x xs ih =>
      rw [List.zip_cons_cons] at hz
      rcases List.mem_cons.1 hz with hz | hz
      · exact (Prod.mk.inj hz).1.trans (Prod.mk.inj hz).2.symm
      · exact ih hz
  subst this
  exact ⟨_, rfl, search_all hk hb hsrc hdir hits _, search_only hk hb hits _⟩

-- A kernel that meets the hypotheses, and two searches of it
example : KernelTree (exTree [str! "src", str! "linux"] [str! "mm"]) ∧ NoBlanks (exTree [str! "src", str! "linux"] [str! "mm"]) ∧
    cscopeSession (exTree [str! "src", str! "linux"] [str! "mm"]) exHits [(str! "f", true), (str! "f", true)] ⟨none, []⟩ =
      [some [str! "mm/a.c f 1 int f;"], some [str! "mm/a.c f 1 int f;"]] :=
  ⟨exTree_ok _ _ (by unfold FileName; decide), by unfold NoBlanks; decide, by decide⟩

example : ¬ LooksExcluded (str! "linux") := by
  rintro (h | h | ⟨t, h⟩)
  · exact absurd h (by decide)
  · exact absurd h (by decide)
  · exact absurd (List.cons.inj h).1 (by decide)

/-! ### Commands of modules -/

/-- **C159** The commands that build a kernel module are found by the name of the module: there is one file with a name of the
module, and `make` builds it (and answers with the code 2 to other names). -/
def C159_statement : Prop :=
  ∀ (make : List Str → Except Nat (List Str)) (dir name file : Str) (out : List Str), SameModule name file →
    (∀ n, n ≠ file → make [str! "make", str! "--just-print", str! "V=1", str! "M=" ++ dir, n ++ str! ".ko"] = .error 2) →
    make [str! "make", str! "--just-print", str! "V=1", str! "M=" ++ dir, file ++ str! ".ko"] = .ok out →
    kbuildModule make dir name = some (file, extractCommands out)

private def exMake (file : Str) : List Str → Except Nat (List Str)
  | [_, _, _, _, t] => if t = file ++ str! ".ko" then .ok [str! "  gcc -c -o a.o a.c"] else .error 2
  | _ => .error 2

private theorem exMake_other (file n a b c d : Str) (h : n ≠ file) :
    exMake file [a, b, c, d, n ++ str! ".ko"] = .error 2 := by
  unfold exMake
  dsimp only
  rw [if_neg fun he => h (List.append_cancel_right he)]

/-- **C159 (violated)** A module whose file has both dashes and underscores in its name is not found by its name in the kernel. -/
theorem C159_fails : ¬ C159_statement := by
  intro h
  have := h (exMake (str! "nft-a_b")) (str! "net") (str! "nft_a_b") (str! "nft-a_b") [str! "  gcc -c -o a.o a.c"]
    (by unfold SameModule; decide) (fun n hn => exMake_other _ _ _ _ _ _ hn) (by decide)
  exact absurd this (by decide)

/-- **C159 (partial)** The commands are found if the name of the file is the given one, or the given one with dashes in place of
all underscores. The name and the commands that are found always belong to a file of the module that `make` builds. Missing: see
`C159_fails`. -/
theorem C159_module_partial (make : List Str → Except Nat (List Str)) (dir name : Str) :
    (∀ file out, (file = name ∨ (file = name.map fun c => if c = '_' then '-' else c)) →
      (∀ n, n ≠ file → make [str! "make", str! "--just-print", str! "V=1", str! "M=" ++ dir, n ++ str! ".ko"] = .error 2) →
      make [str! "make", str! "--just-print", str! "V=1", str! "M=" ++ dir, file ++ str! ".ko"] = .ok out →
      kbuildModule make dir name = some (file, extractCommands out)) ∧
    ∀ file cs, kbuildModule make dir name = some (file, cs) → SameModule name file ∧ ∃ out, cs = extractCommands out ∧
      make [str! "make", str! "--just-print", str! "V=1", str! "M=" ++ dir, file ++ str! ".ko"] = .ok out := by
  constructor
  · intro file out hf ho hm
    unfold kbuildModule makeModule
    by_cases hn : name = file
    · subst hn
      rw [hm]
    · have hf := hf.resolve_left fun h => hn h.symm
      rw [ho name hn]
      dsimp only
      have e : replaceChar '_' '-' name = file := hf.symm
      rw [if_pos rfl, e, hm]
  · intro file cs h
    unfold kbuildModule makeModule at h
    cases hm : make [str! "make", str! "--just-print", str! "V=1", str! "M=" ++ dir, name ++ str! ".ko"] with
    | ok out =>
      rw [hm] at h
      obtain ⟨rfl, rfl⟩ := Prod.mk.inj (Option.some.inj h)
      exact ⟨rfl, out, rfl, hm⟩
    | error e =>
      rw [hm] at h
      dsimp only at h
      split at h
      · cases hm2 : make [str! "make", str! "--just-print", str! "V=1", str! "M=" ++ dir,
          replaceChar '_' '-' name ++ str! ".ko"] with
        | ok out =>
          rw [hm2] at h
          obtain ⟨rfl, rfl⟩ := Prod.mk.inj (Option.some.inj h)
          refine ⟨?_, out, rfl, hm2⟩
          unfold SameModule replaceChar
          rw [List.map_map]
          refine List.map_congr_left fun c _ => ?_
          dsimp only [Function.comp]
          by_cases hc : c = '_'
          · subst hc; decide
          · simp only [if_neg hc]
        | error e2 =>
          rw [hm2] at h
          exact nomatch h
      · exact nomatch h

-- The module snd_hda whose file is snd-hda.ko
example : kbuildModule (exMake (str! "snd-hda")) (str! "sound") (str! "snd_hda") =
    some (str! "snd-hda", [str! "gcc -c -o a.o a.c"]) := by decide

/-! ### Commands of objects -/

private theorem trimmed_dropWhile (c : Str) : TrimmedLeft c (c.dropWhile pySpace) := by
  refine ⟨c.takeWhile pySpace, (List.takeWhile_append_dropWhile).symm, ?_, ?_⟩
  · intro x hx
    exact (List.all_eq_true.1 (List.all_takeWhile (l := c) (p := pySpace))) x hx
  · intro x hx
    induction c with
    | nil => cases hx
    | cons y c ih =>
      rw [List.dropWhile_cons] at hx
      split at hx
      · exact ih hx
      · rename_i hy
        cases hx
        simpa using hy

private theorem trimmed_unique (c d : Str) (h : TrimmedLeft c d) : c.dropWhile pySpace = d := by
  obtain ⟨w, rfl, hw, hd⟩ := h
  induction w with
  | nil =>
    cases d with
    | nil => rfl
    | cons x d =>
      rw [List.nil_append, List.dropWhile_cons, if_neg]
      rw [hd x rfl]
      decide
  | cons x w ih =>
    rw [List.cons_append, List.dropWhile_cons, if_pos (hw x List.mem_cons_self)]
    exact ih (fun y hy => hw y (List.mem_cons_of_mem _ hy))

private theorem gccCommand_iff (c : Str) : GccCommand c ↔ startsWith (c.dropWhile pySpace) (str! "gcc") = true := by
  constructor
  · rintro ⟨d, h1, h2⟩
    rw [trimmed_unique c d h1]
    exact List.isPrefixOf_iff_prefix.2 h2
  · intro h
    exact ⟨_, trimmed_dropWhile c, List.isPrefixOf_iff_prefix.1 h⟩

private theorem extract_gcc (l : List Str) (hl : l ≠ []) (hs : ∀ c ∈ l, ';' ∉ c) :
    extractCommand [str! "gcc"] (joinChar ';' l) =
      (l.map (·.dropWhile pySpace)).find? (fun c => startsWith c (str! "gcc")) := by
  unfold extractCommand
  rw [splitChar_join ';' l hl hs]
  simp

/-- **C197** The command for an object file is the last one that starts with `gcc` in the output of make. -/
def C197_statement : Prop :=
  ∀ (lines : List (List Str)) (d : Str), MakeLines lines → LastGcc lines.flatten d →
    kbuildObject (lines.map (joinChar ';')) = some d

/-- **C197 (violated)** Of two such commands on one line, the first one is taken. -/
theorem C197_fails : ¬ C197_statement := by
  intro h
  have := h [[str! "gcc -c a.c", str! " gcc -c b.c"]] (str! "gcc -c b.c") (by unfold MakeLines; decide)
    ⟨[str! "gcc -c a.c"], str! " gcc -c b.c", [], rfl, ⟨str! " ", rfl, by decide, by
      intro x hx
      cases hx
      decide⟩, ⟨str! " -c b.c", rfl⟩, by simp⟩
  exact absurd this (by decide)

/-- **C197 (partial)** The command for an object file is the first one that starts with `gcc` on the last line of the output of
make that has such a command, and there is none only if the output has none. Missing: lines with more than one such command,
see `C197_fails`. -/
theorem C197_command_partial (lines : List (List Str)) (hm : MakeLines lines) :
    (∀ d, kbuildObject (lines.map (joinChar ';')) = some d ↔
      ∃ before l after, lines = before ++ l :: after ∧ (∀ k ∈ after, ∀ c ∈ k, ¬ GccCommand c) ∧
        ∃ l1 c l2, l = l1 ++ c :: l2 ∧ (∀ x ∈ l1, ¬ GccCommand x) ∧ TrimmedLeft c d ∧ (str! "gcc") <+: d) ∧
    (kbuildObject (lines.map (joinChar ';')) = none ↔ ∀ l ∈ lines, ∀ c ∈ l, ¬ GccCommand c) := by
  have hnone : ∀ l ∈ lines, (extractCommand [str! "gcc"] (joinChar ';' l) = none ↔ ∀ c ∈ l, ¬ GccCommand c) := by
    intro l hl
    rw [extract_gcc l (hm l hl).1 (hm l hl).2, List.find?_eq_none]
    simp only [List.mem_map, forall_exists_index, and_imp, forall_apply_eq_imp_iff₂, gccCommand_iff]
  have hsome : ∀ l ∈ lines, ∀ d, (extractCommand [str! "gcc"] (joinChar ';' l) = some d ↔
      ∃ l1 c l2, l = l1 ++ c :: l2 ∧ (∀ x ∈ l1, ¬ GccCommand x) ∧ TrimmedLeft c d ∧ (str! "gcc") <+: d) := by
    intro l hl d
    rw [extract_gcc l (hm l hl).1 (hm l hl).2, List.find?_map, Option.map_eq_some_iff]
    constructor
    · rintro ⟨c, hc, rfl⟩
      rw [List.find?_eq_some_iff_append] at hc
      obtain ⟨hp, l1, l2, rfl, hn⟩ := hc
      refine ⟨l1, c, l2, rfl, ?_, trimmed_dropWhile c, List.isPrefixOf_iff_prefix.1 hp⟩
      intro x hx
      rw [gccCommand_iff]
      simpa using hn x hx
    · rintro ⟨l1, c, l2, rfl, hn, ht, hp⟩
      refine ⟨c, ?_, trimmed_unique c d ht⟩
      rw [List.find?_eq_some_iff_append]
      refine ⟨?_, l1, l2, rfl, ?_⟩
      · show startsWith (c.dropWhile pySpace) _ = true
        rw [trimmed_unique c d ht]
        exact List.isPrefixOf_iff_prefix.2 hp
      · intro x hx
        have := hn x hx
        rw [gccCommand_iff] at this
        simpa using this
  have hd : ∀ d, kbuildObject (lines.map (joinChar ';')) = some d ↔
      ∃ before l after, lines = before ++ l :: after ∧ (∀ k ∈ after, ∀ c ∈ k, ¬ GccCommand c) ∧
        ∃ l1 c l2, l = l1 ++ c :: l2 ∧ (∀ x ∈ l1, ¬ GccCommand x) ∧ TrimmedLeft c d ∧ (str! "gcc") <+: d := by
    intro d
    unfold kbuildObject
    rw [← List.map_reverse, List.findSome?_map, List.findSome?_eq_some_iff]
    constructor
    · rintro ⟨a, l, b, he, hl, hn⟩
      have he' : lines = b.reverse ++ l :: a.reverse := by
        have := congrArg List.reverse he
        simpa using this
      have hmem : l ∈ lines := by rw [he']; simp
      refine ⟨b.reverse, l, a.reverse, he', ?_, (hsome l hmem d).1 hl⟩
      intro k hk
      have hk' : k ∈ a := by simpa using hk
      exact (hnone k (by rw [he']; simp [hk'])).1 (hn k hk')
    · rintro ⟨b, l, a, he, hn, hl⟩
      refine ⟨a.reverse, l, b.reverse, by rw [he]; simp, (hsome l (by rw [he]; simp) d).2 hl, ?_⟩
      intro k hk
      have hk' : k ∈ a := by simpa using hk
      exact (hnone k (by rw [he]; simp [hk'])).2 (hn k hk')
  refine ⟨hd, ?_⟩
  unfold kbuildObject
  rw [← List.map_reverse, List.findSome?_map, List.findSome?_eq_none_iff]
  constructor
  · intro h l hl
    exact (hnone l hl).1 (h l (by simpa using hl))
  · intro h l hl
    have hl : l ∈ lines := by simpa using hl
    exact (hnone l hl).2 (h l hl)

/-- The commands for an object: the last one counts, and it is behind another one on its line. -/
example : kbuildObject [str! "  gcc -E a.c", str! "set -e; gcc -c a.c; ld -r a.o", str! "fixdep"] = some (str! "gcc -c a.c") ∧
    kbuildObject [str! "fixdep; ld -r a.o"] = none ∧
    MakeLines [[str! "set -e", str! " gcc -c a.c", str! " ld -r a.o"], [str! "fixdep"]] :=
  ⟨by decide, by decide, by unfold MakeLines; decide⟩

end DK
