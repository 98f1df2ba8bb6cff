import Verif.Spec.Cache
import Verif.Lemmas.Cache
import Verif.Lemmas.Paths

/-! Properties of the cache: C14 (what is written), C15 (what is read), C16 (file names). -/

set_option autoImplicit false

namespace DK
open Spec

/-- Several updates one after another; an exception ends the sequence. -/
def runUpdates (c : Cache) : History → Except PyErr Cache
  | [] => .ok c
  | (h, vs) :: rest =>
    match c.update h vs with
    | (c', .ok ()) => runUpdates c' rest
    | (_, .error x) => .error x

/-- What a history is expected to write: for every cachable function the name of the cache file of its source files and
its names. -/
def expectedLog (dir : Str) (cwd : List Str) (hist : History) : List (Str × (Str × Str)) :=
  hist.flatMap (fun x => (x.2.filter (fun v => (x.1 v).cachable)).map
    (fun v => (cacheName dir cwd (x.1 v).filesKey, ((x.1 v).names .left, (x.1 v).names .right))))

theorem mem_keys_of_entries {m : Dict FilesKey (List Vid)} {k : FilesKey} {v : Vid} (h : (k, v) ∈ entries m) :
    k ∈ m.keys := by
  simp only [entries, List.mem_flatMap, List.mem_map, Prod.mk.injEq] at h
  obtain ⟨x, hx, _, _, rfl, _⟩ := h
  exact List.mem_map.2 ⟨x, hx, rfl⟩

theorem update_spec {h : Heap} {c c' : Cache} {vs : List Vid} (hc : c.Consistent) (he : c.update h vs = (c', .ok ())) :
    c'.Consistent ∧ c'.directory = c.directory ∧ c'.cwd = c.cwd ∧
    (∀ v ∈ vs, (h v).cachable = true → ∃ F, cacheFileName c.directory c.cwd (h v).filesKey = .ok F) ∧
    ∃ log, log.Perm (expectedLog c.directory c.cwd [(h, vs)]) ∧
      ∀ F, (c'.fs.get? F).getD [] = ((c.fs.get? F).getD []) ++ logText log F := by
  obtain ⟨h1, h2, h3, h4, h5⟩ := updateFiles_spec h _ c c' hc he
  have hp := entries_group h vs []
  refine ⟨h1, h2, h3, ?_, _, ?_, h5⟩
  · intro v hv hcv
    have : ((h v).filesKey, v) ∈ entries (groupByFiles h vs []) := by
      rw [hp.mem_iff]
      simp only [entries, List.flatMap_nil, List.nil_append, List.mem_map, List.mem_filter]
      exact ⟨v, ⟨hv, hcv⟩, rfl⟩
    exact ⟨_, h4 _ (mem_keys_of_entries this)⟩
  · refine (hp.map _).trans ?_
    simp [expectedLog, entries, Vertex.namePair, Function.comp_def]

theorem runUpdates_spec : ∀ (hist : History) (c c' : Cache), c.Consistent → runUpdates c hist = .ok c' →
    c'.Consistent ∧ (∀ x ∈ hist, ∀ v ∈ x.2, (x.1 v).cachable = true →
      ∃ F, cacheFileName c.directory c.cwd (x.1 v).filesKey = .ok F) ∧
    ∃ log, log.Perm (expectedLog c.directory c.cwd hist) ∧
      ∀ F, (c'.fs.get? F).getD [] = ((c.fs.get? F).getD []) ++ logText log F := by
  intro hist
  induction hist with
  | nil =>
    intro c c' hc he
    cases he
    exact ⟨hc, by simp, [], by simp [expectedLog], by simp [logText]⟩
  | cons x hist ih =>
    obtain ⟨h, vs⟩ := x
    intro c c' hc he
    unfold runUpdates at he
    cases hu : c.update h vs with
    | mk c1 r =>
      cases r with
      | error x => rw [hu] at he; simp at he
      | ok u =>
        rw [hu] at he
        simp only at he
        obtain ⟨a1, a2, a3, a4, l1, p1, t1⟩ := update_spec hc hu
        obtain ⟨b1, b2, l2, p2, t2⟩ := ih c1 c' a1 he
        rw [a2, a3] at b2 p2
        refine ⟨b1, ?_, l1 ++ l2, ?_, ?_⟩
        · intro x hx
          rw [List.mem_cons] at hx
          rcases hx with rfl | hx
          · exact a4
          · exact b2 x hx
        · have : expectedLog c.directory c.cwd ((h, vs) :: hist) =
              expectedLog c.directory c.cwd [(h, vs)] ++ expectedLog c.directory c.cwd hist := by
            simp [expectedLog]
          rw [this]
          exact p1.append p2
        · intro F
          rw [t2 F, t1 F, logText_append, List.append_assoc]

theorem Cache.new_consistent (dir : Str) (cwd : List Str) : (Cache.new dir cwd).Consistent := by
  intro k f h
  simp [Cache.new] at h

/-- **C14** (writer) Starting with an empty cache, the cache files contain exactly one line for every cachable function
given to the cache, in the file of its pair of source files, and nothing else; functions marked uncachable are never
written. `log` is the sequence of lines written; it is a rearrangement of the expected one. -/
theorem C14_written_exactly (dir : Str) (cwd : List Str) (hist : History) (c' : Cache)
    (hr : runUpdates (Cache.new dir cwd) hist = .ok c') :
    ∃ log : List (Str × (Str × Str)), log.Perm (expectedLog dir cwd hist) ∧
      (∀ F, (c'.fs.get? F).getD [] = (log.filter (fun e => decide (e.1 = F))).flatMap
        (fun e => e.2.1 ++ (str! ":") ++ e.2.2 ++ (str! "\n"))) ∧
      (∀ F p, (F, p) ∈ log ↔ ∃ l r, cacheFileName dir cwd (l, r) = .ok F ∧
        ∃ x ∈ hist, ∃ v ∈ x.2, (x.1 v).cachable = true ∧ (x.1 v).files .left = l ∧ (x.1 v).files .right = r ∧
          ((x.1 v).names .left, (x.1 v).names .right) = p) := by
  obtain ⟨_, hk, log, hp, ht⟩ := runUpdates_spec hist _ c' (Cache.new_consistent dir cwd) hr
  refine ⟨log, hp, ?_, ?_⟩
  · intro F
    rw [ht F]
    simp [Cache.new, logText, cacheLine]
  · intro F p
    rw [hp.mem_iff]
    simp only [expectedLog, List.mem_flatMap, List.mem_map, List.mem_filter, Prod.mk.injEq]
    constructor
    · rintro ⟨x, hx, v, ⟨hv, hc⟩, hF, he⟩
      obtain ⟨F', hF'⟩ := hk x hx v hv hc
      refine ⟨_, _, ?_, x, hx, v, hv, hc, rfl, rfl, he⟩
      have : F' = F := by
        rw [← hF]; unfold cacheName
        have e : cacheFileName (Cache.new dir cwd).directory (Cache.new dir cwd).cwd (x.1 v).filesKey = .ok F' := hF'
        simp only [Cache.new] at e ⊢
        rw [e]
      rw [← this]
      exact hF'
    · rintro ⟨l, r, hF, x, hx, v, hv, hc, rfl, rfl, he⟩
      refine ⟨x, hx, v, ⟨hv, hc⟩, ?_, he⟩
      have e : cacheFileName (Cache.new dir cwd).directory (Cache.new dir cwd).cwd (x.1 v).filesKey = .ok F := hF
      unfold cacheName
      simp only [Cache.new] at e ⊢
      rw [e]

/-! ### Reading -/

theorem splitFirst_append {c : Char} (a b : Str) (h : c ∉ a) : splitFirst c (a ++ c :: b) = (a, b) := by
  induction a with
  | nil => simp [splitFirst]
  | cons x a ih =>
    simp only [List.mem_cons, not_or] at h
    rw [List.cons_append, splitFirst, if_neg (Ne.symm h.1), ih h.2]

theorem readPairs_lines (ps : List (Str × Str)) (h : ∀ p ∈ ps, ':' ∉ p.1 ∧ '\n' ∉ p.1 ∧ '\n' ∉ p.2) :
    readPairs (ps.flatMap cacheLine) = ps ++ [([], [])] := by
  induction ps with
  | nil => simp [readPairs, splitChar, splitFirst]
  | cons p ps ih =>
    have hp := h p (by simp)
    rw [List.flatMap_cons]
    have : cacheLine p ++ ps.flatMap cacheLine = (p.1 ++ ':' :: p.2) ++ '\n' :: ps.flatMap cacheLine := by
      simp [cacheLine]
    rw [this]
    unfold readPairs at ih ⊢
    rw [splitChar_append '\n' _ _ (by simp [hp.2.1, hp.2.2]), List.map_cons, ih (fun q hq => h q (by simp [hq])),
      splitFirst_append _ _ hp.1]
    rfl

/-- **C15** as stated: a pair of functions is treated as cached by the engine iff it has been written for the same pair of
source files. -/
def C15_statement : Prop :=
  ∀ (dir : Str) (cwd : List Str) (hist : History) (c' : Cache), GoodNames hist →
    runUpdates (Cache.new dir cwd) hist = .ok c' →
    ∀ (l r : Str) (p : Str × Str), GoodName p.1 → GoodName p.2 →
      (isCached dir c'.fs l r p = true ↔ Written hist l r p)

theorem relpath_head {cwd : List Str} {p start a : Str} (hp : p.head? = some '/') (hd : '$' ∉ p)
    (h : relpath cwd p start = .ok a) : ∃ x, (replaceChar '/' '$' a).head? = some x ∧ x ≠ '$' := by
  unfold relpath at h
  have hne : p ≠ [] := by rintro rfl; simp at hp
  rw [if_neg hne] at h
  simp only at h
  cases h
  have hcomp : ∀ w ∈ absComps cwd p, w ≠ [] ∧ '/' ∉ w ∧ '$' ∉ w := by
    intro w hw
    unfold absComps at hw
    rw [if_pos hp] at hw
    rcases mem_foldl_normStep hw with hw | ⟨hw, hw'⟩
    · simp at hw
    · have := mem_splitChar hw
      exact ⟨hw', this.1, fun hh => hd (this.2 _ hh)⟩
  split
  · exact ⟨'.', rfl, by decide⟩
  · next hrel =>
    have hall : ∀ w ∈ List.replicate ((absComps cwd start).length - commonLen (absComps cwd start) (absComps cwd p)) (str! "..")
        ++ (absComps cwd p).drop (commonLen (absComps cwd start) (absComps cwd p)), w ≠ [] ∧ '/' ∉ w ∧ '$' ∉ w := by
      intro w hw
      rw [List.mem_append] at hw
      rcases hw with hw | hw
      · rw [(List.mem_replicate.1 hw).2]; decide
      · exact hcomp w (List.mem_of_mem_drop hw)
    generalize List.replicate ((absComps cwd start).length - commonLen (absComps cwd start) (absComps cwd p)) (str! "..")
        ++ (absComps cwd p).drop (commonLen (absComps cwd start) (absComps cwd p)) = rel at hall hrel
    cases rel with
    | nil => exact absurd rfl hrel
    | cons w ws =>
      have hw := hall w (by simp)
      have hh := joinChar_head w ws hw.1
      cases w with
      | nil => exact absurd rfl hw.1
      | cons x w =>
        simp only [List.head?_cons] at hh
        refine ⟨x, ?_, fun hx => hw.2.2 (by rw [hx]; simp)⟩
        unfold replaceChar
        rw [List.head?_map, hh]
        have : x ≠ '/' := fun hx => hw.2.1 (by rw [hx]; simp)
        simp [this]

/-- **C15** (negative result, for all absolute paths without `$`) If the left source files of all cached functions are
absolute paths, as debug information records them, the engine finds nothing of what has been written: the writer names
cache files by paths relative to the common prefix, the reader by full paths. -/
theorem C15_absolute_paths_never_cached (dir : Str) (cwd : List Str) (hist : History) (c' : Cache)
    (hfiles : FilesAre (fun l _ => l.head? = some '/' ∧ '$' ∉ l) hist)
    (hr : runUpdates (Cache.new dir cwd) hist = .ok c') (l r : Str) (hl : l.head? = some '/') (p : Str × Str)
    (hp : p.1 ≠ []) : isCached dir c'.fs l r p = false := by
  obtain ⟨log, _, ht, hm⟩ := C14_written_exactly dir cwd hist c' hr
  unfold isCached
  cases hg : c'.fs.get? (readerFileName dir l r) with
  | none => rfl
  | some text =>
    simp only
    have htext := ht (readerFileName dir l r)
    rw [hg] at htext
    have hnone : log.filter (fun e => decide (e.1 = readerFileName dir l r)) = [] := by
      rw [List.filter_eq_nil_iff]
      rintro ⟨F, q⟩ he hF
      simp only [decide_eq_true_eq] at hF
      obtain ⟨l', r', hc, x, hx, v, hv, _, h1, h2, _⟩ := (hm F q).1 he
      obtain ⟨l1, r1, e1, e2, hh, hd⟩ := hfiles x hx v hv
      rw [← h1, ← h2, e1, e2] at hc
      unfold cacheFileName at hc
      simp only at hc
      cases ha : relpath cwd l1 (commonPrefix l1 r1) with
      | error e => rw [ha] at hc; simp at hc
      | ok a =>
        rw [ha] at hc
        simp only at hc
        cases hb : relpath cwd r1 (commonPrefix l1 r1) with
        | error e => rw [hb] at hc; simp at hc
        | ok b =>
          rw [hb] at hc
          simp only [Except.ok.injEq] at hc
          rw [hF] at hc
          unfold readerFileName at hc
          have hc' := List.append_cancel_left hc
          simp only [List.cons.injEq, true_and] at hc'
          obtain ⟨x, hx, hne⟩ := relpath_head hh hd ha
          cases hra : replaceChar '/' '$' a with
          | nil => rw [hra] at hx; simp at hx
          | cons y ys =>
            rw [hra] at hx hc'
            simp only [List.head?_cons, Option.some.injEq] at hx
            subst hx
            cases l with
            | nil => simp at hl
            | cons z zs =>
              simp only [List.head?_cons, Option.some.injEq] at hl
              subst hl
              simp only [replaceChar, List.map_cons, if_true, List.cons_append, List.cons.injEq] at hc'
              exact hne hc'.1
    rw [hnone] at htext
    simp only [Option.getD_some, List.flatMap_nil] at htext
    subst htext
    simp only [readPairs, splitChar, List.map_cons, List.map_nil, splitFirst, List.mem_singleton, decide_eq_false_iff_not]
    rintro rfl
    exact hp rfl

/-! A small history: one equal function in `/p/old/a.c` and `/p/new/a.c`. -/
namespace CacheEx

def vertex : Vertex :=
  { names := fun _ => str! "f", result := .equal
    files := fun s => match s with | .left => some (str! "/p/old/a.c") | .right => some (str! "/p/new/a.c") }

def hist : History := [(fun _ => vertex, [0])]

def cache : Cache :=
  { directory := str! "/tmp/c", cwd := []
    cacheMap := [((some (str! "/p/old/a.c"), some (str! "/p/new/a.c")), str! "/tmp/c/old$a.c:new$a.c")]
    fs := [(str! "/tmp/c/old$a.c:new$a.c", str! "f:f\n")] }

theorem runs : runUpdates (Cache.new (str! "/tmp/c") []) hist = .ok cache := by rfl

theorem good : GoodNames hist := by
  intro x hx v _ s
  simp only [hist, List.mem_singleton] at hx
  subst hx
  exact ⟨by simp [vertex], by simp [vertex], by simp [vertex]⟩

theorem absolute : FilesAre (fun l _ => l.head? = some '/' ∧ '$' ∉ l) hist := by
  intro x hx v _
  simp only [hist, List.mem_singleton] at hx
  subst hx
  exact ⟨str! "/p/old/a.c", str! "/p/new/a.c", rfl, rfl, rfl, by decide⟩

theorem written : Written hist (str! "/p/old/a.c") (str! "/p/new/a.c") (str! "f", str! "f") :=
  ⟨_, List.mem_singleton.2 rfl, 0, by simp, rfl, rfl, rfl, rfl⟩

end CacheEx

/-- The code violates C15: the function pair of the example is written, but not read back. -/
theorem C15_fails : ¬ C15_statement := by
  intro hs
  have h1 := hs _ _ _ _ CacheEx.good CacheEx.runs (str! "/p/old/a.c") (str! "/p/new/a.c") (str! "f", str! "f")
    (by decide) (by decide)
  have h2 := C15_absolute_paths_never_cached _ _ _ _ CacheEx.absolute CacheEx.runs (str! "/p/old/a.c")
    (str! "/p/new/a.c") rfl (str! "f", str! "f") (by decide)
  rw [h1.2 CacheEx.written] at h2
  cases h2

/-- **C15** (partial) If the writer's and the reader's names agree for all source files involved, and these contain
neither `$` nor `:`, a pair is treated as cached iff it has been written for the same source files. Missing: the
agreement of the names, which fails for absolute paths; `plain_relative_agree` shows when it holds. -/
theorem C15_round_trip_partial (dir : Str) (cwd : List Str) (hist : History) (c' : Cache) (hgood : GoodNames hist)
    (hfiles : FilesAre (fun l r => ('$' ∉ l ∧ ':' ∉ l) ∧ ('$' ∉ r ∧ ':' ∉ r) ∧
      cacheFileName dir cwd (some l, some r) = .ok (readerFileName dir l r)) hist)
    (hr : runUpdates (Cache.new dir cwd) hist = .ok c') (l r : Str) (hl : '$' ∉ l ∧ ':' ∉ l) (hr' : '$' ∉ r ∧ ':' ∉ r)
    (p : Str × Str) (hp : GoodName p.1) :
    isCached dir c'.fs l r p = true ↔ Written hist l r p := by
  obtain ⟨log, _, ht, hm⟩ := C14_written_exactly dir cwd hist c' hr
  have hmem : ∀ q, (readerFileName dir l r, q) ∈ log ↔ Written hist l r q := by
    intro q
    rw [hm]
    constructor
    · rintro ⟨l', r', hc, x, hx, v, hv, hcv, h1, h2, he⟩
      obtain ⟨l1, r1, e1, e2, hd1, hd2, hn⟩ := hfiles x hx v hv
      rw [← h1, ← h2, e1, e2, hn] at hc
      have hc' := Except.ok.inj hc
      unfold readerFileName at hc'
      have hc2 := List.append_cancel_left hc'
      simp only [List.cons.injEq, true_and] at hc2
      obtain ⟨q1, q2⟩ := append_sep_inj (not_mem_replaceChar _ hd1.2 (by decide)) (not_mem_replaceChar _ hl.2 (by decide)) hc2
      have q1' := replaceChar_inj _ _ hd1.1 hl.1 q1
      have q2' := replaceChar_inj _ _ hd2.1 hr'.1 q2
      subst q1' q2'
      exact ⟨x, hx, v, hv, hcv, e1, e2, he⟩
    · rintro ⟨x, hx, v, hv, hcv, h1, h2, he⟩
      obtain ⟨l1, r1, e1, e2, _, _, hn⟩ := hfiles x hx v hv
      rw [h1] at e1; rw [h2] at e2
      cases e1; cases e2
      exact ⟨_, _, hn, x, hx, v, hv, hcv, h1, h2, he⟩
  have hgoodlog : ∀ e ∈ log, ':' ∉ e.2.1 ∧ '\n' ∉ e.2.1 ∧ '\n' ∉ e.2.2 := by
    rintro ⟨F, q⟩ he
    obtain ⟨_, _, _, x, hx, v, hv, _, _, _, rfl⟩ := (hm F q).1 he
    have a := hgood x hx v hv .left
    have b := hgood x hx v hv .right
    exact ⟨a.2.1, a.2.2, b.2.2⟩
  have htext := ht (readerFileName dir l r)
  have hlines : (log.filter (fun e => decide (e.1 = readerFileName dir l r))).flatMap
      (fun e => e.2.1 ++ (str! ":") ++ e.2.2 ++ (str! "\n")) =
      ((log.filter (fun e => decide (e.1 = readerFileName dir l r))).map Prod.snd).flatMap cacheLine := by
    rw [List.flatMap_map]
    simp [cacheLine]
  rw [hlines] at htext
  have hread := readPairs_lines ((log.filter (fun e => decide (e.1 = readerFileName dir l r))).map Prod.snd) (by
    intro q hq
    obtain ⟨e, he, rfl⟩ := List.mem_map.1 hq
    exact hgoodlog e (List.mem_filter.1 he).1)
  have hin : p ∈ (log.filter (fun e => decide (e.1 = readerFileName dir l r))).map Prod.snd ↔ Written hist l r p := by
    rw [← hmem]
    simp only [List.mem_map, List.mem_filter, decide_eq_true_eq]
    constructor
    · rintro ⟨⟨F, q⟩, ⟨he, hF⟩, rfl⟩; simp only at hF; rw [← hF]; exact he
    · intro h; exact ⟨_, ⟨h, rfl⟩, rfl⟩
  have hpe : p ≠ ([], []) := by rintro rfl; exact hp.1 rfl
  unfold isCached
  cases hg : c'.fs.get? (readerFileName dir l r) with
  | none =>
    rw [hg] at htext
    simp only [Option.getD_none] at htext
    rw [← htext] at hread
    simp only [Bool.false_eq_true, false_iff]
    rw [← hin]
    have hl1 := congrArg List.length hread
    simp only [readPairs, splitChar, List.map_cons, List.map_nil, List.length_cons, List.length_nil, List.length_append] at hl1
    have : ((log.filter (fun e => decide (e.1 = readerFileName dir l r))).map Prod.snd).length = 0 := by omega
    rw [List.length_eq_zero_iff] at this
    rw [this]; simp
  | some text =>
    rw [hg] at htext
    simp only [Option.getD_some] at htext
    subst htext
    simp only [decide_eq_true_eq]
    rw [hread, List.mem_append, hin]
    constructor
    · rintro (h | h)
      · exact h
      · exact absurd (List.mem_singleton.1 h) hpe
    · exact Or.inl

/-- The names agree for normalised relative paths that start with different characters. -/
theorem plain_relative_agree (dir : Str) (cwd ls rs : List Str) (hl : ls ≠ []) (hr : rs ≠ [])
    (hln : ∀ w ∈ ls, NormalComp w) (hrn : ∀ w ∈ rs, NormalComp w)
    (hne : (joinChar '/' ls).head? ≠ (joinChar '/' rs).head?) :
    cacheFileName dir cwd (some (joinChar '/' ls), some (joinChar '/' rs)) =
      .ok (readerFileName dir (joinChar '/' ls) (joinChar '/' rs)) := by
  have hpre : commonPrefix (joinChar '/' ls) (joinChar '/' rs) = [] := by
    unfold commonPrefix
    generalize joinChar '/' ls = a at hne
    generalize joinChar '/' rs = b at hne
    cases a with
    | nil => rfl
    | cons x a =>
      cases b with
      | nil => simp [commonLen]
      | cons y b =>
        simp only [List.head?_cons, ne_eq, Option.some.injEq] at hne
        simp [commonLen, hne]
  have hrel : ∀ ws : List Str, ws ≠ [] → (∀ w ∈ ws, NormalComp w) → relpath cwd (joinChar '/' ws) [] = .ok (joinChar '/' ws) := by
    intro ws hne hn
    unfold relpath
    rw [if_neg, absComps_empty, absComps_rel cwd ws hne hn]
    · simp only [commonLen_append]
      simp [hne]
    · intro hh
      cases ws with
      | nil => exact hne rfl
      | cons w ws =>
        have h1 := joinChar_head w ws (hn w (by simp)).1
        rw [hh] at h1
        cases w with
        | nil => exact (hn [] (by simp)).1 rfl
        | cons x w => simp at h1
  unfold cacheFileName
  simp only [hpre, hrel ls hl hln, hrel rs hr hrn, readerFileName]

/-- The hypotheses of the partial theorem are met by relative paths `old/a.c` and `new/a.c`. -/
example : cacheFileName (str! "/tmp/c") [str! "home"] (some (str! "old/a.c"), some (str! "new/a.c")) =
    .ok (readerFileName (str! "/tmp/c") (str! "old/a.c") (str! "new/a.c")) :=
  plain_relative_agree _ _ [str! "old", str! "a.c"] [str! "new", str! "a.c"] (by decide) (by decide)
    (by decide) (by decide) (by decide)

/-! ### C16: file names -/

/-- **C16** as stated: different pairs of source files use different cache files. -/
def C16_statement : Prop :=
  ∀ (dir : Str) (cwd : List Str) (l r l' r' : Str) (F : Str),
    cacheFileName dir cwd (some l, some r) = .ok F → cacheFileName dir cwd (some l', some r') = .ok F →
    l = l' ∧ r = r'

/-- Every pair consisting of twice the same absolute file is stored in one and the same file, `.:.`. -/
theorem C16_same_file_collision (dir : Str) (cwd ws : List Str) :
    cacheFileName dir cwd (some (absPath ws), some (absPath ws)) = .ok (dir ++ str! "/.:.") := by
  have hpre : commonPrefix (absPath ws) (absPath ws) = absPath ws := by
    unfold commonPrefix
    have := commonLen_append (absPath ws) []
    rw [List.append_nil] at this
    rw [this, List.take_length]
  have : relpath cwd (absPath ws) (absPath ws) = .ok (str! ".") := by
    unfold relpath
    have h := commonLen_append (absComps cwd (absPath ws)) []
    rw [List.append_nil] at h
    rw [if_neg (by simp [absPath])]
    simp [h]
  unfold cacheFileName
  simp only [hpre, this]
  simp [replaceChar]

/-- The code violates C16, e.g. for two system headers used by both versions. -/
theorem C16_fails : ¬ C16_statement := by
  intro hs
  have h1 := C16_same_file_collision [] [] [str! "usr", str! "a.h"]
  have h2 := C16_same_file_collision [] [] [str! "usr", str! "b.h"]
  exact absurd (hs _ _ _ _ _ _ _ h1 h2).1 (by decide)

/-- A second kind of collision: the common prefix is not part of the name. -/
example : cacheFileName [] [] (some (str! "/p/old/x.c"), some (str! "/p/new/x.c")) =
    cacheFileName [] [] (some (str! "/q/old/x.c"), some (str! "/q/new/x.c")) := by rfl

theorem relpath_absPath_inj (cwd : List Str) (start : Str) (ws ws' : List Str) (a : Str)
    (h : ∀ w ∈ ws, NormalComp w) (h' : ∀ w ∈ ws', NormalComp w)
    (e : relpath cwd (absPath ws) start = .ok a) (e' : relpath cwd (absPath ws') start = .ok a) : ws = ws' := by
  unfold relpath at e e'
  rw [if_neg (by simp [absPath]), absComps_absPath cwd ws h] at e
  rw [if_neg (by simp [absPath]), absComps_absPath cwd ws' h'] at e'
  simp only [Except.ok.injEq] at e e'
  generalize absComps cwd start = sl at e e'
  -- the list of components is determined by the result
  have key : ∀ rel rel' : List Str, (∀ w ∈ rel, w ≠ [] ∧ w ≠ str! "." ∧ '/' ∉ w) → (∀ w ∈ rel', w ≠ [] ∧ w ≠ str! "." ∧ '/' ∉ w) →
      (if rel = [] then str! "." else joinChar '/' rel) = a → (if rel' = [] then str! "." else joinChar '/' rel') = a → rel = rel' := by
    intro rel rel' hr hr' ha ha'
    have nd : ∀ r : List Str, r ≠ [] → (∀ w ∈ r, w ≠ [] ∧ w ≠ str! "." ∧ '/' ∉ w) → joinChar '/' r ≠ str! "." := by
      intro r hne hn hh
      have := splitChar_join '/' r hne (fun w hw => (hn w hw).2.2)
      rw [hh] at this
      have h2 : splitChar '/' (str! ".") = [str! "."] := by decide
      rw [h2] at this
      exact (hn (str! ".") (by rw [← this]; simp)).2.1 rfl
    by_cases c : rel = [] <;> by_cases c' : rel' = []
    · rw [c, c']
    · rw [if_pos c] at ha; rw [if_neg c'] at ha'
      exact absurd (ha'.trans ha.symm) (nd rel' c' hr')
    · rw [if_neg c] at ha; rw [if_pos c'] at ha'
      exact absurd (ha.trans ha'.symm) (nd rel c hr)
    · rw [if_neg c] at ha; rw [if_neg c'] at ha'
      have s1 := splitChar_join '/' rel c (fun w hw => (hr w hw).2.2)
      have s2 := splitChar_join '/' rel' c' (fun w hw => (hr' w hw).2.2)
      rw [← s1, ← s2, ha, ha']
  have hn : ∀ (us : List Str), (∀ w ∈ us, NormalComp w) → ∀ w ∈ List.replicate (sl.length - commonLen sl us) (str! "..") ++ us.drop (commonLen sl us),
      w ≠ [] ∧ w ≠ str! "." ∧ '/' ∉ w := by
    intro us hu w hw
    rw [List.mem_append] at hw
    rcases hw with hw | hw
    · rw [(List.mem_replicate.1 hw).2]; decide
    · have := hu w (List.mem_of_mem_drop hw)
      exact ⟨this.1, this.2.1, this.2.2.2⟩
  have heq := key _ _ (hn ws h) (hn ws' h') e e'
  -- the number of `..` is determined
  have hcnt : ∀ us : List Str, (∀ w ∈ us, NormalComp w) →
      (List.replicate (sl.length - commonLen sl us) (str! "..") ++ us.drop (commonLen sl us)).count (str! "..") =
        sl.length - commonLen sl us := by
    intro us hu
    rw [List.count_append, List.count_replicate_self]
    have : (us.drop (commonLen sl us)).count (str! "..") = 0 := by
      rw [List.count_eq_zero]
      intro hw
      exact (hu _ (List.mem_of_mem_drop hw)).2.2.1 rfl
    omega
  have hc := congrArg (List.count (str! "..")) heq
  rw [hcnt ws h, hcnt ws' h'] at hc
  have l1 := commonLen_le sl ws
  have l2 := commonLen_le sl ws'
  have hi : commonLen sl ws = commonLen sl ws' := by omega
  rw [hi] at heq
  have hdrop := List.append_cancel_left heq
  have t1 := commonLen_take sl ws
  have t2 := commonLen_take sl ws'
  rw [hi] at t1
  calc ws = ws.take (commonLen sl ws') ++ ws.drop (commonLen sl ws') := (List.take_append_drop _ _).symm
    _ = ws'.take (commonLen sl ws') ++ ws'.drop (commonLen sl ws') := by rw [hdrop, ← t1, t2]
    _ = ws' := List.take_append_drop _ _

theorem joinChar_subset {c x : Char} {ws : List Str} (h : x ∈ joinChar c ws) : x = c ∨ ∃ w ∈ ws, x ∈ w := by
  induction ws with
  | nil => simp [joinChar] at h
  | cons w ws ih =>
    cases ws with
    | nil => exact Or.inr ⟨w, by simp, h⟩
    | cons w' ws =>
      rw [joinChar, List.mem_append, List.mem_cons] at h
      rcases h with h | h | h
      · exact Or.inr ⟨w, by simp, h⟩
      · exact Or.inl h
      · rcases ih h with h | ⟨v, hv, hx⟩
        · exact Or.inl h
        · exact Or.inr ⟨v, List.mem_cons_of_mem _ hv, hx⟩

theorem relpath_absPath_chars {cwd : List Str} {start : Str} {ws : List Str} {a : Str} (h : ∀ w ∈ ws, NormalComp w)
    (e : relpath cwd (absPath ws) start = .ok a) {x : Char} (hx : ∀ w ∈ ws, x ∉ w) (h1 : x ≠ '.') (h2 : x ≠ '/') : x ∉ a := by
  unfold relpath at e
  rw [if_neg (by simp [absPath]), absComps_absPath cwd ws h] at e
  simp only [Except.ok.injEq] at e
  subst e
  split
  · simpa using h1
  · intro hh
    rcases joinChar_subset hh with hh | ⟨w, hw, hxw⟩
    · exact h2 hh
    · rw [List.mem_append] at hw
      rcases hw with hw | hw
      · rw [(List.mem_replicate.1 hw).2] at hxw
        simp at hxw
        exact h1 hxw
      · exact hx w (List.mem_of_mem_drop hw) hxw

/-- **C16** (partial) Two pairs of normalised absolute paths without `$` and `:` that have the same common prefix use
different cache files unless they are the same pair. Missing: pairs with different common prefixes. -/
theorem C16_same_prefix_injective_partial (dir : Str) (cwd : List Str) (l r l' r' : List Str) (F : Str)
    (hl : ∀ w ∈ l, NormalComp w ∧ '$' ∉ w ∧ ':' ∉ w) (hr : ∀ w ∈ r, NormalComp w ∧ '$' ∉ w ∧ ':' ∉ w)
    (hl' : ∀ w ∈ l', NormalComp w ∧ '$' ∉ w ∧ ':' ∉ w) (hr' : ∀ w ∈ r', NormalComp w ∧ '$' ∉ w ∧ ':' ∉ w)
    (hpre : commonPrefix (absPath l) (absPath r) = commonPrefix (absPath l') (absPath r'))
    (h1 : cacheFileName dir cwd (some (absPath l), some (absPath r)) = .ok F)
    (h2 : cacheFileName dir cwd (some (absPath l'), some (absPath r')) = .ok F) : l = l' ∧ r = r' := by
  unfold cacheFileName at h1 h2
  simp only at h1 h2
  rw [← hpre] at h2
  generalize commonPrefix (absPath l) (absPath r) = pre at h1 h2
  cases a : relpath cwd (absPath l) pre with
  | error e => rw [a] at h1; simp at h1
  | ok x =>
    cases b : relpath cwd (absPath r) pre with
    | error e => rw [a, b] at h1; simp at h1
    | ok y =>
      cases a' : relpath cwd (absPath l') pre with
      | error e => rw [a'] at h2; simp at h2
      | ok x' =>
        cases b' : relpath cwd (absPath r') pre with
        | error e => rw [a', b'] at h2; simp at h2
        | ok y' =>
          rw [a, b] at h1
          rw [a', b'] at h2
          simp only [Except.ok.injEq] at h1 h2
          rw [← h2] at h1
          have h3 := List.append_cancel_left h1
          simp only [List.cons.injEq, true_and] at h3
          have cx := relpath_absPath_chars (fun w hw => (hl w hw).1) a (x := ':') (fun w hw => (hl w hw).2.2) (by decide) (by decide)
          have cx' := relpath_absPath_chars (fun w hw => (hl' w hw).1) a' (x := ':') (fun w hw => (hl' w hw).2.2) (by decide) (by decide)
          have dx := relpath_absPath_chars (fun w hw => (hl w hw).1) a (x := '$') (fun w hw => (hl w hw).2.1) (by decide) (by decide)
          have dx' := relpath_absPath_chars (fun w hw => (hl' w hw).1) a' (x := '$') (fun w hw => (hl' w hw).2.1) (by decide) (by decide)
          have dy := relpath_absPath_chars (fun w hw => (hr w hw).1) b (x := '$') (fun w hw => (hr w hw).2.1) (by decide) (by decide)
          have dy' := relpath_absPath_chars (fun w hw => (hr' w hw).1) b' (x := '$') (fun w hw => (hr' w hw).2.1) (by decide) (by decide)
          obtain ⟨q1, q2⟩ := append_sep_inj (not_mem_replaceChar _ cx (by decide)) (not_mem_replaceChar _ cx' (by decide)) h3
          have e1 := replaceChar_inj _ _ dx dx' q1
          have e2 := replaceChar_inj _ _ dy dy' q2
          subst e1 e2
          exact ⟨relpath_absPath_inj cwd pre l l' x (fun w hw => (hl w hw).1) (fun w hw => (hl' w hw).1) a a',
            relpath_absPath_inj cwd pre r r' y (fun w hw => (hr w hw).1) (fun w hw => (hr' w hw).1) b b'⟩

/-- The hypotheses are met by two files of the same two trees. -/
example : commonPrefix (absPath [str! "p", str! "old", str! "x.c"]) (absPath [str! "p", str! "new", str! "x.c"]) =
    commonPrefix (absPath [str! "p", str! "old", str! "y.c"]) (absPath [str! "p", str! "new", str! "y.c"]) := by rfl

/-- A name that the engine uses identifies the pair of source files. -/
theorem C16_reader_injective (dir l r l' r' : Str) (hl : '$' ∉ l ∧ ':' ∉ l) (hr : '$' ∉ r) (hl' : '$' ∉ l' ∧ ':' ∉ l')
    (hr' : '$' ∉ r') (h : readerFileName dir l r = readerFileName dir l' r') : l = l' ∧ r = r' := by
  unfold readerFileName at h
  have h2 := List.append_cancel_left h
  simp only [List.cons.injEq, true_and] at h2
  obtain ⟨q1, q2⟩ := append_sep_inj (not_mem_replaceChar _ hl.2 (by decide)) (not_mem_replaceChar _ hl'.2 (by decide)) h2
  exact ⟨replaceChar_inj _ _ hl.1 hl'.1 q1, replaceChar_inj _ _ hr hr' q2⟩

end DK
