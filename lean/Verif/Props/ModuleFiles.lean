import Verif.Spec.ModuleFiles
import Verif.Lemmas.Snapshot

/-! Properties C145–C147: source files in a snapshot, text of moved modules, definitions in the text of a module. -/

set_option autoImplicit false

namespace DK
open Spec

/-! ### Text -/

private theorem startsWith_iffM {s p : Str} : startsWith s p = true ↔ p <+: s := by
  unfold startsWith; exact List.isPrefixOf_iff_prefix

private theorem prefix_occurs {p a t : Str} (h : p <+: a ++ t) (hl : p.length ≤ a.length) : Occurs p a := by
  have : p <+: a := List.prefix_of_prefix_length_le h (List.prefix_append a t) hl
  obtain ⟨r, hr⟩ := this
  exact ⟨[], r, by simp [hr]⟩

private theorem occurs_cons {p a : Str} {c : Char} (h : Occurs p a) : Occurs p (c :: a) := by
  obtain ⟨x, y, rfl⟩ := h
  exact ⟨c :: x, y, by simp⟩

private theorem replaceFrom_skip (p q : Str) : ∀ (k : Nat) (s : Str), replaceFrom p q k s = replaceFrom p q 0 (s.drop k) := by
  intro k
  induction k with
  | zero => intro s; simp
  | succ k ih =>
    intro s
    cases s with
    | nil => simp [replaceFrom]
    | cons c cs => rw [replaceFrom, ih]; simp

private theorem replaceFrom_none {p q : Str} : ∀ {s : Str}, ¬ Occurs p s → replaceFrom p q 0 s = s := by
  intro s
  induction s with
  | nil => intro _; simp [replaceFrom]
  | cons c cs ih =>
    intro h
    rw [replaceFrom, if_neg, ih (fun h' => h (occurs_cons h'))]
    intro hs
    rw [startsWith_iffM] at hs
    obtain ⟨r, hr⟩ := hs
    exact h ⟨[], r, by simp [hr]⟩

private theorem replaceFrom_step {p q : Str} (hp : p ≠ []) : ∀ {b s : Str}, ¬ Occurs p (b ++ p.dropLast) →
    replaceFrom p q 0 (b ++ p ++ s) = b ++ q ++ replaceFrom p q 0 s := by
  intro b
  induction b with
  | nil =>
    intro s _
    cases p with
    | nil => exact absurd rfl hp
    | cons c p =>
      simp only [List.nil_append, List.cons_append]
      rw [replaceFrom, if_pos (startsWith_iffM.2 ⟨s, by simp⟩), replaceFrom_skip]
      simp
  | cons c b ih =>
    intro s h
    simp only [List.cons_append]
    rw [replaceFrom, if_neg, ih (fun h' => h (occurs_cons h'))]
    intro hs
    rw [startsWith_iffM] at hs
    apply h
    refine prefix_occurs (t := [p.getLast hp] ++ s) ?_ ?_
    · have e : p.dropLast ++ [p.getLast hp] = p := List.dropLast_append_getLast hp
      rw [List.append_assoc]
      rw [← List.append_assoc p.dropLast, e]
      simpa using hs
    · simp only [List.length_append, List.length_cons, List.length_dropLast]
      omega

private theorem occursIn_iff {p : Str} (hp : p ≠ []) : ∀ {s : Str}, occursIn p s = true ↔ Occurs p s := by
  intro s
  induction s with
  | nil =>
    rw [occursIn, startsWith_iffM]
    constructor
    · rintro ⟨r, hr⟩
      exact ⟨[], r, by simp [hr]⟩
    · rintro ⟨a, b, h⟩
      cases p with
      | nil => exact absurd rfl hp
      | cons x xs => simp at h
  | cons c cs ih =>
    rw [occursIn, Bool.or_eq_true, startsWith_iffM, ih]
    constructor
    · rintro (⟨r, hr⟩ | h)
      · exact ⟨[], r, by simp [hr]⟩
      · exact occurs_cons h
    · rintro ⟨a, b, h⟩
      cases a with
      | nil => exact .inl ⟨b, by simpa using h.symm⟩
      | cons x a =>
        simp only [List.cons_append, List.cons.injEq] at h
        exact .inr ⟨a, b, by simp [h.2]⟩

/-! ### C146: text of moved modules -/

private theorem stripSlashes_root {o : Str} (h1 : o ≠ []) (h2 : o.head? ≠ some '/') (h3 : o.getLast? ≠ some '/') :
    stripSlashes ('/' :: o) = o := by
  unfold stripSlashes
  have e1 : ('/' :: o).dropWhile (· = '/') = o := by
    rw [List.dropWhile_cons_of_pos (by decide)]
    cases o with
    | nil => rfl
    | cons c cs => rw [List.dropWhile_cons_of_neg (by simpa using h2)]
  rw [e1]
  have e2 : o.reverse.dropWhile (· = '/') = o.reverse := by
    cases hr : o.reverse with
    | nil => rfl
    | cons c cs =>
      rw [List.dropWhile_cons_of_neg]
      intro hc
      simp only [decide_eq_true_eq] at hc
      apply h3
      rw [← List.head?_reverse, hr, hc]; rfl
  rw [e2, List.reverse_reverse]

/-- **C146** as stated: when a module is moved into a snapshot, exactly the paths of the source directory in it are
replaced by paths of the snapshot. -/
def C146_statement : Prop :=
  ∀ (old new line : Str), old ≠ [] → new ≠ [] → old.head? ≠ some '/' → new.head? ≠ some '/' →
    old.getLast? ≠ some '/' → new.getLast? ≠ some '/' →
    (¬ Occurs ('/' :: old) line → movedLine ('/' :: old) ('/' :: new) line = line) ∧
    (∀ line', Moved old new line line' → movedLine ('/' :: old) ('/' :: new) line = line')

/-- **C146 (violated)** Names in the code that contain the name of the directory are changed. -/
theorem C146_fails : ¬ C146_statement ∧
    movedLine (str! "/src") (str! "/snap") (str! "  %src = alloca i32\n") = str! "  %snap = alloca i32\n" := by
  constructor
  · intro h
    have := (h (str! "src") (str! "snap") (str! "  %src = alloca i32\n") (by decide) (by decide) (by decide) (by decide)
      (by decide) (by decide)).1 (by rw [← occursIn_iff (by decide)]; decide)
    revert this
    decide
  · decide

/-- **C146 (violated)** The path of a source file whose name contains `constant` is not changed. -/
theorem C146_fails_constant : ¬ C146_statement := by
  intro h
  have := (h (str! "p/src") (str! "snap") (str! "!1 = !DIFile(filename: \"constants.c\", directory: \"/p/src/a\")")
    (by decide) (by decide) (by decide) (by decide) (by decide) (by decide)).2
    (str! "!1 = !DIFile(filename: \"constants.c\", directory: \"/snap/a\")")
    (Moved.path (before := str! "!1 = !DIFile(filename: \"constants.c\", directory: \"") (s := str! "/a\")") (s' := str! "/a\")")
      (by rw [← occursIn_iff (by decide)]; decide) (.rest (by rw [← occursIn_iff (by decide)]; decide)))
  revert this
  decide

/-- **C146 (partial)** In a line without the word `constant`, all paths in the source directory become paths in the
snapshot and the rest of the line stays, if the path of the source directory (without the leading slash) occurs in the
line in such paths only. Missing: see `C146_fails`, `C146_fails_constant`. -/
theorem C146_moved_partial {old new line line' : Str} (h1 : old ≠ []) (h2 : new ≠ [])
    (h3 : old.head? ≠ some '/') (h4 : new.head? ≠ some '/')
    (h5 : old.getLast? ≠ some '/') (h6 : new.getLast? ≠ some '/')
    (hc : ¬ Occurs (str! "constant") line) (hm : Moved old new line line') :
    movedLine ('/' :: old) ('/' :: new) line = line' := by
  unfold movedLine
  rw [if_neg (by rw [occursIn_iff (by decide)]; exact hc), stripSlashes_root h1 h3 h5, stripSlashes_root h2 h4 h6]
  unfold pyReplace
  rw [if_neg h1]
  clear hc
  induction hm with
  | rest h => exact replaceFrom_none h
  | path h _ ih =>
    rename_i before s s' _
    have := replaceFrom_step (q := new) (s := s) h1 (b := before ++ ['/']) (by simpa using h)
    rw [ih] at this
    simpa using this

/-- **C146 (partial)** A line with the word `constant` (such as the definition of a string) stays. -/
theorem C146_constant_partial (old new line : Str) (hc : Occurs (str! "constant") line) : movedLine old new line = line := by
  unfold movedLine
  rw [if_pos ((occursIn_iff (by decide)).2 hc)]

/-- A description of a source file. -/
example : movedLine (str! "/p/src") (str! "/snap") (str! "!1 = !DIFile(filename: \"a.c\", directory: \"/p/src/a\")") =
    str! "!1 = !DIFile(filename: \"a.c\", directory: \"/snap/a\")" :=
  C146_moved_partial (old := str! "p/src") (new := str! "snap") (by decide) (by decide) (by decide) (by decide) (by decide)
    (by decide) (by rw [← occursIn_iff (by decide)]; decide)
    (Moved.path (before := str! "!1 = !DIFile(filename: \"a.c\", directory: \"") (s := str! "/a\")") (s' := str! "/a\")")
      (by rw [← occursIn_iff (by decide)]; decide) (.rest (by rw [← occursIn_iff (by decide)]; decide)))

/-! ### C145: source files in the snapshot -/

private theorem quotedString_of {w t : Str} (hw : '"' ∉ w) : quotedString (' ' :: '"' :: (w ++ '"' :: t)) = some (w, t) := by
  have e1 : (' ' :: '"' :: (w ++ '"' :: t)).dropWhile pySpace = '"' :: (w ++ '"' :: t) := by
    rw [List.dropWhile_cons_of_pos (by decide), List.dropWhile_cons_of_neg (by decide)]
  have e2 : (w ++ '"' :: t).dropWhile (· ≠ '"') = '"' :: t ∧ (w ++ '"' :: t).takeWhile (· ≠ '"') = w := by
    clear e1
    induction w with
    | nil => exact ⟨List.dropWhile_cons_of_neg (by simp), List.takeWhile_cons_of_neg (by simp)⟩
    | cons c w ih =>
      have hc : c ≠ '"' := fun he => hw (by simp [he])
      have := ih (fun h => hw (by simp [h]))
      simp only [List.cons_append]
      rw [List.dropWhile_cons_of_pos (by simpa using hc), List.takeWhile_cons_of_pos (by simpa using hc)]
      exact ⟨this.1, by rw [this.2]⟩
  unfold quotedString
  simp only [e1, e2]

private theorem fileOfLine_skip {t : Str} (r : Str × Str) (ht : (str! "filename") <+: t) (hr : fileHere t = some r) :
    ∀ before : Str, ¬ Occurs (str! "filename:") (before ++ str! "filename") → fileOfLine (before ++ t) = some r := by
  intro before
  induction before with
  | nil =>
    intro _
    cases t with
    | nil => simp at ht
    | cons c cs => rw [List.nil_append, fileOfLine, hr]; rfl
  | cons c b ih =>
    intro h
    rw [List.cons_append, fileOfLine]
    have hn : fileHere (c :: (b ++ t)) = none := by
      unfold fileHere
      rw [if_neg]
      intro hs
      rw [startsWith_iffM] at hs
      obtain ⟨t', rfl⟩ := ht
      exact h (prefix_occurs (t := t') (by simpa using hs) (by simp))
    rw [hn]
    exact ih (fun h' => h (occurs_cons h'))

private theorem fileOfLine_describes {line name dir : Str} (h : DescribesFile line name dir) :
    fileOfLine line = some (name, dir) := by
  obtain ⟨h1, h2, before, after, rfl, h3⟩ := h
  have := fileOfLine_skip (name, dir)
    (t := str! "filename: \"" ++ name ++ str! "\", directory: \"" ++ dir ++ str! "\"" ++ after)
    ⟨str! ": \"" ++ name ++ str! "\", directory: \"" ++ dir ++ str! "\"" ++ after, by simp⟩ ?_ before h3
  · simpa using this
  · unfold fileHere
    rw [if_pos (startsWith_iffM.2 ⟨str! " \"" ++ name ++ str! "\", directory: \"" ++ dir ++ str! "\"" ++ after, by simp⟩)]
    have e : (str! "filename: \"" ++ name ++ str! "\", directory: \"" ++ dir ++ str! "\"" ++ after).drop 9 =
        ' ' :: '"' :: (name ++ '"' :: (str! ", directory: \"" ++ dir ++ str! "\"" ++ after)) := by simp
    rw [e, quotedString_of h1]
    simp only [Option.bind_some]
    unfold directoryPart
    rw [if_pos (startsWith_iffM.2 ⟨str! " \"" ++ dir ++ str! "\"" ++ after, by simp⟩)]
    have e : (str! ", directory: \"" ++ dir ++ str! "\"" ++ after).drop 12 = ' ' :: '"' :: (dir ++ '"' :: after) := by simp
    rw [e, quotedString_of h2]
    rfl

private theorem fileOfLine_none {line : Str} (h : ¬ Occurs (str! "filename:") line) : fileOfLine line = none := by
  induction line with
  | nil => rfl
  | cons c cs ih =>
    rw [fileOfLine, ih (fun h' => h (occurs_cons h'))]
    have hn : fileHere (c :: cs) = none := by
      unfold fileHere
      rw [if_neg]
      intro hs
      obtain ⟨r, hr⟩ := startsWith_iffM.1 hs
      exact h ⟨[], r, by simp [← hr]⟩
    rw [hn]
    rfl

private theorem endsWith_iffM {s e : Str} : endsWith s e = true ↔ EndsIn s e := by
  unfold endsWith EndsIn
  rw [List.isSuffixOf_iff_suffix]
  constructor
  · rintro ⟨a, h⟩; exact ⟨a, h.symm⟩
  · rintro ⟨a, h⟩; exact ⟨a, h.symm⟩

private theorem includedOfLine_describes {line name dir p : Str} (h : DescribesFile line name dir) :
    includedOfLine line = some p ↔ (EndsIn name (str! ".c") ∨ EndsIn name (str! ".h")) ∧ p = pathJoin dir name := by
  unfold includedOfLine
  rw [fileOfLine_describes h, Option.bind_some]
  by_cases hx : EndsIn name (str! ".c") ∨ EndsIn name (str! ".h")
  · rw [if_pos (by rw [Bool.or_eq_true, endsWith_iffM, endsWith_iffM]; exact hx.symm)]
    simp only [Option.some.injEq]
    exact ⟨fun e => ⟨hx, e.symm⟩, fun e => e.2.symm⟩
  · rw [if_neg (by rw [Bool.or_eq_true, endsWith_iffM, endsWith_iffM]; exact fun h => hx h.symm)]
    simp [hx]

/-- **C145 (partial)** The sources found in a module printed by LLVM are exactly the C sources and headers that it
describes. -/
theorem C145_included_partial {lines : List Str} (hp : PrintedFiles lines) (p : Str) :
    p ∈ includedSources lines ↔ Includes lines p := by
  unfold includedSources
  rw [List.mem_filterMap]
  constructor
  · rintro ⟨line, hl, h⟩
    rcases hp line hl with ⟨name, dir, hd⟩ | hn
    · obtain ⟨h1, h2⟩ := (includedOfLine_describes hd).1 h
      exact ⟨line, hl, name, dir, hd, h1, h2⟩
    · unfold includedOfLine at h
      rw [fileOfLine_none hn] at h
      cases h
  · rintro ⟨line, hl, name, dir, hd, h1, h2⟩
    exact ⟨line, hl, (includedOfLine_describes hd).2 ⟨h1, h2⟩⟩

/-- **C145** as stated: copying succeeds, then all described sources in the source directory are in the snapshot with their
contents, and files outside of the snapshot do not change. -/
def C145_statement : Prop :=
  ∀ (cwd : List Str) (src dst : Str) (lines order : List Str) (fs : FileTree), GoodDir cwd → PrintedFiles lines →
    src.head? = some '/' → dst.head? = some '/' → src.getLast? ≠ some '/' → dst.getLast? ≠ some '/' →
    (∀ p, p ∈ order ↔ p ∈ includedSources lines) →
    ∃ fs', copyAllIncluded cwd src dst order fs = some fs' ∧
      (∀ p rel, Includes lines p → IsBelow cwd src p rel → Copied cwd src dst rel fs fs') ∧
      ChangedOnlyIn cwd dst fs fs'

private def dieFileLine (name dir : Str) : Str :=
  str! "!1 = !DIFile(" ++ str! "filename: \"" ++ name ++ str! "\", directory: \"" ++ dir ++ str! "\"" ++ str! ")"

private theorem dieFileLine_describes {name dir : Str} (h1 : '"' ∉ name) (h2 : '"' ∉ dir) : DescribesFile (dieFileLine name dir) name dir :=
  ⟨h1, h2, str! "!1 = !DIFile(", str! ")", rfl, by rw [← occursIn_iff (by decide)]; decide⟩

private theorem fails_of {name dir : Str} (dst : Str) (hd : dst.head? = some '/') (hl : dst.getLast? ≠ some '/') (h1 : '"' ∉ name) (h2 : '"' ∉ dir) (fs : FileTree) (h : C145_statement) :
    ∃ fs', copyAllIncluded [] (str! "/p/src") dst (includedSources [dieFileLine name dir]) fs = some fs' ∧
      (∀ p rel, Includes [dieFileLine name dir] p → IsBelow [] (str! "/p/src") p rel →
        Copied [] (str! "/p/src") dst rel fs fs') ∧ ChangedOnlyIn [] dst fs fs' :=
  h [] (str! "/p/src") dst [dieFileLine name dir] _ fs (by intro w hw; cases hw)
    (by intro line hl; rw [List.mem_singleton] at hl; subst hl; exact .inl ⟨name, dir, dieFileLine_describes h1 h2⟩)
    (by decide) hd (by decide) hl (fun p => Iff.rfl)

/-- **C145 (violated)** A file that is already in the snapshot directory, from an older version of the program, is kept. -/
theorem C145_fails : ¬ C145_statement := by
  intro h
  obtain ⟨fs', h1, h2, -⟩ := fails_of (name := str! "a.h") (dir := str! "/p/src") (str! "/p/snap") (by decide) (by decide) (by decide) (by decide)
    (fun p => if p = [str! "p", str! "src", str! "a.h"] then some (str! "new") else
      if p = [str! "p", str! "snap", str! "a.h"] then some (str! "old") else none) h
  have := h2 (str! "/p/src/a.h") [str! "a.h"]
    ⟨_, List.mem_singleton.2 rfl, _, _, dieFileLine_describes (by decide) (by decide), .inr ⟨str! "a", rfl⟩, rfl⟩ ⟨by decide, by decide⟩
  have e : includedSources [dieFileLine (str! "a.h") (str! "/p/src")] = [str! "/p/src/a.h"] := by decide
  rw [e] at h1
  simp only [copyAllIncluded] at h1
  have h1' : (fun p : List Str => if p = [str! "p", str! "src", str! "a.h"] then some (str! "new") else
      if p = [str! "p", str! "snap", str! "a.h"] then some (str! "old") else none) = fs' := Option.some.inj h1
  subst h1'
  revert this
  unfold Copied
  decide

/-- **C145 (violated)** A file in a directory whose name only starts with the path of the source directory is copied to a
place outside of the snapshot. -/
theorem C145_fails_outside : ¬ C145_statement := by
  intro h
  obtain ⟨fs', h1, -, h3⟩ := fails_of (name := str! "a.h") (dir := str! "/p/src2") (str! "/q/snap") (by decide) (by decide)
    (by decide) (by decide)
    (fun p => if p = [str! "p", str! "src2", str! "a.h"] then some (str! "x") else none) h
  have e : includedSources [dieFileLine (str! "a.h") (str! "/p/src2")] = [str! "/p/src2/a.h"] := by decide
  rw [e] at h1
  have h1' : FileTree.write (fun p => if p = [str! "p", str! "src2", str! "a.h"] then some (str! "x") else none)
      [str! "q", str! "src2", str! "a.h"] (str! "x") = fs' := Option.some.inj h1
  subst h1'
  have := h3 [str! "q", str! "src2", str! "a.h"] (by decide)
  revert this
  decide

/-- **C145 (violated)** If a described file does not exist any more (such as a generated one), creating the snapshot
ends with an exception. -/
theorem C145_fails_missing : ¬ C145_statement := by
  intro h
  obtain ⟨fs', h1, -, -⟩ := fails_of (name := str! "gen.h") (dir := str! "/p/src") (str! "/q/snap") (by decide) (by decide)
    (by decide) (by decide) (fun _ => none) h
  have e : includedSources [dieFileLine (str! "gen.h") (str! "/p/src")] = [str! "/p/src/gen.h"] := by decide
  rw [e] at h1
  have h2 : copyAllIncluded [] (str! "/p/src") (str! "/q/snap") [str! "/p/src/gen.h"] (fun _ => none) = none := rfl
  rw [h2] at h1
  cases h1

/-- **C145 (violated)** A file of the source directory whose path is written in another way is not copied. -/
theorem C145_fails_spelling : ¬ C145_statement := by
  intro h
  obtain ⟨fs', h1, h2, -⟩ := fails_of (name := str! "a.h") (dir := str! "/p/./src") (str! "/q/snap") (by decide) (by decide)
    (by decide) (by decide) (fun p => if p = [str! "p", str! "src", str! "a.h"] then some (str! "x") else none) h
  have := h2 (str! "/p/./src/a.h") [str! "a.h"]
    ⟨_, List.mem_singleton.2 rfl, _, _, dieFileLine_describes (by decide) (by decide), .inr ⟨str! "a", rfl⟩, rfl⟩ ⟨by decide, by decide⟩
  have e : includedSources [dieFileLine (str! "a.h") (str! "/p/./src")] = [str! "/p/./src/a.h"] := by decide
  rw [e] at h1
  have h1' : (fun p : List Str => if p = [str! "p", str! "src", str! "a.h"] then some (str! "x") else none) = fs' :=
    Option.some.inj h1
  subst h1'
  revert this
  unfold Copied
  decide

private theorem copyIncluded_below {cwd : List Str} (hc : GoodDir cwd) {src dst p : Str} {rel : List Str}
    (hnew : dst ≠ []) (hlast : dst.getLast? ≠ some '/') (hp : p ≠ []) (hs : startsWith p src = true)
    (hb : IsBelow cwd src p rel) (fs : FileTree) :
    copyIncluded cwd src dst fs p = copyMissing fs (absComps cwd src ++ rel) (absComps cwd dst ++ rel) := by
  obtain ⟨hne, hrel⟩ := hb
  have hgood : ∀ w ∈ rel, NormalComp w := by
    intro w hw
    apply absComps_good hc p w
    rw [hrel]; simp [hw]
  have hmm : ∀ w ∈ rel, w ≠ [] ∧ '/' ∉ w := fun w hw => ⟨(hgood w hw).1, (hgood w hw).2.2.2⟩
  have hr : relpath cwd p src = .ok (joinChar '/' rel) := by
    unfold relpath
    rw [if_neg hp, hrel]
    simp [commonLen_append, hne]
  unfold copyIncluded
  rw [if_pos hs, hr]
  dsimp only
  rw [absComps_pathJoin hnew hlast hne hmm, foldl_normStep _ hgood, hrel]

private theorem copyIncluded_not {cwd : List Str} {src dst p : Str} (hs : startsWith p src = false) (fs : FileTree) :
    copyIncluded cwd src dst fs p = some fs := by
  unfold copyIncluded
  rw [hs]
  rfl

/-- Files in the snapshot are copies, all other files are as before. -/
private def CopyInv (cwd : List Str) (src dst : Str) (fs fs1 : FileTree) : Prop :=
  ∀ x, fs1 x = fs x ∨ ∃ rel, x = absComps cwd dst ++ rel ∧ fs1 x = fs (absComps cwd src ++ rel)

private theorem copyAll_spec {cwd : List Str} (hc : GoodDir cwd) {src dst : Str} {fs : FileTree}
    (hnew : dst ≠ []) (hlast : dst.getLast? ≠ some '/') (hempty : ∀ rel, fs (absComps cwd dst ++ rel) = none) :
    ∀ (order : List Str) (fs1 : FileTree),
    (∀ p ∈ order, startsWith p src = true → p ≠ [] ∧ ∃ rel, IsBelow cwd src p rel ∧ (fs (absComps cwd src ++ rel)).isSome) →
    CopyInv cwd src dst fs fs1 →
    ∃ fs', copyAllIncluded cwd src dst order fs1 = some fs' ∧ CopyInv cwd src dst fs fs' ∧
      (∀ x, (fs1 x).isSome → fs' x = fs1 x) ∧
      ∀ p ∈ order, startsWith p src = true → ∀ rel, IsBelow cwd src p rel → (fs' (absComps cwd dst ++ rel)).isSome := by
  intro order
  induction order with
  | nil => intro fs1 _ hi; exact ⟨fs1, rfl, hi, fun _ _ => rfl, by simp⟩
  | cons p ps ih =>
    intro fs1 ho hi
    have hrest : ∀ q ∈ ps, startsWith q src = true → q ≠ [] ∧ ∃ rel, IsBelow cwd src q rel ∧ (fs (absComps cwd src ++ rel)).isSome :=
      fun q hq => ho q (List.mem_cons_of_mem _ hq)
    rw [copyAllIncluded]
    cases hs : startsWith p src with
    | false =>
      rw [copyIncluded_not hs, Option.bind_some]
      obtain ⟨fs', h1, h2, h3, h4⟩ := ih fs1 hrest hi
      refine ⟨fs', h1, h2, h3, ?_⟩
      intro q hq hsq
      rcases List.mem_cons.1 hq with rfl | hq
      · rw [hs] at hsq; cases hsq
      · exact h4 q hq hsq
    | true =>
      obtain ⟨hp, rel, hb, hex⟩ := ho p (by simp) hs
      rw [copyIncluded_below hc hnew hlast hp hs hb]
      -- the source has not been changed
      have hsrc : fs1 (absComps cwd src ++ rel) = fs (absComps cwd src ++ rel) := by
        rcases hi (absComps cwd src ++ rel) with h | ⟨rel', he, _⟩
        · exact h
        · rw [he, hempty rel'] at hex
          cases hex
      have hstep : ∃ fs2, copyMissing fs1 (absComps cwd src ++ rel) (absComps cwd dst ++ rel) = some fs2 ∧
          CopyInv cwd src dst fs fs2 ∧ (∀ x, (fs1 x).isSome → fs2 x = fs1 x) ∧ (fs2 (absComps cwd dst ++ rel)).isSome := by
        unfold copyMissing
        cases hd : fs1 (absComps cwd dst ++ rel) with
        | some c => exact ⟨fs1, rfl, hi, fun _ _ => rfl, by rw [hd]; rfl⟩
        | none =>
          obtain ⟨c, hcc⟩ := Option.isSome_iff_exists.1 hex
          refine ⟨fs1.write (absComps cwd dst ++ rel) c, ?_, ?_, ?_, ?_⟩
          · unfold FileTree.copy
            rw [hsrc, hcc]
            rfl
          · intro x
            by_cases hx : x = absComps cwd dst ++ rel
            · right
              exact ⟨rel, hx, by rw [hcc]; unfold FileTree.write; rw [if_pos hx]⟩
            · have : fs1.write (absComps cwd dst ++ rel) c x = fs1 x := by unfold FileTree.write; rw [if_neg hx]
              rw [this]
              exact hi x
          · intro x hx
            unfold FileTree.write
            rw [if_neg]
            rintro rfl
            rw [hd] at hx
            cases hx
          · unfold FileTree.write
            rw [if_pos rfl]
            rfl
      obtain ⟨fs2, e2, i2, k2, s2⟩ := hstep
      rw [e2, Option.bind_some]
      obtain ⟨fs', h1, h2, h3, h4⟩ := ih fs2 hrest i2
      refine ⟨fs', h1, h2, fun x hx => ?_, ?_⟩
      · rw [h3 x (by rw [k2 x hx]; exact hx), k2 x hx]
      · intro q hq hsq rel' hb'
        rcases List.mem_cons.1 hq with rfl | hq
        · have : rel' = rel := List.append_cancel_left (hb'.2.symm.trans hb.2)
          subst this
          rw [h3 _ s2]
          exact s2
        · exact h4 q hq hsq rel' hb'

/-- **C145 (partial)** If the snapshot directory is empty, all described sources whose path starts with the path of the
source directory are files in that directory, and they exist, then copying succeeds, all these files are in the snapshot
with their contents and no file outside of the snapshot changes. The order in which the files are copied does not
matter. Missing: see `C145_fails`, `C145_fails_outside`, `C145_fails_missing`, `C145_fails_spelling`. -/
theorem C145_copied_partial {cwd : List Str} (hc : GoodDir cwd) {src dst : Str} {lines order : List Str} {fs : FileTree}
    (hl : PrintedFiles lines) (hsrc : src ≠ []) (hdst : dst ≠ []) (hlast : dst.getLast? ≠ some '/')
    (ho : ∀ p, p ∈ order ↔ p ∈ includedSources lines)
    (hempty : ∀ rel, fs (absComps cwd dst ++ rel) = none)
    (hfiles : ∀ p, Includes lines p → src <+: p → ∃ rel, IsBelow cwd src p rel ∧ (fs (absComps cwd src ++ rel)).isSome) :
    ∃ fs', copyAllIncluded cwd src dst order fs = some fs' ∧
      (∀ p rel, Includes lines p → src <+: p → IsBelow cwd src p rel → Copied cwd src dst rel fs fs') ∧
      ChangedOnlyIn cwd dst fs fs' := by
  obtain ⟨fs', h1, h2, -, h4⟩ := copyAll_spec hc hdst hlast hempty order fs (fun p hp hs => by
    have hs' := startsWith_iffM.1 hs
    refine ⟨?_, hfiles p ((C145_included_partial hl p).1 ((ho p).1 hp)) hs'⟩
    rintro rfl
    exact hsrc (List.prefix_nil.1 hs')) (fun x => .inl rfl)
  refine ⟨fs', h1, ?_, ?_⟩
  · intro p rel hp hs hb
    have hsome := h4 p ((ho p).2 ((C145_included_partial hl p).2 hp)) (startsWith_iffM.2 hs) rel hb
    rcases h2 (absComps cwd dst ++ rel) with h | ⟨rel', he, h⟩
    · rw [h, hempty rel] at hsome
      cases hsome
    · have : rel = rel' := List.append_cancel_left he
      subst this
      exact h
  · intro x hx
    rcases h2 x with h | ⟨rel, he, _⟩
    · exact absurd h hx
    · exact ⟨rel, he.symm⟩

/-- Copying a header. -/
example : ∃ fs', copyAllIncluded [] (str! "/p/src") (str! "/q/snap") [str! "/p/src/a.h"]
      (fun p => if p = [str! "p", str! "src", str! "a.h"] then some (str! "x") else none) = some fs' ∧
    fs' [str! "q", str! "snap", str! "a.h"] = some (str! "x") := by
  have hd := dieFileLine_describes (name := str! "a.h") (dir := str! "/p/src") (by decide) (by decide)
  have hl : PrintedFiles [dieFileLine (str! "a.h") (str! "/p/src")] := by
    intro line hl; rw [List.mem_singleton] at hl; subst hl; exact .inl ⟨_, _, hd⟩
  have e : includedSources [dieFileLine (str! "a.h") (str! "/p/src")] = [str! "/p/src/a.h"] := by decide
  obtain ⟨fs', h1, h2, -⟩ := C145_copied_partial (cwd := []) (src := str! "/p/src") (dst := str! "/q/snap")
    (order := [str! "/p/src/a.h"])
    (fs := fun p => if p = [str! "p", str! "src", str! "a.h"] then some (str! "x") else none)
    (by intro w hw; cases hw) hl (by decide) (by decide) (by decide) (by intro p; rw [e])
    (by
      intro rel
      have : absComps [] (str! "/q/snap") = [str! "q", str! "snap"] := by decide
      rw [this]
      simp)
    (by
      intro p hp _
      rw [← C145_included_partial hl, e, List.mem_singleton] at hp
      subst hp
      exact ⟨[str! "a.h"], ⟨by decide, by decide⟩, by decide⟩)
  refine ⟨fs', h1, ?_⟩
  have := h2 (str! "/p/src/a.h") [str! "a.h"] ((C145_included_partial hl _).1 (by rw [e]; simp)) (by decide) ⟨by decide, by decide⟩
  exact this

/-! ### C147: definitions in the text of a module -/

/-- **C147** as stated: a module is found to contain the definition of a function or of a global variable iff its text
defines it. -/
def C147_statement : Prop :=
  ∀ (name : Str) (lines : List Str), PlainName name → PrintedSymbols lines →
    (hasFunction name lines = true ↔ ∃ line ∈ lines, DefinesFunction line name) ∧
    (hasGlobal name lines = true ↔ ∃ line ∈ lines, DefinesGlobal line name)

private theorem plain_char {n : Str} (h : PlainName n) {c : Char} (hc : c ∈ n) : c ≠ '(' ∧ c ≠ '@' ∧ c ≠ '=' ∧ pySpace c = false := by
  have hx := h.2 c hc
  refine ⟨?_, ?_, ?_, ?_⟩
  · rintro rfl; revert hx; decide
  · rintro rfl; revert hx; decide
  · rintro rfl; revert hx; decide
  · cases hs : pySpace c with
    | false => rfl
    | true =>
      exfalso
      unfold pySpace at hs
      simp only [decide_eq_true_eq] at hs
      have hn : c.toNat ≤ 32 := by
        rcases hs with rfl | hs | hs
        · decide
        · omega
        · omega
      have hlt : c.toNat < 33 := by omega
      have he : c = Char.ofNat c.toNat := by simp
      rw [he] at hx
      revert hx
      generalize c.toNat = k at hlt
      revert k
      decide

private theorem split_first {c : Char} : ∀ {x y x' y' : Str}, c ∉ x → c ∉ x' → x ++ c :: y = x' ++ c :: y' → x = x' ∧ y = y' := by
  intro x
  induction x with
  | nil =>
    intro y x' y' _ h' e
    cases x' with
    | nil => exact ⟨rfl, by simpa using e⟩
    | cons d x' => simp only [List.nil_append, List.cons_append, List.cons.injEq] at e; exact absurd (by simp [e.1]) h'
  | cons d x ih =>
    intro y x' y' h h' e
    cases x' with
    | nil => simp only [List.nil_append, List.cons_append, List.cons.injEq] at e; exact absurd (by simp [e.1]) h
    | cons d' x' =>
      simp only [List.cons_append, List.cons.injEq] at e
      obtain ⟨h1, h2⟩ := ih (fun hh => h (by simp [hh])) (fun hh => h' (by simp [hh])) e.2
      exact ⟨by rw [e.1, h1], h2⟩

private theorem definesFunction_unique {line n m : Str} (h1 : DefinesFunction line n) (h2 : DefinesFunction line m)
    (hn : PlainName n) (hm : PlainName m) : n = m := by
  obtain ⟨b1, a1, rfl, hb1, -⟩ := h1
  obtain ⟨b2, a2, he, hb2, -⟩ := h2
  have he' : b1 ++ '@' :: (n ++ '(' :: a1) = b2 ++ '@' :: (m ++ '(' :: a2) := by simpa using he
  have := (split_first hb1 hb2 he').2
  exact (split_first (fun h => (plain_char hn h).1 rfl) (fun h => (plain_char hm h).1 rfl) this).1

private theorem nameThen_of {stop : Str → Bool} {r : Str} (hr : stop r = true) : ∀ n : Str, nameThen stop n (n ++ r) = true := by
  intro n
  induction n with
  | nil => simpa [nameThen] using hr
  | cons c n ih => simp [nameThen, ih]

/-- The text agrees with the name except at the dots of the name. -/
private theorem nameThen_inv {stop : Str → Bool} : ∀ {n t : Str}, nameThen stop n t = true →
    ∃ m r, t = m ++ r ∧ stop r = true ∧ List.Forall₂ (fun a b => a = '.' ∨ a = b) n m := by
  intro n
  induction n with
  | nil => intro t h; exact ⟨[], t, rfl, by simpa [nameThen] using h, .nil⟩
  | cons c n ih =>
    intro t h
    cases t with
    | nil => simp [nameThen] at h
    | cons d t =>
      simp only [nameThen, Bool.and_eq_true, Bool.or_eq_true, decide_eq_true_eq] at h
      obtain ⟨m, r, rfl, h1, h2⟩ := ih h.2
      exact ⟨d :: m, r, rfl, h1, .cons h.1 h2⟩

private theorem agree_eq : ∀ {n m : Str}, '.' ∉ n → List.Forall₂ (fun a b => a = '.' ∨ a = b) n m → n = m := by
  intro n
  induction n with
  | nil => intro m _ h; cases h; rfl
  | cons c n ih =>
    intro m hd h
    cases h with
    | cons h1 h2 =>
      rcases h1 with rfl | rfl
      · exact absurd (by simp) hd
      · rw [ih (fun hh => hd (by simp [hh])) h2]

private theorem mentionsFun_iff {name : Str} : ∀ {s : Str}, mentionsFun name s = true ↔
    ∃ a r, s = a ++ '@' :: r ∧ nameThen (fun t => startsWith t (str! "(")) name r = true := by
  intro s
  induction s with
  | nil => simp [mentionsFun]
  | cons c cs ih =>
    rw [mentionsFun, Bool.or_eq_true, Bool.and_eq_true, decide_eq_true_eq, ih]
    constructor
    · rintro (⟨rfl, h⟩ | ⟨a, r, rfl, h⟩)
      · exact ⟨[], cs, rfl, h⟩
      · exact ⟨c :: a, r, rfl, h⟩
    · rintro ⟨a, r, e, h⟩
      cases a with
      | nil => simp only [List.nil_append, List.cons.injEq] at e; exact .inl ⟨e.1, by rw [e.2]; exact h⟩
      | cons d a => simp only [List.cons_append, List.cons.injEq] at e; exact .inr ⟨a, r, e.2, h⟩

/-- **C147 (violated)** A dot in the name of a function stands for any character. -/
theorem C147_fails : ¬ C147_statement := by
  intro h
  have hx : DefinesFunction (str! "define void @a_b() {") (str! "a_b") :=
    ⟨str! "void ", str! ") {", rfl, by decide, by decide⟩
  have hp : PlainName (str! "a_b") := ⟨by decide, by decide⟩
  have := (h (str! "a.b") [str! "define void @a_b() {"] ⟨by decide, by decide⟩
    ⟨by intro line hl _; rw [List.mem_singleton] at hl; subst hl; exact ⟨_, hp, hx⟩,
     by intro line hl hs; rw [List.mem_singleton] at hl; subst hl; exact absurd hs (by decide)⟩).1.1 (by decide)
  obtain ⟨line, hl, hd⟩ := this
  rw [List.mem_singleton] at hl
  subst hl
  have := definesFunction_unique hx hd hp ⟨by decide, by decide⟩
  revert this
  decide

/-- **C147 (violated)** A module that only declares a global variable is found to contain it. -/
theorem C147_fails_external : ¬ C147_statement := by
  intro h
  have hx : GlobalLine (str! "@x = external global i32") (str! "x") (str! "external global i32") := rfl
  have := (h (str! "x") [str! "@x = external global i32"] ⟨by decide, by decide⟩
    ⟨by intro line hl hs; rw [List.mem_singleton] at hl; subst hl; exact absurd hs (by decide),
     by intro line hl _; rw [List.mem_singleton] at hl; subst hl; exact ⟨_, _, ⟨by decide, by decide⟩, hx⟩⟩).2.1 (by decide)
  obtain ⟨line, hl, rest, hg, hn⟩ := this
  rw [List.mem_singleton] at hl
  subst hl
  have e : rest = str! "external global i32" := by
    have : str! "external global i32" = rest := by simpa [GlobalLine] using hg
    exact this.symm
  subst e
  exact hn (by decide)

/-- **C147 (partial)** The definition of a function is always found, whatever its name. -/
theorem C147_found_partial {name : Str} {lines : List Str} (h : ∃ line ∈ lines, DefinesFunction line name) :
    hasFunction name lines = true := by
  obtain ⟨line, hl, before, after, rfl, -, -⟩ := h
  unfold hasFunction
  rw [List.any_eq_true]
  refine ⟨_, hl, ?_⟩
  unfold definesFunLine
  rw [Bool.and_eq_true, startsWith_iffM, mentionsFun_iff]
  refine ⟨⟨str! " " ++ before ++ str! "@" ++ name ++ str! "(" ++ after, by simp⟩, ' ' :: before, name ++ '(' :: after, by simp, ?_⟩
  exact nameThen_of (r := '(' :: after) (stop := fun t => startsWith t (str! "(")) (startsWith_iffM.2 ⟨after, rfl⟩) name

/-- **C147 (partial)** A function whose name has no dot is found iff the module defines it. Missing: see `C147_fails`;
names that LLVM prints in quotes; definitions with references to other symbols behind the parameters. -/
theorem C147_function_partial {name : Str} {lines : List Str} (hname : PlainName name) (hdot : '.' ∉ name)
    (hp : PrintedSymbols lines) :
    hasFunction name lines = true ↔ ∃ line ∈ lines, DefinesFunction line name := by
  refine ⟨fun h => ?_, C147_found_partial⟩
  unfold hasFunction at h
  rw [List.any_eq_true] at h
  obtain ⟨line, hl, h⟩ := h
  unfold definesFunLine at h
  rw [Bool.and_eq_true, startsWith_iffM, mentionsFun_iff] at h
  obtain ⟨hdef, a, r, he, hr⟩ := h
  obtain ⟨n, hn, hd⟩ := hp.1 line hl hdef
  suffices hs : name = n by rw [hs]; exact ⟨line, hl, hd⟩
  obtain ⟨before, after, rfl, h1, h2⟩ := hd
  obtain ⟨m, r', rfl, hstop, hf⟩ := nameThen_inv hr
  have hm : name = m := agree_eq hdot hf
  subst hm
  have he' : (' ' :: before) ++ '@' :: (n ++ '(' :: after) = a ++ '@' :: (name ++ r') := by simpa using he
  have hnot : '@' ∉ n ++ '(' :: after := by
    rw [List.mem_append, List.mem_cons]
    rintro (hh | hh | hh)
    · exact (plain_char hn hh).2.1 rfl
    · cases hh
    · exact h2 hh
  have hb : '@' ∉ ' ' :: before := by
    rw [List.mem_cons]
    rintro (hh | hh)
    · cases hh
    · exact h1 hh
  have ha : '@' ∉ a := by
    intro ha
    obtain ⟨a1, a2, rfl, ha1⟩ := List.eq_append_cons_of_mem ha
    have he2 : (' ' :: before) ++ '@' :: (n ++ '(' :: after) = a1 ++ '@' :: (a2 ++ '@' :: (name ++ r')) := by
      rw [he']; simp
    have := (split_first hb ha1 he2).2
    rw [this] at hnot
    exact hnot (by simp)
  have h3 := (split_first hb ha he').2
  obtain ⟨r2, hr2⟩ := startsWith_iffM.1 hstop
  rw [← hr2] at h3
  exact (split_first (fun h => (plain_char hn h).1 rfl) (fun h => (plain_char hname h).1 rfl) h3).1.symm

private theorem spaceThenEq_head {r : Str} (h : spaceThenEq r = true) : ∃ c cs, r = c :: cs ∧ (c = '=' ∨ pySpace c = true) := by
  unfold spaceThenEq at h
  cases r with
  | nil => exact absurd h (by decide)
  | cons c cs =>
    refine ⟨c, cs, rfl, ?_⟩
    cases hc : pySpace c with
    | true => exact .inr rfl
    | false =>
      left
      rw [List.dropWhile_cons_of_neg (by simp [hc]), startsWith_iffM] at h
      obtain ⟨t, ht⟩ := h
      simp only [List.cons_append, List.cons.injEq] at ht
      exact ht.1.symm

/-- Two plain names followed by a space or `=` in the same text are equal. -/
private theorem plain_unique : ∀ {n m : Str} {c d : Char} {r s : Str}, (∀ x ∈ n, x ≠ '=' ∧ pySpace x = false) →
    (∀ x ∈ m, x ≠ '=' ∧ pySpace x = false) →
    (c = '=' ∨ pySpace c = true) → (d = '=' ∨ pySpace d = true) → n ++ c :: r = m ++ d :: s → n = m := by
  intro n
  induction n with
  | nil =>
    intro m c d r s _ hm hc _ e
    cases m with
    | nil => rfl
    | cons x m =>
      simp only [List.nil_append, List.cons_append, List.cons.injEq] at e
      obtain ⟨h1, h2⟩ := hm x (by simp)
      rcases hc with hc | hc
      · exact absurd (e.1.symm.trans hc) h1
      · rw [← e.1, hc] at h2; cases h2
  | cons y n ih =>
    intro m c d r s hn hm hc hd e
    cases m with
    | nil =>
      simp only [List.nil_append, List.cons_append, List.cons.injEq] at e
      obtain ⟨h1, h2⟩ := hn y (by simp)
      rcases hd with hd | hd
      · exact absurd (e.1.trans hd) h1
      · rw [e.1, hd] at h2; cases h2
    | cons x m =>
      simp only [List.cons_append, List.cons.injEq] at e
      rw [e.1, ih (fun z hz => hn z (by simp [hz])) (fun z hz => hm z (by simp [hz])) hc hd e.2]

/-- **C147 (partial)** A global variable whose name has no dot is found iff it is defined or declared in the module.
Missing: see `C147_fails_external`. -/
theorem C147_global_partial {name : Str} {lines : List Str} (hname : PlainName name) (hdot : '.' ∉ name)
    (hp : PrintedSymbols lines) :
    hasGlobal name lines = true ↔ ∃ line ∈ lines, ∃ rest, GlobalLine line name rest := by
  unfold hasGlobal
  rw [List.any_eq_true]
  constructor
  · rintro ⟨line, hl, h⟩
    unfold definesGlobalLine at h
    split at h
    · rename_i cs
      obtain ⟨n, rest, hn, hg⟩ := hp.2 _ hl ⟨cs, rfl⟩
      refine ⟨_, hl, rest, ?_⟩
      obtain ⟨m, r, rfl, hstop, hf⟩ := nameThen_inv h
      have hm : name = m := agree_eq hdot hf
      subst hm
      obtain ⟨c, cs, rfl, hc⟩ := spaceThenEq_head hstop
      have e : name ++ c :: cs = n ++ ' ' :: (str! "= " ++ rest) := by simpa [GlobalLine] using hg
      have := plain_unique (fun x hx => (plain_char hname hx).2.2) (fun x hx => (plain_char hn hx).2.2) hc (.inr (by decide)) e
      subst this
      exact hg
    · cases h
  · rintro ⟨line, hl, rest, rfl⟩
    refine ⟨_, hl, ?_⟩
    have : str! "@" ++ name ++ str! " = " ++ rest = '@' :: (name ++ (str! " = " ++ rest)) := by simp
    rw [this]
    unfold definesGlobalLine
    refine nameThen_of ?_ name
    unfold spaceThenEq
    rw [startsWith_iffM]
    exact ⟨str! " " ++ rest, by simp [pySpace]⟩

/-- A module with a variable and a function. -/
example : hasFunction (str! "f") [str! "@x = global i32 0", str! "define void @f(i32 %0) {"] = true ∧
    hasFunction (str! "x") [str! "@x = global i32 0", str! "define void @f(i32 %0) {"] = false ∧
    hasGlobal (str! "x") [str! "@x = global i32 0", str! "define void @f(i32 %0) {"] = true := by
  decide

/-- It is printed as assumed. -/
example : PrintedSymbols [str! "@x = global i32 0", str! "define void @f(i32 %0) {"] := by
  refine ⟨?_, ?_⟩
  · intro line hl hs
    simp only [List.mem_cons, List.not_mem_nil, or_false] at hl
    rcases hl with rfl | rfl
    · exact absurd hs (by decide)
    · exact ⟨str! "f", ⟨by decide, by decide⟩, str! "void ", str! "i32 %0) {", rfl, by decide, by decide⟩
  · intro line hl hs
    simp only [List.mem_cons, List.not_mem_nil, or_false] at hl
    rcases hl with rfl | rfl
    · exact ⟨str! "x", str! "global i32 0", ⟨by decide, by decide⟩, rfl⟩
    · exact absurd hs (by decide)

end DK
