import Verif.Model.SourceLines
import Verif.Spec.SourceLines

/-! The text that is found for a place in a source file: C170 to C173. -/

set_option autoImplicit false

namespace DK
open Spec

/-! ### Lines of a file -/

private theorem fileLines_eq : ∀ (file : List Str) (k : Nat),
    fileLines k file = ((file.zipIdx k).filter fun x => decide (x.1 ≠ [])).map fun x => (x.2, x.1)
  | [], _ => rfl
  | s :: ss, k => by
    rw [fileLines, List.zipIdx_cons, fileLines_eq ss (k + 1)]
    by_cases h : s = []
    · rw [if_pos h, List.filter_cons_of_neg (by simp [h])]
    · rw [if_neg h, List.filter_cons_of_pos (by simp [h])]
      rfl

private theorem fileLines_solid (file : List Str) : fileLines 1 file = (solidLines file).map fun x => (x.2, x.1) := fileLines_eq file 1

private theorem solid_of_lines (file : List Str) : solidLines file = (fileLines 1 file).map fun x => (x.2, x.1) := by
  rw [fileLines_solid, List.map_map]
  exact (List.map_id _).symm

private theorem mem_fileLines {file : List Str} {n : Nat} {s : Str} : (n, s) ∈ fileLines 1 file ↔ IsLine file n s ∧ s ≠ [] := by
  rw [fileLines_solid, List.mem_map]
  constructor
  · rintro ⟨⟨a, b⟩, h, e⟩
    cases e
    obtain ⟨h1, h2⟩ := List.mem_filter.1 h
    exact ⟨h1, by simpa using h2⟩
  · rintro ⟨h1, h2⟩
    exact ⟨(s, n), List.mem_filter.2 ⟨h1, by simpa using h2⟩, rfl⟩

private abbrev linesText (l : List (Nat × Str)) : Str := (l.map Prod.snd).flatten

/-- The text consists of the last lines of `h`, at least one. -/
private def Suf (h : List (Nat × Str)) (t : Str) : Prop := ∃ seg, seg ≠ [] ∧ seg <:+ h ∧ t = linesText seg

private theorem suf_snoc {h : List (Nat × Str)} {t : Str} (y : Nat × Str) (w : Suf h t) : Suf (h ++ [y]) (t ++ y.2) := by
  obtain ⟨seg, _, ⟨a, e⟩, rfl⟩ := w
  exact ⟨seg ++ [y], by simp, ⟨a, by rw [← e]; simp⟩, by simp [linesText]⟩

private theorem suf_one (h : List (Nat × Str)) (y : Nat × Str) : Suf (h ++ [y]) y.2 :=
  ⟨[y], by simp, ⟨h, rfl⟩, by simp [linesText]⟩

private theorem suf_last {h : List (Nat × Str)} {y : Nat × Str} {t : Str} (w : Suf (h ++ [y]) t) :
    ∃ a, a <:+ h ∧ t = linesText (a ++ [y]) := by
  obtain ⟨seg, ne, ⟨b, e⟩, rfl⟩ := w
  obtain ⟨a, z, rfl⟩ := List.eq_nil_or_concat seg |>.resolve_left ne
  rw [List.concat_eq_append, ← List.append_assoc] at e
  obtain ⟨e1, e2⟩ := List.append_inj' e rfl
  cases e2
  exact ⟨a, ⟨b, e1⟩, by simp⟩

/-! ### The search -/

private theorem seek_nil (n : Nat) (line : Str) : seekLine n [] line = ([], line) := rfl

private theorem seek_cons (n : Nat) (x : Nat × Str) (rest : List (Nat × Str)) (line : Str) : seekLine n (x :: rest) line =
    if x.1 = n then (x :: rest, line)
    else seekLine n rest
      (if (curLine rest).count '(' < (curLine rest).count ')' then line ++ curLine rest else curLine rest) := rfl

private theorem seek_suf (n : Nat) : ∀ (rest : List (Nat × Str)) (x : Nat × Str) (h : List (Nat × Str)) (line : Str),
    Suf (h ++ [x]) line →
    (seekLine n (x :: rest) line = ([], []) ∧ ∀ y ∈ x :: rest, y.1 ≠ n) ∨
      ∃ y post h2, (seekLine n (x :: rest) line).1 = y :: post ∧ y.1 = n ∧ h ++ x :: rest = h2 ++ y :: post ∧
        Suf (h2 ++ [y]) (seekLine n (x :: rest) line).2
  | rest, x, h, line, w => by
    rw [seek_cons]
    by_cases e : x.1 = n
    · right
      rw [if_pos e]
      exact ⟨x, rest, h, rfl, e, rfl, w⟩
    · rw [if_neg e]
      cases rest with
      | nil =>
        left
        refine ⟨rfl, fun y hy => ?_⟩
        rw [List.mem_singleton] at hy
        rw [hy]
        exact e
      | cons y ys =>
        have w' : Suf ((h ++ [x]) ++ [y])
            (if (curLine (y :: ys)).count '(' < (curLine (y :: ys)).count ')' then line ++ curLine (y :: ys)
              else curLine (y :: ys)) := by
          split
          · exact suf_snoc y w
          · exact suf_one _ y
        rcases seek_suf n ys y (h ++ [x]) _ w' with ⟨a, b⟩ | ⟨z, post, h2, a, b, c, d⟩
        · left
          refine ⟨a, fun z hz => ?_⟩
          rcases List.mem_cons.1 hz with rfl | hz
          · exact e
          · exact b z hz
        · right
          exact ⟨z, post, h2, a, b, by rw [← c]; simp, d⟩

/-- The result of the search: nothing, the first line, or a text. -/
private theorem seek_cases (n : Nat) (ls : List (Nat × Str)) :
    (seekLine n ls [] = ([], []) ∧ ∀ y ∈ ls, y.1 ≠ n) ∨
      (∃ x rest, ls = x :: rest ∧ x.1 = n ∧ seekLine n ls [] = (ls, [])) ∨
      ∃ y post h2, h2 ≠ [] ∧ (seekLine n ls []).1 = y :: post ∧ y.1 = n ∧ ls = h2 ++ y :: post ∧
        Suf (h2 ++ [y]) (seekLine n ls []).2 := by
  cases ls with
  | nil => exact .inl ⟨rfl, fun _ h => nomatch h⟩
  | cons x rest =>
    by_cases e : x.1 = n
    · exact .inr (.inl ⟨x, rest, rfl, e, by rw [seek_cons, if_pos e]⟩)
    · rw [seek_cons, if_neg e]
      cases rest with
      | nil =>
        left
        refine ⟨rfl, fun y hy => ?_⟩
        rw [List.mem_singleton] at hy
        rw [hy]
        exact e
      | cons y ys =>
        have w' : Suf ([x] ++ [y])
            (if (curLine (y :: ys)).count '(' < (curLine (y :: ys)).count ')' then [] ++ curLine (y :: ys)
              else curLine (y :: ys)) := by
          split
          · exact suf_one _ y
          · exact suf_one _ y
        rcases seek_suf n ys y [x] _ w' with ⟨a, b⟩ | ⟨z, post, h2, a, b, c, d⟩
        · left
          refine ⟨a, fun z hz => ?_⟩
          rcases List.mem_cons.1 hz with rfl | hz
          · exact e
          · exact b z hz
        · right; right
          refine ⟨z, post, h2, ?_, a, b, c, d⟩
          rintro rfl
          cases c
          exact e b

/-! ### Completion -/

private theorem append_ok (u : Str → Bool) : ∀ (post : List (Nat × Str)) (x : Nat × Str) (line : Str),
    ∃ seg rest ls, appendLines u (x :: post) line = some (ls, line ++ linesText seg) ∧ post = seg ++ rest ∧
      ((ls = [] ∧ rest = []) ∨ (∃ y, ls = y :: rest) ∧ u (line ++ linesText seg) = false)
  | [], x, line => ⟨[], [], [], by simp [appendLines, linesText], rfl, .inl ⟨rfl, rfl⟩⟩
  | y :: post, x, line => by
    rw [appendLines]
    by_cases h : u (line ++ y.2) = true
    · obtain ⟨seg, rest, ls, a, b, c⟩ := append_ok u post y (line ++ y.2)
      refine ⟨y :: seg, rest, ls, ?_, by rw [b]; rfl, ?_⟩
      · rw [if_pos h, a]
        simp [linesText]
      · simpa [linesText] using c
    · refine ⟨[y], post, y :: post, ?_, rfl, .inr ⟨⟨y, rfl⟩, ?_⟩⟩
      · rw [if_neg h]
        simp [linesText]
      · simpa [linesText] using h

private theorem brackets_ok (x : Nat × Str) (post : List (Nat × Str)) (line : Str) :
    ∃ seg rest ls, closeBrackets (x :: post, line) = some (ls, line ++ linesText seg) ∧ post = seg ++ rest ∧
      ((ls = [] ∧ rest = []) ∨ (∃ y, ls = y :: rest) ∧ openBrackets (line ++ linesText seg) = false) := by
  unfold closeBrackets
  by_cases h : openBrackets line = true
  · rw [if_pos h]
    exact append_ok openBrackets post x line
  · rw [if_neg h]
    exact ⟨[], post, x :: post, by simp [linesText], rfl, .inr ⟨⟨x, rfl⟩, by simpa [linesText] using h⟩⟩

/-- What is found for a line that is not the first one. -/
private theorem extract_cases {file : List Str} {n : Nat} {y : Nat × Str} {post h2 : List (Nat × Str)}
    (e1 : (seekLine n (fileLines 1 file) []).1 = y :: post) (e2 : fileLines 1 file = h2 ++ y :: post)
    (w : Suf (h2 ++ [y]) (seekLine n (fileLines 1 file) []).2) :
    (∃ a seg rest t, a <:+ h2 ∧ post = seg ++ rest ∧ extractLine file n = some t ∧ t = linesText (a ++ y :: seg) ∧
        (openBrackets t = false ∨ rest = [] ∨ isReturn t = true)) ∨
      (∃ a t, a <:+ h2 ∧ extractLine file n = none ∧ t = linesText (a ++ y :: post) ∧ noSemicolon t = true) := by
  unfold extractLine
  rw [show seekLine n (fileLines 1 file) [] = (y :: post, (seekLine n (fileLines 1 file) []).2) from
    Prod.ext e1 rfl]
  generalize (seekLine n (fileLines 1 file) []).2 = line at w
  obtain ⟨seg, rest, ls, a, b, c⟩ := brackets_ok y post line
  rw [a]
  dsimp only [Option.bind]
  unfold closeReturn
  dsimp only
  obtain ⟨v, hv, rfl⟩ := suf_last w
  have ws : ∀ l, linesText (v ++ [y]) ++ linesText l = linesText (v ++ y :: l) := by simp [linesText]
  rw [ws] at c ⊢
  by_cases r : (isReturn (linesText (v ++ y :: seg)) && noSemicolon (linesText (v ++ y :: seg))) = true
  · rw [if_pos r]
    rw [Bool.and_eq_true] at r
    rcases c with ⟨rfl, rfl⟩ | ⟨⟨z, rfl⟩, c⟩
    · right
      rw [List.append_nil] at b
      rw [b]
      exact ⟨v, _, hv, rfl, rfl, r.2⟩
    · left
      obtain ⟨seg', rest', ls', a', b', c'⟩ := append_ok noSemicolon rest z (linesText (v ++ y :: seg))
      refine ⟨v, seg ++ seg', rest', _, hv, by rw [b, b']; simp, by rw [a']; rfl, by simp [linesText], ?_⟩
      right; right
      have hr := r.1
      unfold isReturn startsWith at hr ⊢
      rw [List.filter_append]
      rw [List.isPrefixOf_iff_prefix] at hr ⊢
      exact hr.trans (List.prefix_append _ _)
  · rw [if_neg r]
    left
    refine ⟨v, seg, rest, _, hv, b, rfl, rfl, ?_⟩
    rcases c with ⟨_, c⟩ | ⟨_, c⟩
    · exact .inr (.inl c)
    · exact .inl c

/-! ### C170 -/

/-- C170: the text found for a line contains this line, and lines around it. -/
def C170_statement : Prop :=
  ∀ (file : List Str) (n : Nat) (s : Str), IsLine file n s → s ≠ [] → ∃ t, extractLine file n = some t ∧ TextAround file n t

/-- C170 is false: nothing is found for the first line of a file. -/
theorem C170_fails : ¬ C170_statement := by
  intro h
  obtain ⟨t, e, pre, seg, post, a, ⟨x, hx, _⟩, b⟩ := h [str! "f(__LINE__);"] 1 (str! "f(__LINE__);") (by simp [IsLine]) (by simp)
  have e' : extractLine [str! "f(__LINE__);"] 1 = some [] := by decide
  rw [e'] at e
  cases e
  have hs : x ∈ solidLines [str! "f(__LINE__);"] := by
    rw [a]
    simp [hx]
  have hx' : x.1 = [] := by
    have := List.flatten_eq_nil_iff.1 b.symm x.1 (List.mem_map.2 ⟨x, hx, rfl⟩)
    exact this
  have := (List.mem_filter.1 hs).2
  simp [hx'] at this

private theorem around_of {file : List Str} {n : Nat} {y : Nat × Str} {a h2 seg rest : List (Nat × Str)}
    (e : fileLines 1 file = h2 ++ y :: (seg ++ rest)) (hy : y.1 = n) (ha : a <:+ h2) :
    TextAround file n (linesText (a ++ y :: seg)) := by
  obtain ⟨c, rfl⟩ := ha
  refine ⟨c.map fun x => (x.2, x.1), (a ++ y :: seg).map fun x => (x.2, x.1), rest.map fun x => (x.2, x.1), ?_, ?_, ?_⟩
  · rw [solid_of_lines, e]
    simp
  · exact ⟨(y.2, y.1), by simp, hy⟩
  · simp [linesText, List.map_map, Function.comp_def]

/-- Lines have different numbers. -/
private theorem fileLines_nodup : ∀ (file : List Str) (k : Nat),
    (fileLines k file).Pairwise (fun a b => a.1 < b.1) ∧ ∀ x ∈ fileLines k file, k ≤ x.1
  | [], _ => ⟨List.Pairwise.nil, fun _ h => nomatch h⟩
  | s :: ss, k => by
    obtain ⟨i1, i2⟩ := fileLines_nodup ss (k + 1)
    rw [fileLines]
    split
    · exact ⟨i1, fun x hx => by have := i2 x hx; omega⟩
    · refine ⟨List.pairwise_cons.2 ⟨fun x hx => by have := i2 x hx; dsimp only; omega, i1⟩, fun x hx => ?_⟩
      rcases List.mem_cons.1 hx with rfl | hx
      · exact Nat.le_refl _
      · have := i2 x hx
        omega

/-- C170 for lines after the first one that is not empty; what is missing: the first line, for which nothing is
found. -/
theorem C170_after_first_partial (file : List Str) (m n : Nat) (r s t : Str) (hm : IsLine file m r) (hr : r ≠ []) (lt : m < n)
    (hn : IsLine file n s) (hs : s ≠ []) (e : extractLine file n = some t) : TextAround file n t := by
  rcases seek_cases n (fileLines 1 file) with ⟨_, b⟩ | ⟨x, rest, a, b, _⟩ | ⟨y, post, h2, _, a, b, c, d⟩
  · exact absurd rfl (b _ (mem_fileLines.2 ⟨hn, hs⟩))
  · have := mem_fileLines.2 ⟨hm, hr⟩
    have p := (fileLines_nodup file 1).1
    rw [a] at this p
    rcases List.mem_cons.1 this with h | h
    · rw [← h] at b
      dsimp only at b
      omega
    · have := (List.pairwise_cons.1 p).1 _ h
      dsimp only at this
      omega
  · rcases extract_cases a c d with ⟨v, seg, rest, t', hv, e1, e2, rfl, _⟩ | ⟨v, t', hv, e1, _, _⟩
    · rw [e] at e2
      cases e2
      rw [e1] at c
      exact around_of c b hv
    · rw [e] at e1
      cases e1

example : extractLine [str! "int f(int x) {", str! "", str! "  return g(x,", str! "    2);", str! "}"] 3
    = some (str! "  return g(x,    2);") := by decide

/-! ### C171 -/

/-- C171: nothing is found for a line that is empty or missing. -/
theorem C171_missing (file : List Str) (n : Nat) (h : ∀ s, IsLine file n s → s = []) : extractLine file n = some [] := by
  rcases seek_cases n (fileLines 1 file) with ⟨a, _⟩ | ⟨x, rest, a, b, _⟩ | ⟨y, post, h2, _, a, b, c, d⟩
  · rw [extractLine, a]
    rfl
  · have : x ∈ fileLines 1 file := by rw [a]; simp
    obtain ⟨h1, h2⟩ := mem_fileLines.1 (show (x.1, x.2) ∈ _ from this)
    rw [b] at h1
    exact absurd (h _ h1) h2
  · have : y ∈ fileLines 1 file := by rw [c]; simp
    obtain ⟨h1, h2⟩ := mem_fileLines.1 (show (y.1, y.2) ∈ _ from this)
    rw [b] at h1
    exact absurd (h _ h1) h2

example : ∀ s, IsLine [str! "a;", [], str! "b;"] 2 s → s = [] := by simp [IsLine]
example : extractLine [str! "a;", [], str! "b;"] 3 = some (str! "b;") := by decide

/-! ### C172 -/

/-- C172: brackets opened in the text are closed in it, or it reaches to the end of the file. -/
def C172_statement : Prop :=
  ∀ (file : List Str) (n : Nat) (t : Str), extractLine file n = some t → ClosedText t ∨ TextToEnd file t

/-- C172 is false: after a `return` lines are only appended up to a semicolon. -/
theorem C172_fails : ¬ C172_statement := by
  intro h
  have e : extractLine [str! "{", str! "return x +", str! "({ y = 1; f(", str! "y); });", str! "}"] 2
      = some (str! "return x +({ y = 1; f(") := by decide
  rcases h _ _ _ e with h | ⟨pre, seg, a, b⟩
  · revert h
    unfold ClosedText
    decide
  · have s : solidLines [str! "{", str! "return x +", str! "({ y = 1; f(", str! "y); });", str! "}"]
        = [(str! "{", 1), (str! "return x +", 2), (str! "({ y = 1; f(", 3), (str! "y); });", 4), (str! "}", 5)] := by decide
    rw [s] at a
    have : (str! "}", 5) ∈ seg ∨ seg = [] := by
      rcases List.eq_nil_or_concat seg with e | ⟨l, z, rfl⟩
      · exact .inr e
      · left
        rw [List.concat_eq_append, ← List.append_assoc] at a
        have := congrArg List.getLast? a
        rw [List.getLast?_concat] at this
        simp only [List.getLast?_cons_cons, List.getLast?_singleton, Option.some.injEq] at this
        rw [← this]
        simp
    rcases this with h | h
    · have : ')' ∈ (str! "}") ∨ '}' ∈ (str! "return x +({ y = 1; f(") := by
        right
        rw [b]
        exact List.mem_flatten.2 ⟨str! "}", List.mem_map.2 ⟨_, h, rfl⟩, by decide⟩
      revert this
      decide
    · rw [h] at b
      cases b

private theorem isReturn_spec {t : Str} (h : isReturn t = true) : 
    ∃ u, t.filter (fun c => decide (c ≠ ' ') && decide (c ≠ '\t')) = str! "return" ++ u := by
  unfold isReturn startsWith at h
  rw [List.isPrefixOf_iff_prefix] at h
  obtain ⟨u, e⟩ := h
  exact ⟨u, e.symm⟩

/-- C172 for texts that do not begin with `return` when spaces are left out; what is missing: those that do. -/
theorem C172_no_return_partial (file : List Str) (n : Nat) (t : Str) (e : extractLine file n = some t)
    (nr : ¬ str! "return" <+: t.filter (fun c => decide (c ≠ ' ') && decide (c ≠ '\t'))) : ClosedText t ∨ TextToEnd file t := by
  rcases seek_cases n (fileLines 1 file) with ⟨a, _⟩ | ⟨x, rest, a, b, a'⟩ | ⟨y, post, h2, _, a, b, c, d⟩
  · rw [extractLine, a] at e
    cases e
    exact .inl (by unfold ClosedText; decide)
  · rw [extractLine, a'] at e
    cases e
    exact .inl (Nat.le_refl 0)
  · rcases extract_cases a c d with ⟨v, seg, rest, t', ⟨w, rfl⟩, e1, e2, rfl, e3⟩ | ⟨v, t', hv, e1, _, _⟩
    · rw [e] at e2
      cases e2
      rcases e3 with e3 | e3 | e3
      · left
        unfold openBrackets at e3
        unfold ClosedText
        have := of_decide_eq_false e3
        omega
      · right
        subst e3
        refine ⟨w.map fun x => (x.2, x.1), (v ++ y :: seg).map fun x => (x.2, x.1), ?_, ?_⟩
        · rw [solid_of_lines, c, e1]
          simp
        · simp [linesText, List.map_map, Function.comp_def]
      · obtain ⟨u, hu⟩ := isReturn_spec e3
        exact absurd ⟨u, hu.symm⟩ nr
    · rw [e] at e1
      cases e1

example : extractLine [str! "{", str! "f(x,", str! "g(y,", str! "z),", str! "u);", str! "}"] 2 = some (str! "f(x,g(y,z),u);") := by decide

/-! ### C173 -/

/-- C173: the search for the text of a line does not read behind the end of the file. -/
def C173_statement : Prop := ∀ (file : List Str) (n : Nat), extractLine file n ≠ none

/-- C173 is false for files that end inside a `return`, such as ones that are included into functions. -/
theorem C173_fails : ¬ C173_statement := fun h => h [str! "/* body */", str! "return f("] 2 (by decide)

/-- C173 if there is a semicolon in the line or later; what is missing: files without one. -/
theorem C173_semicolon_partial (file : List Str) (n : Nat) (h : SemicolonFrom file n) : extractLine file n ≠ none := by
  intro e
  rcases seek_cases n (fileLines 1 file) with ⟨a, _⟩ | ⟨x, rest, a, b, a'⟩ | ⟨y, post, h2, _, a, b, c, d⟩
  · rw [extractLine, a] at e
    cases e
  · rw [extractLine, a'] at e
    cases e
  · rcases extract_cases a c d with ⟨v, seg, rest, t', hv, e1, e2, rfl, e3⟩ | ⟨v, t', hv, e1, rfl, e3⟩
    · rw [e] at e2
      cases e2
    · unfold noSemicolon at e3
      refine of_decide_eq_true e3 ?_
      obtain ⟨m, s, le, hs, hc⟩ := h
      have hm := mem_fileLines.2 ⟨hs, List.ne_nil_of_mem hc⟩
      have p := (fileLines_nodup file 1).1
      rw [c] at hm p
      refine List.mem_flatten.2 ⟨s, List.mem_map.2 ⟨(m, s), List.mem_append_right _ ?_, rfl⟩, hc⟩
      rcases List.mem_append.1 hm with hm | hm
      · have := (List.pairwise_append.1 p).2.2 _ hm y (by simp)
        dsimp only at this
        omega
      · exact hm

example : SemicolonFrom [str! "int f(int x) {", str! "return f(", str! "x);", str! "}"] 2 :=
  ⟨3, str! "x);", by decide, by simp [IsLine], by decide⟩

end DK
