import Verif.Spec.SyntaxDiff
import Verif.Props.YamlOut

/-! Syntax diffs: C30, C31 and C79. -/

set_option autoImplicit false

namespace DK
open Spec

/-! ### Numbers in texts -/

theorem dec_digit {n : Nat} {c : Char} (h : c ∈ dec n) : c.isDigit = true :=
  Nat.isDigit_of_mem_toDigits (by decide) (by decide) h
theorem dec_ne_nil (n : Nat) : dec n ≠ [] := Nat.toDigits_ne_nil
theorem digitsVal_dec (n : Nat) : digitsVal (dec n) = n := Nat.ofDigitChars_ten_toDigits
theorem intStr_nat (n : Nat) : intStr (n : Int) = dec n := rfl
theorem intStr_shift (a k : Nat) (hk : 1 ≤ k) : intStr ((a : Int) + k - 1) = dec (a + k - 1) := by
  rw [← intStr_nat]; congr 1; omega

/-- Digits are read up to the first other character. -/
theorem takeWhile_dec (n : Nat) (s : Str) (h : ∀ c ∈ s.head?, c.isDigit = false) :
    (dec n ++ s).takeWhile Char.isDigit = dec n ∧ (dec n ++ s).dropWhile Char.isDigit = s := by
  constructor
  · rw [List.takeWhile_append_of_pos (fun c hc => dec_digit hc)]
    cases s with
    | nil => simp
    | cons c s => simp [h c (by simp)]
  · rw [List.dropWhile_append_of_pos (fun c hc => dec_digit hc)]
    cases s with
    | nil => simp
    | cons c s => simp [h c (by simp)]

theorem optCount_spec (c : Option Nat) (s : Str) (h : ∀ x ∈ s.head?, x.isDigit = false ∧ x ≠ ',') :
    optCount (countStr c ++ s) = (countStr c, s) := by
  cases c with
  | none =>
    cases s with
    | nil => rfl
    | cons x s =>
      have := (h x (by simp)).2
      simp only [countStr, List.nil_append]
      unfold optCount
      split
      · rename_i heq; cases heq; exact absurd rfl this
      · rfl
  | some n =>
    simp only [countStr, List.cons_append]
    unfold optCount
    obtain ⟨h1, h2⟩ := takeWhile_dec n s (fun c hc => (h c hc).1)
    simp only [h1, h2, dec_ne_nil, if_false]

theorem countStr_head (c : Option Nat) (s : Str) (h : ∀ x ∈ s.head?, x.isDigit = false) :
    ∀ x ∈ (countStr c ++ s).head?, x.isDigit = false := by
  cases c with
  | none => exact h
  | some n => intro x hx; simp [countStr] at hx; subst hx; rfl

theorem dropPrefix_append (p s : Str) : dropPrefix p (p ++ s) = some s := by
  unfold dropPrefix
  rw [if_pos (by unfold startsWith; exact List.isPrefixOf_iff_prefix.2 ⟨s, rfl⟩), List.drop_left]

theorem parseHunk_render (a : Nat) (c : Option Nat) (b : Nat) (d : Option Nat) :
    parseHunk (ULine.render (.hunk a c b d)) = some (dec a, countStr c, dec b, countStr d) := by
  unfold ULine.render parseHunk
  simp only [List.append_assoc]
  rw [dropPrefix_append]
  simp only
  obtain ⟨h1, h2⟩ := takeWhile_dec a (countStr c ++ (str! " +" ++ (dec b ++ (countStr d ++ str! " @@"))))
    (countStr_head c _ (by simp))
  rw [h1, h2, optCount_spec c _ (by simp), if_neg (dec_ne_nil a)]
  simp only
  rw [dropPrefix_append]
  simp only
  obtain ⟨h3, h4⟩ := takeWhile_dec b (countStr d ++ str! " @@") (countStr_head d _ (by simp))
  rw [h3, h4, optCount_spec d _ (by simp), if_neg (dec_ne_nil b)]
  simp

theorem parseHunk_text {s : Str} (h : s.head? ≠ some '@') : parseHunk s = none := by
  unfold parseHunk dropPrefix startsWith
  cases s with
  | nil => rfl
  | cons c s =>
    have : c ≠ '@' := fun e => h (by simp [e])
    simp [this.symm]

/-! ### C30 -/

theorem fixUnified_line (first second : Nat) (h1 : 1 ≤ first) (h2 : 1 ≤ second) (l : ULine) (hl : l.Ok) :
    fixUnified first second l.render = (l.shift first second).render := by
  cases l with
  | hunk a c b d =>
    unfold fixUnified
    rw [parseHunk_render]
    simp only [digitsVal_dec, intStr_shift _ _ h1, intStr_shift _ _ h2, ULine.shift, ULine.render]
  | text s =>
    unfold fixUnified
    simp only [ULine.render, ULine.shift]
    rw [parseHunk_text hl.1]

theorem render_no_newline (l : ULine) (hl : l.Ok) : '\n' ∉ l.render := by
  cases l with
  | text s => exact hl.2
  | hunk a c b d =>
    have hd : ∀ n, '\n' ∉ dec n := fun n h => by have := dec_digit h; revert this; decide
    have hc : ∀ c, '\n' ∉ countStr c := by
      intro c; cases c with
      | none => simp [countStr]
      | some n => simp [countStr, hd]
    simp [ULine.render, hd, hc]

/-- **C30**: whatever the program `diff` outputs for the extracted functions, if it is a unified diff, then the diff shown is
the same one with the line numbers of the source files; an empty diff is shown as it is. -/
theorem C30_line_numbers (tool : List Str → List Str → Str) (lines1 lines2 : List Str) (first second end1 end2 : Nat)
    (h1 : 1 ≤ first) (h2 : 1 ≤ second) (ls : List ULine) (hok : ∀ l ∈ ls, l.Ok)
    (hdiff : tool (extractCode lines1 first end1) (extractCode lines2 second end2) = joinChar '\n' (ls.map ULine.render))
    (hhunk : ∃ a c b d, ULine.hunk a c b d ∈ ls) :
    unifiedSyntaxDiff tool lines1 lines2 first second end1 end2 =
      joinChar '\n' ((ls.map (ULine.shift first second)).map ULine.render) := by
  have hsplit : splitChar '\n' (joinChar '\n' (ls.map ULine.render)) = ls.map ULine.render := by
    refine splitChar_join '\n' _ ?_ ?_
    · obtain ⟨a, c, b, d, h⟩ := hhunk
      intro e
      rw [List.map_eq_nil_iff.1 e] at h
      cases h
    · intro w hw
      obtain ⟨l, hl, rfl⟩ := List.mem_map.1 hw
      exact render_no_newline l (hok l hl)
  have hat : ∃ c ∈ joinChar '\n' (ls.map ULine.render), c = '@' := by
    obtain ⟨a, c, b, d, h⟩ := hhunk
    have hm : ULine.render (.hunk a c b d) ∈ splitChar '\n' (joinChar '\n' (ls.map ULine.render)) := by
      rw [hsplit]; exact List.mem_map_of_mem h
    exact ⟨'@', (mem_splitChar hm).2 '@' (by simp [ULine.render]), rfl⟩
  unfold unifiedSyntaxDiff
  simp only [hdiff]
  rw [if_neg, hsplit, List.map_map, List.map_map]
  · congr 1
    apply List.map_congr_left
    intro l hl
    exact fixUnified_line first second h1 h2 l (hok l hl)
  · obtain ⟨c, hc, rfl⟩ := hat
    rintro (h | h)
    · simp only [isSpace, Bool.and_eq_true, List.all_eq_true] at h
      have := h.2 '@' hc
      revert this; decide
    · rw [h] at hc; cases hc

example : unifiedSyntaxDiff (fun _ _ => joinChar '\n' [str! "--- 1", str! "@@ -2,3 +2 @@", str! "-x"]) [] [] 10 20 0 0 =
    joinChar '\n' [str! "--- 1", str! "@@ -11,3 +21 @@", str! "-x"] := by decide

example : (ULine.hunk 2 (some 3) 2 none).render = str! "@@ -2,3 +2 @@" := by decide

/-! ### C31 -/

theorem extract_spec (lines : List Str) (i j : Nat) (hi : 1 ≤ i) : extractCode lines i j = linesFromTo lines i j := by
  unfold extractCode linesFromTo
  rw [if_neg (by omega)]
  have key : ∀ (l : List Str) (k : Nat), (l.zipIdx k).filterMap (fun p => if i ≤ p.2 ∧ p.2 ≤ j then some p.1 else none) =
      (l.take (j + 1 - k)).drop (i - k) := by
    intro l
    induction l with
    | nil => intro k; simp
    | cons a l ih =>
      intro k
      rw [List.zipIdx_cons, List.filterMap_cons]
      simp only [ih (k + 1)]
      by_cases h1 : k ≤ j
      · rw [show j + 1 - k = (j + 1 - (k + 1)) + 1 from by omega, List.take_succ_cons]
        by_cases h2 : i ≤ k
        · rw [if_pos ⟨h2, h1⟩, show i - k = 0 from by omega, show i - (k + 1) = 0 from by omega]; simp
        · rw [if_neg (by omega), show i - k = (i - (k + 1)) + 1 from by omega, List.drop_succ_cons]
      · rw [if_neg (by omega), show j + 1 - k = 0 from by omega, show j + 1 - (k + 1) = 0 from by omega]; simp
  rw [key lines 1]; rfl

/-- The texts `t1` and `t2` are the ones compared: the result depends on the answer of `diff` for them only, and it is empty
if that answer is empty. -/
def ComparesTexts (kind : DefKind) (lines1 lines2 : List Str) (first second : Nat) (t1 t2 : List Str) : Prop :=
  (∀ tool tool' : List Str → List Str → Str, tool t1 t2 = tool' t1 t2 →
    contextSyntaxDiff tool kind (some lines1) (some lines2) first second =
      contextSyntaxDiff tool' kind (some lines1) (some lines2) first second) ∧
  ∀ tool : List Str → List Str → Str, tool t1 t2 = [] →
    contextSyntaxDiff tool kind (some lines1) (some lines2) first second = .ok []

/-- **C31** (full statement): the texts compared for two functions (types) are the lines from their starts to the first
lines that end a definition; if one of these is missing, the diff cannot be obtained. -/
def C31_statement : Prop :=
  ∀ (kind : DefKind) (lines1 lines2 : List Str) (first second : Nat),
    ∃ e1 e2, FirstEnd kind lines1 first e1 ∧ FirstEnd kind lines2 second e2 ∧
      (∀ j1 j2, e1 = some j1 → e2 = some j2 → ComparesTexts kind lines1 lines2 first second (linesFromTo lines1 first j1)
        (linesFromTo lines2 second j2)) ∧
      (e1 = none ∨ e2 = none → ∀ tool, contextSyntaxDiff tool kind (some lines1) (some lines2) first second = .ok notObtained)

/-- It is violated: a start after the end of the file raises an exception (which ends the whole comparison). -/
theorem C31_fails : ¬ C31_statement := by
  intro h
  obtain ⟨e1, e2, h1, _, _, h4⟩ := h .function [str! "}"] [str! "}"] 2 1
  have : e1 = none := by
    cases e1 with
    | none => rfl
    | some n =>
      obtain ⟨hn, ⟨i, l, rfl, hl, _⟩, _⟩ := (h1 n).1 rfl
      have := (List.getElem?_eq_some_iff.1 hl).1
      simp at this
      omega
  have := h4 (Or.inl this) (fun _ _ => [])
  revert this; decide

/-- **C31** (partial): it holds if the starts are lines of the files. Missing: starts outside the files. -/
theorem C31_extraction_partial (kind : DefKind) (lines1 lines2 : List Str) (first second : Nat)
    (h1 : 1 ≤ first) (h1' : first ≤ lines1.length) (h2 : 1 ≤ second) (h2' : second ≤ lines2.length) :
    ∃ e1 e2, FirstEnd kind lines1 first e1 ∧ FirstEnd kind lines2 second e2 ∧
      (∀ j1 j2, e1 = some j1 → e2 = some j2 → ComparesTexts kind lines1 lines2 first second (linesFromTo lines1 first j1)
        (linesFromTo lines2 second j2)) ∧
      (e1 = none ∨ e2 = none →
        ∀ tool, contextSyntaxDiff tool kind (some lines1) (some lines2) first second = .ok notObtained) := by
  obtain ⟨e1, he1, hf1⟩ := C77_endLine_partial kind lines1 first h1 h1'
  obtain ⟨e2, he2, hf2⟩ := C77_endLine_partial kind lines2 second h2 h2'
  refine ⟨e1, e2, hf1, hf2, ?_, ?_⟩
  · rintro j1 j2 rfl rfl
    constructor
    · intro tool tool' ht
      unfold contextSyntaxDiff
      simp only [he1, he2, extract_spec _ _ _ h1, extract_spec _ _ _ h2, ht]
    · intro tool ht
      unfold contextSyntaxDiff
      simp only [he1, he2, extract_spec _ _ _ h1, extract_spec _ _ _ h2, ht]
      simp
  · intro h tool
    unfold contextSyntaxDiff
    simp only [he1]
    cases e1 with
    | none => rfl
    | some j1 =>
      simp only [he2]
      cases e2 with
      | none => rfl
      | some j2 => simp at h

example : linesFromTo [str! "a", str! "b", str! "c", str! "d"] 2 3 = [str! "b", str! "c"] := by decide

/-! ### C79 -/

/-- **C79** (full statement): for two functions that end in `j1` and `j2`, if `diff` outputs a context diff for them, the
diff shown consists of its lines with the numbers of the source files and the header of the function. -/
def C79_statement : Prop :=
  ∀ (tool : List Str → List Str → Str) (kind : DefKind) (lines1 lines2 : List Str) (first second j1 j2 : Nat)
    (n1 n2 : Str) (ls : List CLine),
    1 ≤ first → 1 ≤ second → FirstEnd kind lines1 first (some j1) → FirstEnd kind lines2 second (some j2) →
    '\n' ∉ n1 → '\n' ∉ n2 → n1 ≠ [] ∧ pySpace (n1.head?.getD ' ') = false → (∀ l ∈ ls, l.Ok) →
    tool (linesFromTo lines1 first j1) (linesFromTo lines2 second j2) = contextText n1 n2 ls →
    contextSyntaxDiff tool kind (some lines1) (some lines2) first second =
      .ok (joinChar '\n' (ls.map (CLine.shown first second (strip ((lines1[first - 1]?).getD []))) ++ [[]]))

/-- It is violated: a source line that consists of numbers is changed as if it gave the lines of a hunk; if it ends with a
comma, an exception is raised. -/
theorem C79_fails : ¬ C79_statement := by
  intro h
  have hend : FirstEnd .function [str! "int a[] = {", str! "1, 2", str! "}"] 1 (some 3) := by
    obtain ⟨r, h1, h2⟩ := C77_endLine_partial .function [str! "int a[] = {", str! "1, 2", str! "}"] 1 (by decide) (by decide)
    have : r = some 3 := by
      have e : getEndLine .function [str! "int a[] = {", str! "1, 2", str! "}"] 1 = .ok (some 3) := by decide
      rw [e] at h1; cases h1; rfl
    exact this ▸ h2
  have := h (fun _ _ => contextText (str! "1") (str! "2") [.sep, .old 1 (some 3), .text ' ' (str! "1, 2")]) .function
    [str! "int a[] = {", str! "1, 2", str! "}"] [str! "int a[] = {", str! "1, 2", str! "}"] 1 1 3 3 (str! "1") (str! "2")
    [.sep, .old 1 (some 3), .text ' ' (str! "1, 2")] (by decide) (by decide) hend hend (by decide) (by decide) (by decide)
    (by
      intro l hl
      simp only [List.mem_cons, List.not_mem_nil, or_false] at hl
      rcases hl with rfl | rfl | rfl
      · trivial
      · trivial
      · exact ⟨by decide, by decide⟩) rfl
  revert this; decide

/-- A trailing comma in such a line raises a `ValueError`, so that the function gets the verdict error. -/
theorem C79_fails_error :
    fixContext 1 1 (str! "int a[] = {") (CLine.render (.text ' ' (str! "1, 2,"))) = .error .valueError := by decide

theorem numberChar_digit {c : Char} (h : c.isDigit = true) : numberChar c = true := by simp [numberChar, h]

/-- A line with another character, or without digits, is not changed unless it consists of stars. -/
theorem fixContext_id {first second : Nat} {head line : Str} (hs : line = [] ∨ ∃ c ∈ line, c ≠ '*')
    (h : NotNumbers line) : fixContext first second head line = .ok line := by
  unfold fixContext
  have h0 : ¬ (line ≠ [] ∧ ∀ c ∈ line, c = '*') := by
    rintro ⟨h1, h2⟩
    rcases hs with rfl | ⟨c, hc, hne⟩
    · exact h1 rfl
    · exact hne (h2 c hc)
  simp only [if_neg h0]
  rw [if_pos]
  rcases h with ⟨c, hc, h1, h2⟩ | h
  · left
    rw [Bool.eq_false_iff]
    intro hall
    have := List.all_eq_true.1 hall c hc
    simp only [numberChar, h2, Bool.or_false, decide_eq_true_eq] at this
    exact h1 this
  · right
    rw [Bool.eq_false_iff]
    intro hany
    obtain ⟨c, hc, hd⟩ := List.any_eq_true.1 hany
    rw [h c hc] at hd; cases hd

theorem fixContext_sep {first second : Nat} {head : Str} (h : NotNumbers head) :
    fixContext first second head (CLine.render .sep) = .ok (CLine.shown first second head .sep) := by
  unfold fixContext
  have h0 : CLine.render .sep ≠ [] ∧ ∀ c ∈ CLine.render .sep, c = '*' := by
    constructor
    · simp [CLine.render]
    · intro c hc; exact List.eq_of_mem_replicate hc
  simp only [if_pos h0]
  rw [if_pos]
  · rfl
  · rcases h with ⟨c, hc, h1, h2⟩ | h
    · left
      rw [Bool.eq_false_iff]
      intro hall
      have := List.all_eq_true.1 hall c (by simp [hc])
      simp only [numberChar, h2, Bool.or_false, decide_eq_true_eq] at this
      exact h1 this
    · right
      rw [Bool.eq_false_iff]
      intro hany
      obtain ⟨c, hc, hd⟩ := List.any_eq_true.1 hany
      simp only [List.mem_append, List.mem_cons] at hc
      rcases hc with hc | rfl | hc
      · rw [List.eq_of_mem_replicate hc] at hd; revert hd; decide
      · revert hd; decide
      · rw [h c hc] at hd; cases hd

theorem range_chars (a : Nat) (b : Option Nat) {c : Char} (h : c ∈ rangeStr a b) : c = ',' ∨ c.isDigit = true := by
  unfold rangeStr at h
  rcases List.mem_append.1 h with h | h
  · exact Or.inr (dec_digit h)
  · cases b with
    | none => cases h
    | some b =>
      rcases List.mem_cons.1 h with h | h
      · exact Or.inl h
      · exact Or.inr (dec_digit h)

theorem splitChar_range (a : Nat) (b : Option Nat) :
    splitChar ',' (rangeStr a b) = match b with | none => [dec a] | some b => [dec a, dec b] := by
  have hd : ∀ n, ',' ∉ dec n := fun n h => by have := dec_digit h; revert this; decide
  cases b with
  | none => unfold rangeStr; rw [countStr, List.append_nil]; exact splitChar_none _ _ (hd a)
  | some b =>
    unfold rangeStr
    rw [countStr, splitChar_append _ _ _ (hd a), splitChar_none _ _ (hd b)]

theorem parseInt_dec (n : Nat) : parseInt (dec n) = .ok (n : Int) := by
  unfold parseInt; rw [if_neg (dec_ne_nil n), digitsVal_dec]

/-- A line of numbers between marks. -/
theorem fixContext_range {first second : Nat} {head : Str} (h1 : 1 ≤ first) (h2 : 1 ≤ second) (a : Nat) (b : Option Nat)
    (m : Char) (hm : m = '*' ∨ m = '-') :
    fixContext first second head (List.replicate 3 m ++ ' ' :: rangeStr a b ++ ' ' :: List.replicate 4 m) =
      .ok (List.replicate 3 m ++ ' ' :: rangeStr (a + (if m = '*' then first else second) - 1)
        (b.map (· + (if m = '*' then first else second) - 1)) ++ ' ' :: List.replicate 3 m) := by
  have hk : 1 ≤ (if m = '*' then first else second) := by split <;> assumption
  generalize hkk : (if m = '*' then first else second) = k at hk
  have hdig : ∃ c ∈ rangeStr a b, c.isDigit = true := by
    obtain ⟨c, hc⟩ := List.exists_mem_of_ne_nil _ (dec_ne_nil a)
    exact ⟨c, by simp [rangeStr, hc], dec_digit hc⟩
  unfold fixContext
  have h0 : ¬ ((List.replicate 3 m ++ ' ' :: rangeStr a b ++ ' ' :: List.replicate 4 m) ≠ [] ∧
      ∀ c ∈ (List.replicate 3 m ++ ' ' :: rangeStr a b ++ ' ' :: List.replicate 4 m), c = '*') := by
    rintro ⟨_, h⟩
    have := h ' ' (by simp)
    revert this; decide
  simp only [if_neg h0]
  rw [if_neg]
  · have hcount : (List.replicate 3 m ++ ' ' :: rangeStr a b ++ ' ' :: List.replicate 4 m).count '*' =
        if m = '*' then 7 else 0 := by
      have hr : (rangeStr a b).count '*' = 0 := by
        rw [List.count_eq_zero]
        intro h
        rcases range_chars a b h with h | h
        · revert h; decide
        · revert h; decide
      rw [List.count_append, List.count_append, List.count_cons, List.count_cons, hr, List.count_replicate,
        List.count_replicate]
      by_cases hm' : m = '*'
      · subst hm'; rfl
      · have hb : (m == '*') = false := by simpa using hm'
        simp [hb, hm']
    have hfilter : (List.replicate 3 m ++ ' ' :: rangeStr a b ++ ' ' :: List.replicate 4 m).filter
        (fun c => decide (c ∉ ['*', '-', ' '])) = rangeStr a b := by
      have hrep : ∀ n, (List.replicate n m).filter (fun c => decide (c ∉ ['*', '-', ' '])) = [] := by
        intro n
        rw [List.filter_eq_nil_iff]
        intro c hc
        rw [List.eq_of_mem_replicate hc]
        rcases hm with rfl | rfl <;> decide
      have hr : (rangeStr a b).filter (fun c => decide (c ∉ ['*', '-', ' '])) = rangeStr a b := by
        rw [List.filter_eq_self]
        intro c hc
        rcases range_chars a b hc with rfl | h
        · decide
        · simp only [List.mem_cons, List.not_mem_nil, or_false, decide_eq_true_eq]
          rintro (rfl | rfl | rfl) <;> revert h <;> decide
      rw [List.filter_append, List.filter_append, hrep, List.filter_cons_of_neg (by decide), hr,
        List.filter_cons_of_neg (by decide), hrep]
      simp
    rw [hcount, hfilter, splitChar_range]
    have hstar : decide (1 < if m = '*' then 7 else 0) = decide (m = '*') := by
      by_cases hm' : m = '*' <;> simp [hm']
    have hrep : List.replicate 3 (if decide (m = '*') = true then '*' else '-') = List.replicate 3 m := by
      rcases hm with rfl | rfl <;> rfl
    have hif : (if decide (m = '*') = true then first else second) = k := by rw [← hkk]; simp
    cases b with
    | none =>
      simp only [mapExcept, parseInt_dec, hstar, hrep]
      have : intStr ((a : Int) + ((if decide (m = '*') = true then first else second : Nat) : Int) - 1) = dec (a + k - 1) := by
        rw [hif]; exact intStr_shift a k hk
      simp [joinChar, rangeStr, countStr, ← this]
    | some b =>
      simp only [mapExcept, parseInt_dec, hstar, hrep]
      have e1 : intStr ((a : Int) + ((if decide (m = '*') = true then first else second : Nat) : Int) - 1) = dec (a + k - 1) := by
        rw [hif]; exact intStr_shift a k hk
      have e2 : intStr ((b : Int) + ((if decide (m = '*') = true then first else second : Nat) : Int) - 1) = dec (b + k - 1) := by
        rw [hif]; exact intStr_shift b k hk
      simp [joinChar, rangeStr, countStr, ← e1, ← e2]
  · rintro (h | h)
    · rw [Bool.eq_false_iff] at h
      apply h
      rw [List.all_eq_true]
      intro c hc
      have hmn : numberChar m = true := by rcases hm with rfl | rfl <;> rfl
      simp only [List.mem_append, List.mem_cons] at hc
      rcases hc with (hc | rfl | hc) | rfl | hc
      · rw [List.eq_of_mem_replicate hc]; exact hmn
      · rfl
      · rcases range_chars a b hc with rfl | h
        · rfl
        · exact numberChar_digit h
      · rfl
      · rw [List.eq_of_mem_replicate hc]; exact hmn
    · rw [Bool.eq_false_iff] at h
      apply h
      obtain ⟨c, hc, hd⟩ := hdig
      exact List.any_eq_true.2 ⟨c, by simp [hc], hd⟩

theorem fixContext_line {first second : Nat} {head : Str} (h1 : 1 ≤ first) (h2 : 1 ≤ second) (hh : NotNumbers head)
    (l : CLine) (hl : l.Ok) (hn : ∀ m s, l = .text m s → m = ' ' ∨ m = '-' → NotNumbers s) :
    fixContext first second head l.render = .ok (l.shown first second head) := by
  cases l with
  | sep => exact fixContext_sep hh
  | old a b => exact fixContext_range h1 h2 a b '*' (Or.inl rfl)
  | new a b => exact fixContext_range h1 h2 a b '-' (Or.inr rfl)
  | text m s =>
    refine fixContext_id (Or.inr ⟨' ', by simp [CLine.render], by decide⟩) ?_
    have hm := hl.1
    simp only [List.mem_cons, List.not_mem_nil, or_false] at hm
    have lift : NotNumbers s → m.isDigit = false → NotNumbers (m :: ' ' :: s) := by
      intro h hd
      rcases h with ⟨c, hc, h⟩ | h
      · exact Or.inl ⟨c, by simp [hc], h⟩
      · refine Or.inr (fun c hc => ?_)
        simp only [List.mem_cons] at hc
        rcases hc with rfl | rfl | hc
        · exact hd
        · rfl
        · exact h c hc
    rcases hm with rfl | rfl | rfl | rfl | rfl
    · exact lift (hn ' ' s rfl (Or.inl rfl)) rfl
    · exact Or.inl ⟨'!', by simp [CLine.render], by decide, rfl⟩
    · exact Or.inl ⟨'+', by simp [CLine.render], by decide, rfl⟩
    · exact lift (hn '-' s rfl (Or.inr rfl)) rfl
    · exact Or.inl ⟨'\\', by simp [CLine.render], by decide, rfl⟩

theorem crender_no_newline (l : CLine) (hl : l.Ok) : '\n' ∉ l.render := by
  have hr : ∀ a b, '\n' ∉ rangeStr a b := by
    intro a b h
    rcases range_chars a b h with h | h
    · revert h; decide
    · revert h; decide
  cases l with
  | sep => decide
  | old a b => simp [CLine.render, hr]
  | new a b => simp [CLine.render, hr]
  | text m s =>
    have hm := hl.1
    simp only [CLine.render, List.mem_cons, not_or]
    refine ⟨?_, by decide, hl.2⟩
    rintro rfl
    revert hm; decide

theorem mapExcept_map {α β : Type} (f : α → Except PyErr β) (g : α → β) :
    ∀ (l : List α), (∀ a ∈ l, f a = .ok (g a)) → mapExcept f l = .ok (l.map g)
  | [], _ => rfl
  | a :: l, h => by
    rw [mapExcept, h a (by simp)]
    simp only
    rw [mapExcept_map f g l (fun x hx => h x (by simp [hx]))]
    rfl

/-- **C79** (partial): it holds if neither the header of the function nor a source line marked with a blank or a dash
consists of numbers. Missing: such lines. -/
theorem C79_context_diff_partial (tool : List Str → List Str → Str) (kind : DefKind) (lines1 lines2 : List Str)
    (first second j1 j2 : Nat) (n1 n2 : Str) (ls : List CLine) (h1 : 1 ≤ first) (h2 : 1 ≤ second)
    (he1 : FirstEnd kind lines1 first (some j1)) (he2 : FirstEnd kind lines2 second (some j2))
    (hn1 : '\n' ∉ n1) (hn2 : '\n' ∉ n2) (hn : n1 ≠ [] ∧ pySpace (n1.head?.getD ' ') = false) (hok : ∀ l ∈ ls, l.Ok)
    (htool : tool (linesFromTo lines1 first j1) (linesFromTo lines2 second j2) = contextText n1 n2 ls)
    (hhead : NotNumbers (strip ((lines1[first - 1]?).getD [])))
    (htext : ∀ m s, CLine.text m s ∈ ls → m = ' ' ∨ m = '-' → NotNumbers s) :
    contextSyntaxDiff tool kind (some lines1) (some lines2) first second =
      .ok (joinChar '\n' (ls.map (CLine.shown first second (strip ((lines1[first - 1]?).getD []))) ++ [[]])) := by
  have hlen : ∀ {lines : List Str} {i j : Nat}, FirstEnd kind lines i (some j) → i ≤ j ∧ j ≤ lines.length := by
    intro lines i j h
    obtain ⟨a, ⟨k, l, rfl, hl, _⟩, _⟩ := (h j).1 rfl
    have := (List.getElem?_eq_some_iff.1 hl).1
    omega
  have huniq : ∀ {lines : List Str} {i : Nat} {r r' : Option Nat}, FirstEnd kind lines i r → FirstEnd kind lines i r' → r = r' := by
    intro lines i r r' h h'
    ext n
    exact (h n).trans (h' n).symm
  obtain ⟨l1, l1'⟩ := hlen he1
  obtain ⟨l2, l2'⟩ := hlen he2
  obtain ⟨r1, hr1, hf1⟩ := C77_endLine_partial kind lines1 first h1 (by omega)
  obtain ⟨r2, hr2, hf2⟩ := C77_endLine_partial kind lines2 second h2 (by omega)
  obtain rfl := huniq hf1 he1
  obtain rfl := huniq hf2 he2
  have hfrag : (linesFromTo lines1 first j1).head? = lines1[first - 1]? := by
    rw [← extract_spec _ _ _ h1]
    unfold extractCode
    rw [if_neg (by omega), List.head?_drop, List.getElem?_take_of_lt (by omega)]
  have hsplit : splitChar '\n' (contextText n1 n2 ls) = n1 :: n2 :: (ls.map CLine.render ++ [[]]) := by
    unfold contextText
    refine splitChar_join '\n' _ (by simp) ?_
    intro w hw
    simp only [List.mem_cons, List.mem_append, List.mem_map, List.not_mem_nil, or_false] at hw
    rcases hw with rfl | rfl | ⟨l, hl, rfl⟩ | rfl
    · exact hn1
    · exact hn2
    · exact crender_no_newline l (hok l hl)
    · simp
  unfold contextSyntaxDiff
  simp only [hr1, hr2, extract_spec _ _ _ h1, extract_spec _ _ _ h2, htool, hfrag]
  rw [if_neg, hsplit]
  · simp only [List.drop_succ_cons, List.drop_zero]
    rw [show ls.map CLine.render ++ [[]] = (ls.map some ++ [none]).map (fun o : Option CLine => (o.map CLine.render).getD []) from by
      simp [Function.comp_def]]
    have hmap : ∀ (f : Str → Except PyErr Str) (l : List (Option CLine)),
        mapExcept f (l.map (fun o => (o.map CLine.render).getD [])) = mapExcept (fun o => f ((o.map CLine.render).getD [])) l := by
      intro f l
      induction l with
      | nil => rfl
      | cons a l ih => simp only [List.map_cons, mapExcept, ih]
    rw [hmap, mapExcept_map _ (fun o => (o.map (CLine.shown first second (strip ((lines1[first - 1]?).getD [])))).getD [])]
    · simp [Function.comp_def]
    · intro o ho
      simp only [List.mem_append, List.mem_map, List.mem_singleton] at ho
      rcases ho with ⟨l, hl, rfl⟩ | rfl
      · exact fixContext_line h1 h2 hhead l (hok l hl) (fun m s e hm => htext m s (e ▸ hl) hm)
      · exact fixContext_id (Or.inl rfl) (Or.inr (by simp))
  · have hc : ∃ c ∈ contextText n1 n2 ls, pySpace c = false := by
      cases n1 with
      | nil => exact absurd rfl hn.1
      | cons c n1 => exact ⟨c, by simp [contextText, joinChar], hn.2⟩
    obtain ⟨c, hc, hs⟩ := hc
    rintro (h | h)
    · simp only [isSpace, Bool.and_eq_true, List.all_eq_true] at h
      rw [h.2 c hc] at hs; cases hs
    · rw [h] at hc; cases hc

example : contextSyntaxDiff (fun _ _ => contextText (str! "*** 1") (str! "--- 2")
      [.sep, .old 1 (some 3), .text '!' (str! "1, 2"), .new 2 none]) .function
      (some [str! "x", str! "int f() {", str! "1, 2", str! "}"]) (some [str! "f {", str! "}"]) 2 1 =
    .ok (joinChar '\n' [str! "*************** int f() {", str! "*** 2,4 ***", str! "! 1, 2", str! "--- 2 ---", []]) := by decide

end DK
