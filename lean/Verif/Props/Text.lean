import Verif.Lemmas.Text

/-! Properties of text processing: C36, C38, C50, C51, C60, C80. -/

set_option autoImplicit false

namespace DK
open Spec

/-! ### C60 -/

/-- **C60** Replacing a non-empty text terminates and gives the text with the occurrences, from left to right, replaced; it is
the only such text. Replacing `/` by `$` is injective on texts without `$`. -/
theorem C60_replace :
    (∀ (p q s : Str), p ≠ [] →
      ∃ t, findAndReplace p q s = some t ∧ Replaced p q s t ∧ ∀ t', Replaced p q s t' → t' = t) ∧
    (∀ (s s' : Str), '$' ∉ s → '$' ∉ s' →
      findAndReplace (str! "/") (str! "$") s = findAndReplace (str! "/") (str! "$") s' → s = s') := by
  refine ⟨fun p q s hp => ?_, fun s s' hs hs' he => ?_⟩
  · obtain ⟨t, h1, h2⟩ := findAndReplace_spec (q := q) (s := s) hp
    exact ⟨t, h1, h2, fun t' h => replaced_unique hp h h2⟩
  · have hp : (str! "/") ≠ [] := by decide
    obtain ⟨t, h1, h2⟩ := findAndReplace_spec (p := str! "/") (q := str! "$") (s := s) hp
    obtain ⟨t', h1', h2'⟩ := findAndReplace_spec (p := str! "/") (q := str! "$") (s := s') hp
    rw [h1, h1'] at he
    cases he
    have no : ∀ x : Str, '$' ∉ x → ¬ Occurs (str! "$") x := by
      rintro x hx ⟨a, b, h⟩
      exact hx (by rw [h]; show '$' ∈ a ++ ['$'] ++ b; simp)
    have b1 := replaced_back (p := str! "/") (c := '$') (q := []) (by simp) (no s hs) h2
    have b2 := replaced_back (p := str! "/") (c := '$') (q := []) (by simp) (no s' hs') h2'
    exact replaced_unique (by decide) b1 b2

example : findAndReplace (str! "aa") (str! "b") (str! "aaaxaa") = some (str! "baxb") := by decide

/-! ### C36 -/

/-- The statement of C36. -/
def C36_statement : Prop := ∀ h : List Str, enableAsm (disableAsm h) = h

/-- The code does not satisfy C36: a header that contains the text used for the replacement is changed. -/
theorem C36_fails : ¬ C36_statement := fun h => absurd (h [asmText]) (by decide)

private theorem asm_facts : 'a' ∉ asmGoto.tail ∧ 'a' ∉ asmText.tail ∧ asmGoto = 'a' :: asmGoto.tail ∧
    asmText = 'a' :: asmText.tail ∧ ∀ u v, asmGoto ++ u ≠ asmText ++ v := by
  refine ⟨by decide, by decide, by decide, by decide, fun u v h => ?_⟩
  have h1 : (asmGoto ++ u)[4]? = some 'g' := rfl
  have h2 : (asmText ++ v)[4]? = some '(' := rfl
  rw [h, h2] at h1
  exact absurd h1 (by decide)

private theorem sed_spec (p q s : Str) (hp : p ≠ []) : Replaced p q s (sedReplace p q s) := by
  obtain ⟨t, h1, h2⟩ := findAndReplace_spec (q := q) (s := s) hp
  simpa [sedReplace, h1] using h2

private theorem sed_eq {p q s t : Str} (hp : p ≠ []) (h : Replaced p q s t) : sedReplace p q s = t := by
  simp [sedReplace, findAndReplace_eq hp h]

/-- Disabled lines can be enabled again. -/
private theorem line_back {l : Str} (h : ¬ Occurs asmText l) : sedReplace asmText asmGoto (sedReplace asmGoto asmText l) = l := by
  obtain ⟨_, f2, _, f4, _⟩ := asm_facts
  refine sed_eq (by decide) ?_
  have := sed_spec asmGoto asmText l (by decide)
  rw [f4] at this h ⊢
  exact replaced_back f2 h this

/-- Disabling a line again does not change it. -/
private theorem line_idem (l : Str) : sedReplace asmGoto asmText (sedReplace asmGoto asmText l) = sedReplace asmGoto asmText l := by
  obtain ⟨f1, f2, f3, f4, f5⟩ := asm_facts
  refine sed_eq (by decide) (.stop _ ?_)
  have := sed_spec asmGoto asmText l (by decide)
  generalize sedReplace asmGoto asmText l = t at this ⊢
  rw [f3, f4] at this f5
  rw [f3]
  exact not_occurs_replaced f1 f2 f5 this

private theorem undef_goto : sedReplace asmGoto asmText undefInline = undefInline := by decide
private theorem undef_text : sedReplace asmText asmGoto undefInline = undefInline := by decide

private theorem line_ne {l : Str} (h : ¬ Occurs undefInline l) (h' : ¬ Occurs asmText l) : sedReplace asmGoto asmText l ≠ undefInline := by
  intro he
  have := line_back h'
  rw [he, undef_text] at this
  exact h ⟨[], [], by rw [← this]; simp⟩

/-- The lines of a header, without inserted ones, are the disabled lines of the original. -/
private def DisabledOf (h h' : List Str) : Prop :=
  h'.filter (fun l => decide (l ≠ undefInline)) = h.map (sedReplace asmGoto asmText)

private theorem disabledOf_step {h h' : List Str} (hd : DisabledOf h h') : DisabledOf h (disableAsm h') := by
  unfold DisabledOf at hd ⊢
  have key : ∀ k : List Str, (disableAsm k).filter (fun l => decide (l ≠ undefInline)) =
      (k.map (sedReplace asmGoto asmText)).filter (fun l => decide (l ≠ undefInline)) := by
    intro k
    induction k with
    | nil => rfl
    | cons l k ih =>
      unfold disableAsm at ih ⊢
      rw [List.map_cons, List.flatMap_cons, List.filter_append, ih]
      generalize sedReplace asmGoto asmText l = l'
      by_cases hi : hasText ifdefInline l' = true
      · rw [if_pos hi]
        by_cases hu : l' = undefInline
        · simp [hu]
        · simp [hu]
      · rw [if_neg hi]
        by_cases hu : l' = undefInline
        · simp [hu]
        · simp [hu]
  rw [key]
  -- disabling does not turn another line of `h'` into the inserted one
  have hmem : ∀ l ∈ h', l = undefInline ∨ sedReplace asmGoto asmText l = l := by
    intro l hl
    by_cases hu : l = undefInline
    · exact .inl hu
    · right
      have : l ∈ h'.filter (fun l => decide (l ≠ undefInline)) := List.mem_filter.2 ⟨hl, by simpa using hu⟩
      rw [hd] at this
      obtain ⟨l0, _, rfl⟩ := List.mem_map.1 this
      exact line_idem l0
  have hid : h'.map (sedReplace asmGoto asmText) = h' := by
    conv_rhs => rw [← List.map_id h']
    apply List.map_congr_left
    intro l hl
    rcases hmem l hl with rfl | h1
    · exact undef_goto
    · exact h1
  rw [hid, hd]

private theorem disabledOf_self {h : List Str} (hu : ∀ l ∈ h, ¬ Occurs undefInline l) (ht : ∀ l ∈ h, ¬ Occurs asmText l) :
    DisabledOf h (disableAsm h) := by
  induction h with
  | nil => rfl
  | cons l h ih =>
    have ih := ih (fun x hx => hu x (List.mem_cons_of_mem _ hx)) (fun x hx => ht x (List.mem_cons_of_mem _ hx))
    have hl := line_ne (hu l List.mem_cons_self) (ht l List.mem_cons_self)
    unfold DisabledOf disableAsm at *
    rw [List.map_cons, List.flatMap_cons, List.filter_append, ih]
    by_cases hi : hasText ifdefInline (sedReplace asmGoto asmText l) = true
    · rw [if_pos hi]; simp [hl]
    · rw [if_neg hi]; simp [hl]

private theorem enable_of {h h' : List Str} (hu : ∀ l ∈ h, ¬ Occurs undefInline l) (ht : ∀ l ∈ h, ¬ Occurs asmText l)
    (hd : DisabledOf h h') : enableAsm h' = h := by
  unfold DisabledOf at hd
  unfold enableAsm
  have h1 : (h'.map (sedReplace asmText asmGoto)).filter (fun l => !hasText undefInline l) =
      (h'.filter (fun l => decide (l ≠ undefInline))).map (sedReplace asmText asmGoto) := by
    rw [List.filter_map]
    congr 1
    apply List.filter_congr
    intro l hl
    by_cases he : l = undefInline
    · subst he; decide
    · have : l ∈ h'.filter (fun l => decide (l ≠ undefInline)) := List.mem_filter.2 ⟨hl, by simpa using he⟩
      rw [hd] at this
      obtain ⟨l0, h0, rfl⟩ := List.mem_map.1 this
      simp only [Function.comp_apply, line_back (ht l0 h0), decide_eq_true he]
      have : hasText undefInline l0 = false := by
        rw [← Bool.not_eq_true, hasText_iff]; exact hu l0 h0
      rw [this]; rfl
  rw [h1, hd, List.map_map]
  conv_rhs => rw [← List.map_id h]
  apply List.map_congr_left
  intro l hl
  exact line_back (ht l hl)

/-- **C36 (partial)** Disabling the assembler features of a header any positive number of times and enabling them restores
the header, if it contains neither of the generated texts. Missing: headers that contain them (`C36_fails`). -/
theorem C36_restored_partial (h : List Str) (hu : ∀ l ∈ h, ¬ Occurs (str! "#undef CONFIG_CC_HAS_ASM_INLINE // DiffKemp generated") l)
    (ht : ∀ l ∈ h, ¬ Occurs (str! "asm (\"goto(\" #x \")\")") l) (n : Nat) :
    enableAsm (disableAsm^[n + 1] h) = h := by
  refine enable_of hu ht ?_
  induction n with
  | zero => exact disabledOf_self hu ht
  | succ n ih =>
    rw [Function.iterate_succ_apply']
    exact disabledOf_step ih

/-- A header that is changed by disabling, and satisfies the hypotheses. -/
example :
    let h : List Str := [str! "#define asm_volatile_goto(x...) asm goto(x)", str! "#ifdef CONFIG_CC_HAS_ASM_INLINE"]
    (disableAsm^[2] h).length = 4 ∧ enableAsm (disableAsm^[2] h) = h := by
  refine ⟨by decide, C36_restored_partial _ ?_ ?_ 1⟩
  · intro l hl; rw [← hasText_iff]; revert l; decide
  · intro l hl; rw [← hasText_iff]; revert l; decide

/-! ### C38 -/

private theorem takeWhile_append_stop {α : Type} (p : α → Bool) (a b : List α) (x : α) (ha : ∀ y ∈ a, p y = true) (hx : p x = false) :
    (a ++ x :: b).takeWhile p = a := by
  induction a with
  | nil => simp [hx]
  | cons y a ih =>
    rw [List.cons_append, List.takeWhile_cons, if_pos (ha y List.mem_cons_self), ih (fun z hz => ha z (List.mem_cons_of_mem _ hz))]

theorem splitLastDot_append (pre suf : Str) (h : '.' ∉ suf) : splitLastDot (pre ++ '.' :: suf) = some (pre, suf) := by
  have h1 : ((pre ++ '.' :: suf).reverse.takeWhile (· ≠ '.')).reverse = suf := by
    have : (pre ++ '.' :: suf).reverse = suf.reverse ++ '.' :: pre.reverse := by simp
    rw [this, takeWhile_append_stop]
    · simp
    · intro y hy
      have : y ≠ '.' := fun e => h (by rw [← e]; exact List.mem_reverse.1 hy)
      simpa using this
    · simp
  unfold splitLastDot
  simp only [h1]
  rw [if_neg (by simp; omega)]
  congr 2
  have : (pre ++ '.' :: suf).length - suf.length - 1 = pre.length := by simp; omega
  rw [this]; simp

theorem splitLastDot_none (s : Str) (h : '.' ∉ s) : splitLastDot s = none := by
  have h1 : (s.reverse.takeWhile (· ≠ '.')).reverse = s := by
    have : ∀ u : Str, '.' ∉ u → u.takeWhile (· ≠ '.') = u := by
      intro u
      induction u with
      | nil => intro _; rfl
      | cons c u ih =>
        intro hu
        simp only [List.mem_cons, not_or] at hu
        rw [List.takeWhile_cons, if_pos (by simpa using Ne.symm hu.1), ih hu.2]
    rw [this _ (by simpa using h), List.reverse_reverse]
  unfold splitLastDot
  simp only [h1, if_true]

/-- A text has no dot or a last dot. -/
theorem lastDot_cases (s : Str) : '.' ∉ s ∨ ∃ pre suf, s = pre ++ '.' :: suf ∧ '.' ∉ suf := by
  induction s with
  | nil => left; simp
  | cons c s ih =>
    rcases ih with h | ⟨pre, suf, rfl, h⟩
    · by_cases hc : c = '.'
      · right; exact ⟨[], s, by simp [hc], h⟩
      · left; simp [h, Ne.symm hc]
    · right; exact ⟨c :: pre, suf, rfl, h⟩

private theorem suffix_no_dot {suf : Str} {base : Str}
    (h : ((∀ c ∈ suf, c.isDigit = true) ∧ ∃ c ∈ base, c.isDigit = false ∧ c ≠ '.') ∨ suf = str! "void") : '.' ∉ suf := by
  rcases h with ⟨h, _⟩ | rfl
  · intro hd; exact absurd (h _ hd) (by decide)
  · decide

theorem hasSuffix_iff (s : Str) : hasSuffix s = true ↔ ∃ b, Suffixed s b := by
  rcases lastDot_cases s with h | ⟨pre, suf, rfl, h⟩
  · unfold hasSuffix
    rw [splitLastDot_none s h]
    simp only [Bool.false_eq_true, false_iff]
    rintro ⟨b, suf, rfl, _⟩
    exact h (by simp)
  · unfold hasSuffix
    rw [splitLastDot_append pre suf h]
    simp only [Bool.or_eq_true, Bool.and_eq_true, List.all_eq_true, List.any_eq_true, decide_eq_true_eq, Bool.not_eq_true',
      Bool.or_eq_false_iff, decide_eq_false_iff_not]
    constructor
    · intro hh
      exact ⟨pre, suf, rfl, hh⟩
    · rintro ⟨b, suf', he, hh⟩
      have hs := suffix_no_dot hh
      have := splitLastDot_append pre suf h
      rw [he, splitLastDot_append b suf' hs] at this
      cases this
      exact hh

theorem dropSuffix_eq {s b : Str} (h : Suffixed s b) : dropSuffix s = b := by
  obtain ⟨suf, rfl, h⟩ := h
  unfold dropSuffix
  rw [splitLastDot_append b suf (suffix_no_dot h)]

theorem stem_iff (s b : Str) : Stem s b ↔ b = stem s := by
  unfold stem Stem
  by_cases h : hasSuffix s = true
  · rw [if_pos h]
    obtain ⟨b0, hb0⟩ := (hasSuffix_iff s).1 h
    constructor
    · rintro (hb | ⟨hn, _⟩)
      · exact (dropSuffix_eq hb).symm
      · exact absurd hb0 (hn b0)
    · rintro rfl
      left; rw [dropSuffix_eq hb0]; exact hb0
  · rw [if_neg h]
    have hn : ∀ b, ¬ Suffixed s b := fun b hb => h ((hasSuffix_iff s).2 ⟨b, hb⟩)
    constructor
    · rintro (hb | ⟨_, hb⟩)
      · exact absurd hb (hn b)
      · exact hb
    · intro hb; exact .inr ⟨hn, hb⟩

/-- **C38** A name has a droppable suffix iff it ends with `.void` or with a dot and digits after something other than digits
and dots; dropping it gives the text before; names match iff they agree. -/
theorem C38_names :
    (∀ s : Str, hasSuffix s = true ↔ ∃ b, Suffixed s b) ∧
    (∀ s b : Str, Suffixed s b → dropSuffix s = b) ∧
    (∀ (l r : Str), namesMatch l r true = true ↔ NamesAgree (str! "old.") l r) ∧
    (∀ (l r : Str), namesMatch l r false = true ↔ NamesAgree (str! "new.") l r) := by
  have key : ∀ (isLeft : Bool) (l r : Str), namesMatch l r isLeft = true ↔ NamesAgree (sidePrefix isLeft) l r := by
    intro isLeft l r
    have sp : ∀ x, startsWith ((str! "diffkemp.") ++ x) defaultPrefix = true := fun x => startsWith_iff.2 ⟨x, rfl⟩
    unfold NamesAgree
    simp only [stem_iff]
    constructor
    · intro h
      refine ⟨_, _, rfl, rfl, ?_⟩
      unfold namesMatch at h
      by_cases h1 : stem l = stem r
      · exact .inl h1.symm
      · rw [if_neg h1] at h
        right
        by_cases h2 : startsWith (stem r) defaultPrefix = false
        · rw [if_pos h2] at h; cases h
        · rw [if_neg h2, Bool.not_eq_false] at *
          obtain ⟨x, hx⟩ := startsWith_iff.1 h2
          simp only [hx, List.drop_left, decide_eq_true_eq] at h ⊢
          by_cases h3 : startsWith x (sidePrefix isLeft) = true
          · rw [if_pos h3] at h
            obtain ⟨y, rfl⟩ := startsWith_iff.1 h3
            right
            rw [List.drop_left] at h
            rw [h, List.append_assoc]; rfl
          · rw [if_neg h3] at h
            left
            rw [h]
            exact ⟨rfl, fun hp => h3 (startsWith_iff.2 hp)⟩
    · rintro ⟨a, b, rfl, rfl, h⟩
      unfold namesMatch
      by_cases h1 : stem l = stem r
      · rw [if_pos h1]
      · rw [if_neg h1]
        rcases h with h | ⟨h, hn⟩ | h
        · exact absurd h.symm h1
        · rw [h, if_neg (by rw [sp]; simp)]
          have : ((str! "diffkemp.") ++ stem l).drop defaultPrefix.length = stem l := List.drop_left
          rw [this]
          simp only
          rw [if_neg (fun hs => hn (startsWith_iff.1 hs))]
          simp
        · rw [h, List.append_assoc, if_neg (by rw [sp]; simp)]
          have : ((str! "diffkemp.") ++ (sidePrefix isLeft ++ stem l)).drop defaultPrefix.length = sidePrefix isLeft ++ stem l :=
            List.drop_left
          rw [this]
          simp only
          rw [if_pos (startsWith_iff.2 ⟨_, rfl⟩), List.drop_left]
          simp
  exact ⟨hasSuffix_iff, fun s b => dropSuffix_eq, key true, key false⟩

example : hasSuffix (str! "foo.12") = true ∧ dropSuffix (str! "foo.12") = str! "foo" ∧ hasSuffix (str! "1.2") = false ∧
    namesMatch (str! "foo.3") (str! "diffkemp.old.foo") true = true ∧
    namesMatch (str! "foo") (str! "diffkemp.new.foo") true = false := by decide

/-! ### C50 -/

/-- The statement of C50. -/
def C50_statement : Prop :=
  ∀ (pre post : Str) (args : List Str), (∀ a ∈ args, Argument a) →
    List.Forall₂ Stripped args (splitArguments (toMatchingBracket (pre ++ '(' :: (joinChar ',' args ++ ')' :: post)) pre.length))

/-- The code does not satisfy C50: a call without arguments is given one. -/
theorem C50_fails : ¬ C50_statement := by
  intro h
  have := h [] [] [] (by simp)
  have e : splitArguments (toMatchingBracket ([] ++ '(' :: (joinChar ',' [] ++ ')' :: [])) 0) = [[]] := by decide
  rw [show (([] : Str)).length = 0 from rfl, e] at this
  cases this

/-- An argument of spaces only is not stripped. -/
theorem C50_fails_blank : ∃ a b : Str, Argument a ∧ Argument b ∧
    ¬ List.Forall₂ Stripped [a, b] (splitArguments (toMatchingBracket ('(' :: (joinChar ',' [a, b] ++ [')'])) 0)) := by
  refine ⟨[' '], ['x'], .char _ _ (by decide) (by decide) (by decide) .nil, .char _ _ (by decide) (by decide) (by decide) .nil, ?_⟩
  have e : splitArguments (toMatchingBracket ('(' :: (joinChar ',' [[' '], ['x']] ++ [')'])) 0) = [[' '], ['x']] := by decide
  rw [e]
  intro h
  cases h with
  | cons h _ =>
    obtain ⟨_, _, _, h, _⟩ := h
    exact h rfl

private theorem bracketLoop_balanced {w : Str} (hw : Balanced w) : ∀ (rest : Str) (n : Int), rest ≠ [] → 1 ≤ n →
    bracketLoop (w ++ rest) n = w ++ bracketLoop rest n := by
  induction hw with
  | nil => intro rest n _ _; rfl
  | char c s h1 h2 _ ih =>
    intro rest n hr hn
    have hne : s ++ rest ≠ [] := by simp [hr]
    rw [List.cons_append, bracketLoop]
    simp only [if_neg h1, if_neg h2]
    rw [if_neg (by push Not; exact ⟨hne, by omega⟩), ih rest n hr hn, List.cons_append]
  | paren w s _ _ ihw ihs =>
    intro rest n hr hn
    have e1 : ('(' :: (w ++ ')' :: s)) ++ rest = '(' :: (w ++ (')' :: (s ++ rest))) := by simp
    rw [e1, bracketLoop]
    simp only [if_true]
    rw [if_neg (by push Not; exact ⟨by simp, by omega⟩), ihw _ (n + 1) (by simp) (by omega), bracketLoop]
    simp only [if_true]
    rw [if_neg (show ¬ ')' = '(' by decide), show n + 1 - 1 = n by omega,
      if_neg (by push Not; exact ⟨by simp [hr], by omega⟩), ihs rest n hr hn]
    simp

theorem toMatchingBracket_balanced (pre w post : Str) (hw : Balanced w) :
    toMatchingBracket (pre ++ '(' :: (w ++ ')' :: post)) pre.length = '(' :: (w ++ [')']) := by
  unfold toMatchingBracket
  rw [List.drop_left, bracketLoop]
  simp only [if_true]
  rw [if_neg (by push Not; exact ⟨by simp, by omega⟩), bracketLoop_balanced hw _ _ (by simp) (by omega), bracketLoop]
  simp

private theorem splitArgs_balanced {w : Str} (hw : Balanced w) : ∀ (rest : Str) (n : Int) (cur : Str), 1 ≤ n →
    splitArgsLoop (w ++ rest) n cur = splitArgsLoop rest n (cur ++ w) := by
  induction hw with
  | nil => intro rest n cur _; simp
  | char c s h1 h2 _ ih =>
    intro rest n cur hn
    rw [List.cons_append, splitArgsLoop]
    simp only [if_neg h1, if_neg h2]
    rw [if_neg (by omega), ih rest n _ hn]
    simp
  | paren w s _ _ ihw ihs =>
    intro rest n cur hn
    have e1 : ('(' :: (w ++ ')' :: s)) ++ rest = '(' :: (w ++ (')' :: (s ++ rest))) := by simp
    rw [e1, splitArgsLoop]
    simp only [if_true]
    rw [if_neg (by omega), ihw _ (n + 1) _ (by omega), splitArgsLoop]
    simp only [if_true]
    rw [if_neg (show ¬ ')' = '(' by decide), show n + 1 - 1 = n by omega, if_neg (by omega), ihs rest n _ hn]
    simp

private theorem splitArgs_argument {a : Str} (ha : Argument a) : ∀ (rest cur : Str),
    splitArgsLoop (a ++ rest) 0 cur = splitArgsLoop rest 0 (cur ++ a) := by
  induction ha with
  | nil => intro rest cur; simp
  | char c s h1 h2 h3 _ ih =>
    intro rest cur
    rw [List.cons_append, splitArgsLoop]
    simp only [if_neg h1, if_neg h2]
    rw [if_neg (by simp [h3]), ih]
    simp
  | paren w s hw _ ih =>
    intro rest cur
    have e1 : ('(' :: (w ++ ')' :: s)) ++ rest = '(' :: (w ++ (')' :: (s ++ rest))) := by simp
    rw [e1, splitArgsLoop]
    simp only [if_true]
    rw [if_neg (by simp), splitArgs_balanced hw _ _ _ (by omega), splitArgsLoop]
    simp only [if_true]
    rw [if_neg (show ¬ ')' = '(' by decide), if_neg (by simp), show ((0 : Int) + 1 - 1) = 0 by omega, ih]
    simp

private theorem splitArgs_join : ∀ (args : List Str), args ≠ [] → (∀ a ∈ args, Argument a) →
    splitArgsLoop (joinChar ',' args ++ [')']) 0 [] = args
  | [], h, _ => absurd rfl h
  | [a], _, h => by
    rw [joinChar, splitArgs_argument (h a (by simp)), splitArgsLoop]
    simp [splitArgsLoop]
  | a :: b :: args, _, h => by
    rw [joinChar, List.append_assoc, splitArgs_argument (h a (by simp)), List.cons_append, splitArgsLoop]
    simp only [if_neg (show ¬ ',' = '(' by decide), if_neg (show ¬ ',' = ')' by decide)]
    rw [if_pos (by simp), splitArgs_join (b :: args) (by simp) (fun x hx => h x (List.mem_cons_of_mem _ hx))]
    simp

private theorem argument_balanced {a : Str} (h : Argument a) : Balanced a := by
  induction h with
  | nil => exact .nil
  | char c s h1 h2 _ _ ih => exact .char c s h1 h2 ih
  | paren w s hw _ ih => exact .paren w s hw ih

private theorem balanced_append {a b : Str} (ha : Balanced a) (hb : Balanced b) : Balanced (a ++ b) := by
  induction ha with
  | nil => exact hb
  | char c s h1 h2 _ ih => exact .char c _ h1 h2 ih
  | paren w s hw _ _ ih =>
    have : ('(' :: (w ++ ')' :: s)) ++ b = '(' :: (w ++ (')' :: (s ++ b))) := by simp
    rw [this]; exact .paren w _ hw ih

private theorem balanced_join : ∀ (args : List Str), (∀ a ∈ args, Argument a) → Balanced (joinChar ',' args)
  | [], _ => .nil
  | [a], h => argument_balanced (h a (by simp))
  | a :: b :: args, h =>
    balanced_append (argument_balanced (h a (by simp)))
      (.char ',' _ (by decide) (by decide) (balanced_join (b :: args) (fun x hx => h x (List.mem_cons_of_mem _ hx))))

private theorem dropWhile_space (s : Str) : ∃ n, s = List.replicate n ' ' ++ s.dropWhile (· = ' ') := by
  induction s with
  | nil => exact ⟨0, rfl⟩
  | cons c s ih =>
    by_cases hc : c = ' '
    · obtain ⟨n, hn⟩ := ih
      refine ⟨n + 1, ?_⟩
      rw [List.dropWhile_cons, if_pos (by simpa using hc), List.replicate_succ, List.cons_append, ← hn, hc]
    · exact ⟨0, by rw [List.dropWhile_cons, if_neg (by simpa using hc)]; rfl⟩

private theorem head_dropWhile (s : Str) : (s.dropWhile (· = ' ')).head? ≠ some ' ' := by
  induction s with
  | nil => simp
  | cons c s ih =>
    by_cases hc : c = ' '
    · rw [List.dropWhile_cons, if_pos (by simpa using hc)]; exact ih
    · rw [List.dropWhile_cons, if_neg (by simpa using hc)]; simpa using hc

private theorem stripSpaces_spec (s : Str) (h : s = [] ∨ ∃ c ∈ s, c ≠ ' ') : Stripped s (stripSpaces s) := by
  unfold stripSpaces
  rcases h with rfl | ⟨c, hc, hne⟩
  · exact ⟨0, 0, by simp, by simp, by simp⟩
  · rw [if_neg (by simp only [List.all_eq_true, not_forall]; exact ⟨c, hc, by simpa using hne⟩)]
    obtain ⟨n, hn⟩ := dropWhile_space s
    obtain ⟨m, hm⟩ := dropWhile_space (s.dropWhile (· = ' ')).reverse
    have hm' : s.dropWhile (· = ' ') = ((s.dropWhile (· = ' ')).reverse.dropWhile (· = ' ')).reverse ++ List.replicate m ' ' := by
      have := congrArg List.reverse hm
      simpa using this
    have h1 := head_dropWhile s
    have h2 := head_dropWhile (s.dropWhile (· = ' ')).reverse
    generalize s.dropWhile (· = ' ') = u at *
    generalize hv : (u.reverse.dropWhile (· = ' ')).reverse = v at *
    have hv' : u.reverse.dropWhile (· = ' ') = v.reverse := by rw [← hv]; simp
    rw [hv'] at h2
    refine ⟨n, m, by rw [hn, hm']; simp, ?_, ?_⟩
    · rw [hm'] at h1
      cases v with
      | nil => simp
      | cons x v => simpa using h1
    · simpa using h2

/-- **C50 (partial)** For a call text whose arguments have balanced brackets and no comma outside brackets, the bracketed
text splits into exactly the arguments without the spaces around them, if there is at least one argument and none consists of
spaces only. Missing: the other calls (`C50_fails`, `C50_fails_blank`). -/
theorem C50_arguments_partial (pre post : Str) (args : List Str) (ha : ∀ a ∈ args, Argument a) (hne : args ≠ [])
    (hb : ∀ a ∈ args, a = [] ∨ ∃ c ∈ a, c ≠ ' ') :
    List.Forall₂ Stripped args
      (splitArguments (toMatchingBracket (pre ++ '(' :: (joinChar ',' args ++ ')' :: post)) pre.length)) := by
  rw [toMatchingBracket_balanced _ _ _ (balanced_join args ha)]
  unfold splitArguments
  rw [List.drop_one, List.tail_cons, splitArgs_join args hne ha]
  clear ha hne
  induction args with
  | nil => exact .nil
  | cons a args ih =>
    exact .cons (stripSpaces_spec a (hb a List.mem_cons_self)) (ih (fun x hx => hb x (List.mem_cons_of_mem _ hx)))

/-- A stripped text is determined. -/
theorem stripped_unique {s t t' : Str} (h : Stripped s t) (h' : Stripped s t') (hn : ∃ c ∈ s, c ≠ ' ') : t = t' := by
  obtain ⟨a, b, h1, h2, h3⟩ := h
  obtain ⟨a', b', h1', h2', h3'⟩ := h'
  have key : ∀ (a a' : Nat) (x x' : Str), List.replicate a ' ' ++ x = List.replicate a' ' ' ++ x' → x.head? ≠ some ' ' →
      x'.head? ≠ some ' ' → x = x' := by
    intro a
    induction a with
    | zero =>
      intro a' x x' h hx _
      cases a' with
      | zero => simpa using h
      | succ a' => rw [List.replicate_succ] at h; exact absurd (by simp at h; rw [h]; rfl) hx
    | succ a ih =>
      intro a' x x' h hx hx'
      cases a' with
      | zero => rw [List.replicate_succ] at h; exact absurd (by simp at h; rw [← h]; rfl) hx'
      | succ a' =>
        rw [List.replicate_succ, List.replicate_succ] at h
        exact ih a' x x' (by simpa using h) hx hx'
  have nonempty : ∀ (a b : Nat) (t : Str), s = List.replicate a ' ' ++ t ++ List.replicate b ' ' → t ≠ [] := by
    rintro a b t h rfl
    obtain ⟨c, hc, hne⟩ := hn
    rw [h] at hc
    simp only [List.append_nil, List.mem_append, List.mem_replicate] at hc
    rcases hc with ⟨_, hc⟩ | ⟨_, hc⟩ <;> exact hne hc
  have n1 := nonempty _ _ _ h1
  have n2 := nonempty _ _ _ h1'
  have e := h1.symm.trans h1'
  rw [List.append_assoc, List.append_assoc] at e
  have e2 := key _ _ _ _ e (by cases t with | nil => exact absurd rfl n1 | cons x t => simpa using h2)
    (by cases t' with | nil => exact absurd rfl n2 | cons x t => simpa using h2')
  have e3 := congrArg List.reverse e2
  simp only [List.reverse_append, List.reverse_replicate] at e3
  have hl : ∀ (t : Str), t ≠ [] → t.getLast? ≠ some ' ' → t.reverse.head? ≠ some ' ' := by
    intro t _ h; simpa using h
  have e4 := key _ _ _ _ e3 (hl t n1 h3) (hl t' n2 h3')
  exact List.reverse_injective e4

example : splitArguments (toMatchingBracket (str! "x = f(a, g(b, (c)) , d) + h(e)") 5) = [str! "a", str! "g(b, (c))", str! "d"] := by
  decide

/-- The hypotheses hold for these arguments. -/
example : ∀ a ∈ [str! "a", str! " g(b,c)", []], Argument a ∧ (a = [] ∨ ∃ c ∈ a, c ≠ ' ') := by
  have w : Balanced (str! "b,c") := .char _ _ (by decide) (by decide) (.char _ _ (by decide) (by decide) (.char _ _ (by decide) (by decide) .nil))
  have g : Argument (str! " g(b,c)") :=
    .char _ _ (by decide) (by decide) (by decide) (.char _ _ (by decide) (by decide) (by decide) (.paren (str! "b,c") [] w .nil))
  intro a ha
  simp only [List.mem_cons, List.not_mem_nil, or_false] at ha
  rcases ha with rfl | rfl | rfl
  · exact ⟨.char _ _ (by decide) (by decide) (by decide) .nil, .inr (by decide)⟩
  · exact ⟨g, .inr (by decide)⟩
  · exact ⟨.nil, .inl rfl⟩

/-! ### C51 -/

/-- The statement of C51. -/
def C51_statement : Prop :=
  (∀ name pattern : Str, pyMatches name pattern = true ↔ SysctlMatch name pattern) ∧
  (∀ name pattern : Str, cMatches name pattern = pyMatches name pattern) ∧
  (∀ (table : List Str) (pre last : Str), (pre = [] ∨ pre.getLast? = some '.') → '.' ∉ last → last ≠ [] →
    ∃ found, parseSysctls table (pre ++ last) = some found ∧
      ∀ x, x ∈ found ↔ ∃ n ∈ table, SysctlMatch n last ∧ x = pre ++ n)

/-- The code does not satisfy C51: an empty name is in the list `{a|}` for one of the implementations only. -/
theorem C51_fails : ¬ C51_statement := fun h => absurd (h.2.1 [] (str! "{a|}")) (by decide)

/-- A name that is written as a list does not match itself. -/
theorem C51_fails_list : pyMatches (str! "{a}") (str! "{a}") = false ∧ SysctlMatch (str! "{a}") (str! "{a}") :=
  ⟨by decide, .inr (.inr rfl)⟩

/-- A component that is equal to the last one is replaced, too. -/
theorem C51_fails_component : parseSysctls [str! "mtu"] (str! "net.conf.*.*") = some [str! "net.conf.mtu.mtu"] := by decide

private theorem dropLast_snoc (s : Str) (c : Char) : (s ++ [c]).dropLast = s := by simp

theorem getlines_mem (c : Char) (s : Str) (n : Str) (hn : n ≠ []) : n ∈ getlines c s ↔ n ∈ splitChar c s := by
  unfold getlines
  simp only
  by_cases h : (splitChar c s).getLast? = some []
  · rw [if_pos h]
    obtain ⟨ys, hys⟩ := List.getLast?_eq_some_iff.1 h
    rw [hys]
    simp [hn]
  · rw [if_neg h]

theorem join_split (c : Char) : ∀ s : Str, joinChar c (splitChar c s) = s := by
  intro s
  induction s with
  | nil => rfl
  | cons x s ih =>
    unfold splitChar
    by_cases h : x = c
    · rw [if_pos h]
      cases hs : splitChar c s with
      | nil => exact absurd hs (splitChar_ne_nil c s)
      | cons w ws => rw [hs] at ih; rw [joinChar, ih, h]; rfl
    · rw [if_neg h]
      cases hs : splitChar c s with
      | nil => exact absurd hs (splitChar_ne_nil c s)
      | cons w ws =>
        rw [hs] at ih
        simp only
        cases ws with
        | nil => simp only [joinChar] at ih ⊢; rw [ih]
        | cons w' ws => simp only [joinChar] at ih ⊢; rw [← ih]; rfl

/-- The list of names written by a pattern. -/
private theorem list_pattern {pattern : Str} (h1 : startsWith pattern (str! "{") = true) (h2 : endsWith pattern (str! "}") = true) :
    pattern = '{' :: inner pattern ++ ['}'] := by
  obtain ⟨r, rfl⟩ := startsWith_iff.1 h1
  obtain ⟨r', h⟩ := endsWith_iff.1 h2
  cases r' with
  | nil => exact absurd (show '{' = '}' by simpa using (List.cons.inj h).1) (by decide)
  | cons c r' =>
    simp only [List.cons_append, List.nil_append, List.cons.injEq] at h
    obtain ⟨rfl, rfl⟩ := h
    simp [inner]

theorem pyMatches_iff (name pattern : Str) (hn : ¬ ∃ s, name = '{' :: s ++ ['}']) :
    pyMatches name pattern = true ↔ SysctlMatch name pattern := by
  unfold pyMatches SysctlMatch
  by_cases h1 : pattern = str! "*"
  · rw [if_pos h1]; simp [h1]
  · rw [if_neg h1]
    by_cases h2 : startsWith pattern (str! "{") = true ∧ endsWith pattern (str! "}") = true
    · rw [if_pos h2, decide_eq_true_eq]
      have hp := list_pattern h2.1 h2.2
      constructor
      · intro h
        refine .inr (.inl ⟨splitChar '|' (inner pattern), fun n hn => (mem_splitChar hn).1, ?_, h⟩)
        rw [join_split]; exact hp
      · rintro (h | ⟨names, hs, he, hm⟩ | h)
        · exact absurd h h1
        · have hin : inner pattern = joinChar '|' names := by rw [he]; simp [inner]
          rw [hin, splitChar_join '|' names (List.ne_nil_of_mem hm) hs]; exact hm
        · exact absurd ⟨_, h ▸ hp⟩ hn
    · rw [if_neg h2, decide_eq_true_eq]
      constructor
      · intro h; exact .inr (.inr h)
      · rintro (h | ⟨names, hs, he, hm⟩ | h)
        · exact absurd h h1
        · exact absurd ⟨startsWith_iff.2 ⟨_, he⟩, endsWith_iff.2 ⟨_, he⟩⟩ h2
        · exact h

theorem cMatches_eq (name pattern : Str) (hn : name ≠ []) : cMatches name pattern = pyMatches name pattern := by
  unfold cMatches pyMatches
  simp only [getlines_mem _ _ _ hn]

theorem findAndReplace_suffix (pre last n : Str) (hne : last ≠ []) (ho : ¬ Occurs last (pre ++ last.dropLast)) :
    findAndReplace last n (pre ++ last) = some (pre ++ n) := by
  refine findAndReplace_eq hne ?_
  have := Replaced.step (p := last) (q := n) pre [] [] ho (.stop [] (by
    rintro ⟨a, b, h⟩
    simp at h
    exact hne h.2.1))
  simpa using this

private theorem splitChar_snoc (c : Char) (a b : Str) (hb : c ∉ b) : (splitChar c (a ++ c :: b)).getLast? = some b := by
  induction a with
  | nil => rw [List.nil_append, splitChar, if_pos rfl, splitChar_none c b hb]; rfl
  | cons x a ih =>
    rw [List.cons_append, splitChar]
    split
    · rw [List.getLast?_cons, ih]; rfl
    · cases hs : splitChar c (a ++ c :: b) with
      | nil => exact absurd hs (splitChar_ne_nil _ _)
      | cons w ws =>
        rw [hs] at ih
        simp only
        cases ws with
        | nil =>
          exfalso
          have := join_split c (a ++ c :: b)
          rw [hs] at this
          simp only [joinChar] at this
          have hw : c ∉ w := (mem_splitChar (s := a ++ c :: b) (by rw [hs]; simp)).1
          exact hw (by rw [this]; simp)
        | cons w' ws => simpa using ih

theorem getlines_last (pre last : Str) (hp : pre = [] ∨ pre.getLast? = some '.') (hl : '.' ∉ last) (hne : last ≠ []) :
    (getlines '.' (pre ++ last)).getLast? = some last := by
  have h : (splitChar '.' (pre ++ last)).getLast? = some last := by
    rcases hp with rfl | hp
    · rw [List.nil_append, splitChar_none _ _ hl]; rfl
    · obtain ⟨ys, rfl⟩ := List.getLast?_eq_some_iff.1 hp
      rw [List.append_assoc]
      exact splitChar_snoc '.' ys last hl
  unfold getlines
  simp only
  rw [h, if_neg (by simpa using hne), h]

/-- **C51 (partial)** For names that are not empty and are not written as lists, both implementations match a name and a
pattern iff the pattern is `*`, a list containing the name, or the name. The sysctls found for a pattern whose last component
occurs only at its end are those of the table that match, in this order. Missing: the other names and patterns
(`C51_fails`, `C51_fails_list`, `C51_fails_component`). -/
theorem C51_sysctl_partial :
    (∀ name pattern : Str, (¬ ∃ s, name = '{' :: s ++ ['}']) → (pyMatches name pattern = true ↔ SysctlMatch name pattern)) ∧
    (∀ name pattern : Str, name ≠ [] → cMatches name pattern = pyMatches name pattern) ∧
    (∀ (table : List Str) (pre last : Str), (pre = [] ∨ pre.getLast? = some '.') → '.' ∉ last → last ≠ [] →
      ¬ Occurs last (pre ++ last.dropLast) → (∀ n ∈ table, n ≠ [] ∧ ¬ ∃ s, n = '{' :: s ++ ['}']) →
      ∃ names : List Str, parseSysctls table (pre ++ last) = some (names.map (pre ++ ·)) ∧ names.Sublist table ∧
        ∀ n ∈ table, n ∈ names ↔ SysctlMatch n last) := by
  refine ⟨pyMatches_iff, cMatches_eq, fun table pre last hp hl hne ho ht => ?_⟩
  refine ⟨table.filter (fun n => cMatches n last), ?_, List.filter_sublist, fun n hn => ?_⟩
  · unfold parseSysctls
    rw [getlines_last pre last hp hl hne]
    simp only [findAndReplace_suffix pre last _ hne ho]
    congr 1
    generalize table.filter (fun n => cMatches n last) = k
    induction k with
    | nil => rfl
    | cons a k ih => simp [ih]
  · rw [List.mem_filter, cMatches_eq n last (ht n hn).1, pyMatches_iff n last (ht n hn).2]
    exact and_iff_right hn

example : parseSysctls [str! "acct", str! "panic", str! "core"] (str! "kernel.{panic|acct}") =
      some [str! "kernel.acct", str! "kernel.panic"] ∧
    ¬ Occurs (str! "{panic|acct}") ((str! "kernel.") ++ (str! "{panic|acct}").dropLast) := by
  refine ⟨by decide, ?_⟩
  rw [← hasText_iff]; decide

/-! ### C80 -/

/-- The statement of C80: the expansion of a parameter in composite names terminates. -/
def C80_statement : Prop :=
  ∀ param arg body : Str, param ≠ [] → (∀ c ∈ param, identChar c = true) → ∃ fuel t, expandLoop param arg fuel [] body = some t

/-- The code does not satisfy C80: it does not terminate for a longer name that ends with the parameter. -/
theorem C80_fails : ¬ C80_statement := by
  intro h
  obtain ⟨fuel, t, h⟩ := h (str! "x") (str! "1") (str! "ax##b") (by decide) (by decide)
  have key : ∀ n before, (before = [] ∨ before = str! "a") →
      expandLoop (str! "x") (str! "1") n before (if before = [] then str! "ax##b" else str! "x##b") = none := by
    intro n
    induction n with
    | zero => intro before _; rfl
    | succ n ih =>
      intro before hb
      have ih' := ih (str! "a") (.inr rfl)
      rw [if_neg (by decide)] at ih'
      rcases hb with rfl | rfl
      · rw [if_pos rfl, expandLoop]
        exact ih'
      · rw [if_neg (by decide), expandLoop]
        exact ih'
  have := key fuel [] (.inl rfl)
  rw [if_pos rfl, h] at this
  cases this

/-- A parameter that directly follows a replaced one is not replaced. -/
theorem C80_missed : expandLoop (str! "x") (str! "1") 10 [] (str! "x##x##y") = some (str! "1x##y") := by decide

/-- **C80 (partial)** The expansion terminates if no occurrence of the parameter before `##` is preceded by a character of an
identifier. Missing: the other bodies (`C80_fails`). -/
theorem C80_terminates_partial (param arg body : Str)
    (h : ∀ x r, body = x ++ param ++ (str! "##") ++ r → x.getLast?.any identChar = false) :
    ∃ t, expandLoop param arg (body.length + 1) [] body = some t := by
  -- the text from `position` on is a suffix of the body; the text before it matters only for its last character
  have key : ∀ (n : Nat) (done s before : Str), s.length < n → body = done ++ s → (s ≠ [] → before.getLast? = done.getLast?) →
      ∃ t, expandLoop param arg n before s = some t := by
    intro n
    induction n with
    | zero => intro done s before hn; omega
    | succ n ih =>
      intro done s before hn hb hl
      rw [expandLoop]
      cases hf : findSub (param ++ str! "##") s with
      | none => exact ⟨_, rfl⟩
      | some i =>
        obtain ⟨⟨x, r, h1, h2⟩, _⟩ := findSub_some hf
        have hs : s ≠ [] := by
          rintro rfl
          have := congrArg List.length h1
          simp at this
        have ht : s.take i = x := by rw [h1, ← h2]; simp
        have hd : s.drop (i + param.length + 2) = r := by
          rw [h1, ← h2]
          have : x.length + param.length + 2 = (x ++ (param ++ (str! "##"))).length := by simp; omega
          rw [this, List.drop_left]
        have hx : (before ++ x).getLast?.any identChar = false := by
          have := h (done ++ x) r (by rw [hb, h1]; simp)
          cases x with
          | nil => simp only [List.append_nil] at this ⊢; rw [hl hs]; exact this
          | cons c x =>
            rw [List.getLast?_append] at this ⊢
            rw [List.getLast?_cons] at this ⊢
            exact this
        simp only [ht, hd, hx, Bool.false_eq_true, if_false]
        have e : body = (done ++ (x ++ (param ++ (str! "##"))) ++ r.take 2) ++ r.drop 2 := by
          rw [hb, h1]; simp
        refine ih _ (r.drop 2) _ ?_ e ?_
        · have := congrArg List.length h1
          simp at this ⊢
          omega
        · intro hr
          have h2 : (r.take 2) ≠ [] := by
            intro hc
            apply hr
            have : r.length ≤ 2 := by
              have := congrArg List.length hc
              simp at this
              simp [this]
            simp [this]
          rw [List.getLast?_append, List.getLast?_append (l := done ++ _)]
          cases hq : (r.take 2).getLast? with
          | none => exact absurd (by simpa using hq) h2
          | some q => rfl
  exact key _ [] body [] (Nat.lt_succ_self _) rfl (fun _ => rfl)

example : expandLoop (str! "x") (str! "abc") 20 [] (str! "y x##_t z") = some (str! "y abc_t z") := by decide

/-- The hypothesis holds for this body. -/
example : ∀ x r, (str! "x##y") = x ++ (str! "x") ++ (str! "##") ++ r → x.getLast?.any identChar = false := by
  intro x r h
  cases x with
  | nil => rfl
  | cons c x =>
    exfalso
    have := congrArg List.length h
    simp at this
    cases x with
    | nil => simp at h
    | cons d x => simp at this; omega

end DK
