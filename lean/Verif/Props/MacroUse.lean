import Verif.Spec.MacroUse
import Verif.Lemmas.Dict

/-!
C107 to C110: macros used on a line and their differences.
-/

set_option autoImplicit false

namespace DK
open Spec

/-! ### C107 -/

/-- C107: the macros found for a line are those to which it expands. -/
def C107_statement : Prop :=
  ∀ (defs : Dict Str MDef) (file : Str) (line : Nat) (text : Str) (u : Dict Str MUse), WellNamed defs →
    collectUses defs file line text [] = some u → ∀ n, (u.get? n).isSome ↔ Expands defs text n

/-- `#define A B`, `#define B 5` -/
def letterDefs : Dict Str MDef :=
  [(str! "A", ⟨str! "A", str! "B", str! "a.h", 1⟩), (str! "B", ⟨str! "B", str! "5", str! "a.h", 2⟩)]

theorem wellNamed_of {defs : Dict Str MDef} (h : ∀ p ∈ defs, p.2.name = p.1) : WellNamed defs :=
  fun _ _ hd => h _ (Dict.get?_mem hd)

theorem word_whole {w : Str} (h : w ≠ []) (hw : ∀ c ∈ w, WordChar c) : WordIn w w :=
  ⟨[], [], by simp, h, hw, by simp, by simp⟩

/-- C107 fails: a name of one letter at the end of a text is overlooked: `B` in `#define A B`. -/
theorem C107_fails : ¬ C107_statement := by
  intro h
  have h1 := (h letterDefs [] 0 (str! "A;") [(str! "A", ⟨⟨str! "A", str! "B", str! "a.h", 1⟩, none, [], 0⟩)]
    (wellNamed_of (by decide)) (by decide +kernel) (str! "B")).2
  have hA : Expands letterDefs (str! "A;") (str! "A") :=
    .here (d := ⟨str! "A", str! "B", str! "a.h", 1⟩) rfl
      ⟨⟨[], [';'], rfl, by simp, by unfold WordChar; decide, by simp, by unfold WordChar; simp⟩, by simp⟩
  have hB : Expands letterDefs (str! "A;") (str! "B") :=
    .inside hA (e := ⟨str! "A", str! "B", str! "a.h", 1⟩) rfl (d := ⟨str! "B", str! "5", str! "a.h", 2⟩) rfl
      ⟨word_whole (by simp) (by unfold WordChar; decide), by simp⟩
  exact absurd (h1 hB) (by decide +kernel)

/-- `#define UL 5` -/
def numberDefs : Dict Str MDef := [(str! "UL", ⟨str! "UL", str! "5", str! "a.h", 1⟩)]

theorem wordChar_iff {c : Char} : WordChar c ↔ identChar c = true := by
  simp [WordChar, identChar, or_assoc]

theorem start_word {c : Char} (h : identStart c = true) : WordChar c := by
  unfold identStart at h
  unfold WordChar
  simp at h
  tauto

theorem start_iff {c : Char} : identStart c = true ↔ WordChar c ∧ c.isDigit = false := by
  constructor
  · intro h
    refine ⟨start_word h, ?_⟩
    unfold identStart at h
    simp [Char.isAlpha, Char.isUpper, Char.isLower] at h
    simp only [Char.isDigit, Bool.and_eq_false_iff, decide_eq_false_iff_not]
    rcases h with (h | h) | rfl
    · right; intro h2
      have := UInt32.le_trans h.1 h2
      exact absurd this (by decide)
    · right; intro h2
      have := UInt32.le_trans h.1 h2
      exact absurd this (by decide)
    · right; decide
  · rintro ⟨h1 | h1 | h1, h2⟩
    · simp [identStart, h1]
    · rw [h1] at h2; cases h2
    · simp [identStart, h1]

/-- A run of identifier characters ends an identifier. -/
theorem scan_run : ∀ (w : Str) (x : Char) (xs : Str), (∀ c ∈ w, WordChar c) →
    (∀ q cs, ¬ WordChar q → scanIdents (x :: xs) (w ++ q :: cs) = (x :: xs ++ w) :: scanIdents [] cs) ∧
    (scanIdents (x :: xs) w = if w = [] then [] else [x :: xs ++ w])
  | [], x, xs, _ => by
    refine ⟨fun q cs hq => ?_, by simp [scanIdents]⟩
    have hq' : identChar q = false := by
      cases h : identChar q with
      | false => rfl
      | true => exact absurd (wordChar_iff.2 h) hq
    simp [scanIdents, hq']
  | c :: w, x, xs, hw => by
    have hc : identChar c = true := wordChar_iff.1 (hw c (by simp))
    have ih := scan_run w x (xs ++ [c]) (fun d hd => hw d (by simp [hd]))
    constructor
    · intro q cs hq
      have e : (w ++ q :: cs).isEmpty = false := by simp
      rw [List.cons_append, scanIdents]
      simp only [hc, e, Bool.not_true, Bool.or_self, Bool.false_eq_true, if_false]
      rw [show x :: xs ++ [c] = x :: (xs ++ [c]) from rfl, ih.1 q cs hq]
      simp
    · rw [scanIdents]
      cases w with
      | nil => simp [hc, scanIdents]
      | cons d w =>
        simp only [hc, Bool.not_true, List.isEmpty_cons, Bool.or_self, Bool.false_eq_true, if_false]
        rw [show x :: xs ++ [c] = x :: (xs ++ [c]) from rfl, ih.2]
        simp

/-- Identifiers that occur are looked up, except a single letter at the end. -/
theorem scan_complete {n post : Str} (hne : n ≠ []) (hw : ∀ c ∈ n, WordChar c)
    (hd : ∀ c, n.head? = some c → c.isDigit = false) (hpost : ∀ c, post.head? = some c → ¬ WordChar c)
    (hlast : post = [] → n.length ≠ 1) :
    ∀ (k : Nat) (pre : Str), pre.length ≤ k → (∀ c, pre.getLast? = some c → ¬ WordChar c) →
      n ∈ scanIdents [] (pre ++ n ++ post) := by
  intro k
  induction k with
  | zero =>
    intro pre hk _
    have : pre = [] := List.length_eq_zero_iff.1 (by omega)
    subst this
    obtain ⟨c, w, rfl⟩ := List.exists_cons_of_ne_nil hne
    have hs : identStart c = true := start_iff.2 ⟨hw c (by simp), hd c rfl⟩
    simp only [List.nil_append, List.cons_append]
    rw [scanIdents, if_pos hs]
    have hrun := scan_run w c [] (fun d h => hw d (by simp [h]))
    cases post with
    | nil =>
      rw [List.append_nil, hrun.2]
      have : w ≠ [] := by rintro rfl; exact hlast rfl rfl
      simp [this]
    | cons q cs =>
      rw [hrun.1 q cs (hpost q rfl)]
      simp
  | succ k ih =>
    intro pre hk hpre
    cases pre with
    | nil => exact ih [] (by simp) (by simp)
    | cons p pre =>
      by_cases hs : identStart p = true
      · -- a run that ends before the last character
        have hex : ∃ w q pre', pre = w ++ q :: pre' ∧ (∀ c ∈ w, WordChar c) ∧ ¬ WordChar q := by
          clear ih hk
          induction pre generalizing p with
          | nil => exact absurd (start_word hs) (hpre p rfl)
          | cons a pre ih2 =>
            by_cases ha : WordChar a
            · cases pre with
              | nil => exact absurd ha (hpre a rfl)
              | cons b pre =>
                by_cases hp : ∃ w q pre', b :: pre = w ++ q :: pre' ∧ (∀ c ∈ w, WordChar c) ∧ ¬ WordChar q
                · obtain ⟨w, q, pre', e, h1, h2⟩ := hp
                  exact ⟨a :: w, q, pre', by rw [e]; rfl, by intro c hc; rcases List.mem_cons.1 hc with rfl | hc; exacts [ha, h1 c hc], h2⟩
                · exfalso
                  apply hp
                  exact ih2 p (by simpa using hpre) hs
            · exact ⟨[], a, pre, rfl, by simp, ha⟩
        obtain ⟨w, q, pre', rfl, h1, h2⟩ := hex
        rw [List.cons_append, List.cons_append, scanIdents, if_pos hs]
        rw [show w ++ q :: pre' ++ n ++ post = w ++ q :: (pre' ++ n ++ post) by simp]
        rw [(scan_run w p [] h1).1 q _ h2]
        refine List.mem_cons_of_mem _ (ih pre' (by simp at hk; omega) ?_)
        intro c hc
        refine hpre c ?_
        cases pre' with
        | nil => simp at hc
        | cons a as =>
          rw [show p :: (w ++ q :: a :: as) = (p :: w ++ [q]) ++ a :: as by simp, List.getLast?_append]
          rw [hc]; rfl
      · rw [List.cons_append, List.cons_append, scanIdents, if_neg hs]
        refine ih pre (by simpa using hk) ?_
        intro c hc
        refine hpre c ?_
        cases pre with
        | nil => simp at hc
        | cons a as => rw [List.getLast?_cons_cons]; exact hc

/-- Identifiers that are looked up occur, maybe directly after digits. -/
theorem scan_sound : ∀ (k : Nat) (text n : Str), text.length ≤ k → n ∈ scanIdents [] text →
    ∃ pre ds post, text = pre ++ ds ++ n ++ post ∧ n ≠ [] ∧ (∀ c ∈ n, WordChar c) ∧
      (∀ c, n.head? = some c → c.isDigit = false) ∧ (∀ c ∈ ds, c.isDigit = true) ∧
      (∀ c, pre.getLast? = some c → ¬ WordChar c) ∧ (∀ c, post.head? = some c → ¬ WordChar c) := by
  intro k
  induction k with
  | zero =>
    intro text n hk h
    have : text = [] := List.length_eq_zero_iff.1 (by omega)
    subst this
    simp [scanIdents] at h
  | succ k ih =>
    intro text n hk h
    cases text with
    | nil => simp [scanIdents] at h
    | cons c cs =>
      simp at hk
      rw [scanIdents] at h
      by_cases hs : identStart c = true
      · rw [if_pos hs] at h
        have hwd : ∀ d ∈ cs.takeWhile identChar, WordChar d := fun d hd => wordChar_iff.2 (List.all_eq_true.1 List.all_takeWhile d hd)
        have hall : ∀ d ∈ c :: cs.takeWhile identChar, WordChar d := by
          intro d hd
          rcases List.mem_cons.1 hd with rfl | hd
          · exact start_word hs
          · exact hwd d hd
        have hdig : ∀ d, (c :: cs.takeWhile identChar).head? = some d → d.isDigit = false := by
          intro d hd
          simp at hd
          subst hd
          exact (start_iff.1 hs).2
        have hsplit : cs = cs.takeWhile identChar ++ cs.dropWhile identChar := (List.takeWhile_append_dropWhile).symm
        cases hr : cs.dropWhile identChar with
        | nil =>
          rw [hr, List.append_nil] at hsplit
          rw [hsplit, (scan_run _ c [] hwd).2] at h
          split at h
          · simp at h
          · simp only [List.cons_append, List.nil_append, List.mem_singleton] at h
            subst h
            exact ⟨[], [], [], by simp [← hsplit], by simp, hall, hdig, by simp, by simp, by simp⟩
        | cons q cs' =>
          have hq : ¬ WordChar q := by
            intro hw
            have := List.head_dropWhile_not identChar (l := cs) (by rw [hr]; simp)
            simp only [hr, List.head_cons] at this
            rw [wordChar_iff.1 hw] at this
            cases this
          rw [hr] at hsplit
          rw [hsplit, (scan_run _ c [] hwd).1 q cs' hq] at h
          rcases List.mem_cons.1 h with h | h
          · subst h
            refine ⟨[], [], q :: cs', ?_, by simp, hall, hdig, by simp, by simp, ?_⟩
            · simp only [List.nil_append, List.append_nil, List.cons_append]
              rw [← hsplit]
            · intro d hd; simp at hd; subst hd; exact hq
          · have hlen : cs'.length ≤ k := by
              have := congrArg List.length hsplit
              simp only [List.length_append, List.length_cons] at this
              omega
            obtain ⟨pre, ds, post, e, h1, h2, h3, h4, h5, h6⟩ := ih cs' n hlen h
            refine ⟨c :: (cs.takeWhile identChar ++ q :: pre), ds, post, ?_, h1, h2, h3, h4, ?_, h6⟩
            · conv_lhs => rw [hsplit, e]
              simp
            · intro d hd
              cases pre with
              | nil =>
                rw [show c :: (cs.takeWhile identChar ++ [q]) = (c :: cs.takeWhile identChar) ++ [q] from rfl,
                  List.getLast?_append] at hd
                simp at hd
                subst hd; exact hq
              | cons a as =>
                rw [show c :: (cs.takeWhile identChar ++ q :: a :: as) = (c :: cs.takeWhile identChar ++ [q]) ++ a :: as by simp,
                  List.getLast?_append] at hd
                refine h5 d ?_
                simpa using hd
      · rw [if_neg hs] at h
        obtain ⟨pre, ds, post, e, h1, h2, h3, h4, h5, h6⟩ := ih cs n (by omega) h
        by_cases hc : WordChar c
        · have hcd : c.isDigit = true := by
            cases hx : c.isDigit with
            | true => rfl
            | false => exact absurd (start_iff.2 ⟨hc, hx⟩) hs
          cases pre with
          | nil =>
            refine ⟨[], c :: ds, post, by rw [e]; simp, h1, h2, h3, ?_, by simp, h6⟩
            intro d hd
            rcases List.mem_cons.1 hd with rfl | hd
            · exact hcd
            · exact h4 d hd
          | cons a as =>
            refine ⟨c :: a :: as, ds, post, by rw [e]; simp, h1, h2, h3, h4, ?_, h6⟩
            intro d hd
            rw [List.getLast?_cons_cons] at hd
            exact h5 d hd
        · refine ⟨c :: pre, ds, post, by rw [e]; simp, h1, h2, h3, h4, ?_, h6⟩
          intro d hd
          cases pre with
          | nil => simp at hd; subst hd; exact hc
          | cons a as =>
            rw [List.getLast?_cons_cons] at hd
            exact h5 d hd

/-- Without numbers followed by letters, what is looked up occurs. -/
theorem scan_occurs {text n : Str} (hp : PlainNumbers text) (h : n ∈ scanIdents [] text) : NameIn n text := by
  obtain ⟨pre, ds, post, e, h1, h2, h3, h4, h5, h6⟩ := scan_sound _ text n (Nat.le_refl _) h
  cases ds with
  | nil => exact ⟨⟨pre, post, by simpa using e, h1, h2, h5, h6⟩, h3⟩
  | cons d ds =>
    exfalso
    have hw : WordIn (d :: ds ++ n) text := by
      refine ⟨pre, post, by rw [e]; simp, by simp, ?_, h5, h6⟩
      intro c hc
      rcases List.mem_append.1 hc with hc | hc
      · exact Or.inr (Or.inl (h4 c hc))
      · exact h2 c hc
    have := hp _ hw ⟨d, rfl, h4 d (by simp)⟩
    obtain ⟨c, w, rfl⟩ := List.exists_cons_of_ne_nil h1
    have h7 := this c (by simp)
    rw [h3 c rfl] at h7
    cases h7

/-- What occurs is looked up, if the text does not end with one letter. -/
theorem occurs_scan {text n : Str} (hp : NoLetterAtEnd text) (h : NameIn n text) : n ∈ scanIdents [] text := by
  obtain ⟨⟨pre, post, e, h1, h2, h3, h4⟩, h5⟩ := h
  rw [e]
  refine scan_complete h1 h2 h5 h4 ?_ _ pre (Nat.le_refl _) h3
  rintro rfl hlen
  obtain ⟨c, rfl⟩ := List.length_eq_one_iff.1 hlen
  obtain ⟨b, hb, hw⟩ := hp pre c (by simpa using e) (h2 c (by simp))
  exact h3 b hb hw

/-- C107 fails: a name is found inside a number: `UL` in `10UL`. -/
theorem C107_fails_number : ¬ C107_statement := by
  intro h
  have h1 := (h numberDefs [] 0 (str! "10UL") [(str! "UL", ⟨⟨str! "UL", str! "5", str! "a.h", 1⟩, none, [], 0⟩)]
    (wellNamed_of (by decide)) (by decide +kernel) (str! "UL")).1 (by decide +kernel)
  have hno : ∀ n, n = str! "UL" → ¬ Expands numberDefs (str! "10UL") n := by
    intro n hn hexp
    induction hexp with
    | here hd hocc =>
      subst hn
      obtain ⟨⟨pre, post, e, _, _, hpre, _⟩, _⟩ := hocc
      have hlen := congrArg List.length e
      simp at hlen
      match pre, hlen with
      | [], _ => simp at e
      | [a], _ => simp at e
      | [a, b], _ =>
        simp at e
        have := hpre b rfl
        rw [← e.2.1] at this
        exact this (Or.inr (Or.inl rfl))
      | a :: b :: c :: pre, hlen => simp at hlen; omega
    | inside hm he hd hocc ih =>
      rename_i n' m d e'
      by_cases hm' : m = str! "UL"
      · exact ih hm'
      · have : numberDefs.get? m = none := by
          rw [Dict.get?_eq_none_iff]
          simp [numberDefs, Dict.keys, hm']
        rw [this] at he; cases he
  exact hno _ rfl h1

/-! ### The search as reachability -/

section
variable {defs : Dict Str MDef} {file : Str} {line : Nat} {ls : List Str}

/-- Texts that are explored: the lines, and bodies of macros that are used. -/
inductive TextOf (ls : List Str) (u : Dict Str MUse) : Option MDef → Str → Prop
  | line {t : Str} : t ∈ ls → TextOf ls u none t
  | body {n : Str} {m : MUse} : u.get? n = some m → TextOf ls u (some m.dfn) m.dfn.body

/-- Where a use comes from; the macro it is used in comes earlier in the list. -/
def Origin (defs : Dict Str MDef) (file : Str) (line : Nat) (ls : List Str) (u : Dict Str MUse) : Prop :=
  (Dict.keys u).Nodup ∧ ∀ (i : Nat) n m, u[i]? = some (n, m) → defs.get? n = some m.dfn ∧
    ((m.parent = none ∧ (∃ t ∈ ls, n ∈ scanIdents [] t) ∧ m.file = file ∧ m.line = line) ∨
     ∃ (j : Nat) (p : MUse), j < i ∧ m.parent = some p.dfn.name ∧ u[j]? = some (p.dfn.name, p) ∧
       n ∈ scanIdents [] p.dfn.body ∧ m.file = p.dfn.file ∧ m.line = p.dfn.line)

theorem set_fresh {α β : Type} [DecidableEq α] (d : Dict α β) (a : α) (b : β) (h : d.get? a = none) :
    d.set a b = d ++ [(a, b)] := by
  induction d with
  | nil => rfl
  | cons p d ih =>
    obtain ⟨k, v⟩ := p
    rw [Dict.get?] at h
    by_cases hk : k = a
    · simp [hk] at h
    · rw [if_neg hk] at h
      rw [Dict.set, if_neg hk, ih h]
      rfl

/-- The invariant of the search. -/
structure UseInv (defs : Dict Str MDef) (file : Str) (line : Nat) (ls : List Str) (open_ : List (Str × Option MDef))
    (st : UseSt) : Prop where
  origin : Origin defs file line ls st.1
  texts : ∀ q ∈ st.2, TextOf ls st.1 q.2 q.1
  closed : ∀ p t, TextOf ls st.1 p t → (t, p) ∈ st.2 ∨ (t, p) ∈ open_ ∨
    ∀ n ∈ scanIdents [] t, (defs.get? n).isSome → (st.1.get? n).isSome

theorem textOf_grow {u : Dict Str MUse} {n : Str} {m : MUse} (h : u.get? n = none) {p : Option MDef} {t : Str}
    (ht : TextOf ls u p t) : TextOf ls (u.set n m) p t := by
  cases ht with
  | line hl => exact .line hl
  | body hk =>
    refine .body (n := ?_) ?_
    · rename_i k _
      exact k
    · rw [Dict.get?_set_ne]
      · exact hk
      · rintro rfl; rw [h] at hk; cases hk

theorem get_index {u : Dict Str MUse} {n : Str} {m : MUse} (h : u.get? n = some m) : ∃ i : Nat, u[i]? = some (n, m) := by
  obtain ⟨i, hi⟩ := List.getElem?_of_mem (Dict.get?_mem h)
  exact ⟨i, hi⟩

/-- One identifier. -/
theorem visit_inv (hwn : WellNamed defs) {open_ : List (Str × Option MDef)} {st : UseSt} {p : Option MDef} {t n : Str}
    (h : UseInv defs file line ls open_ st) (ht : TextOf ls st.1 p t) (hn : n ∈ scanIdents [] t) :
    UseInv defs file line ls open_ (visitIdent defs file line p st n) ∧
      TextOf ls (visitIdent defs file line p st n).1 p t ∧
      ((defs.get? n).isSome → ((visitIdent defs file line p st n).1.get? n).isSome) ∧
      (∀ k, (st.1.get? k).isSome → ((visitIdent defs file line p st n).1.get? k).isSome) := by
  unfold visitIdent
  by_cases hu : (st.1.get? n).isSome
  · rw [if_pos hu]
    exact ⟨h, ht, fun _ => hu, fun k hk => hk⟩
  · rw [if_neg hu]
    have hu' : st.1.get? n = none := by simpa using hu
    cases hd : defs.get? n with
    | none => exact ⟨h, ht, by simp, fun k hk => hk⟩
    | some d =>
      dsimp only
      generalize hm : (⟨d, p.map MDef.name, (p.map MDef.file).getD file, (p.map MDef.line).getD line⟩ : MUse) = m
      have hkeep : ∀ k, (st.1.get? k).isSome → ((st.1.set n m).get? k).isSome := by
        intro k hk
        rw [Dict.get?_set]
        split
        · rfl
        · exact hk
      refine ⟨⟨⟨Dict.nodup_keys_set h.origin.1 _ _, ?_⟩, ?_, ?_⟩, textOf_grow hu' ht, fun _ => by simp, hkeep⟩
      · rw [set_fresh _ _ _ hu']
        intro i k v hi
        by_cases hlt : i < st.1.length
        · rw [List.getElem?_append_left hlt] at hi
          obtain ⟨h1, h2⟩ := h.origin.2 i k v hi
          refine ⟨h1, ?_⟩
          rcases h2 with h2 | ⟨j, q, hj, h3, h4, h5⟩
          · exact Or.inl h2
          · exact Or.inr ⟨j, q, hj, h3, by rw [List.getElem?_append_left (by omega)]; exact h4, h5⟩
        · have hi' : i = st.1.length := by
            have hlt2 := (List.getElem?_eq_some_iff.1 hi).1
            simp at hlt2
            omega
          subst hi'
          simp at hi
          obtain ⟨rfl, rfl⟩ := hi
          subst hm
          refine ⟨hd, ?_⟩
          cases ht with
          | line hl => exact Or.inl ⟨rfl, ⟨t, hl, hn⟩, rfl, rfl⟩
          | body hk =>
            rename_i k q
            obtain ⟨j, hj⟩ := get_index hk
            have hq := (h.origin.2 j k q hj).1
            have hname := hwn k _ hq
            refine Or.inr ⟨j, q, ?_, rfl, ?_, hn, rfl, rfl⟩
            · exact (List.getElem?_eq_some_iff.1 hj).1
            · rw [hname, List.getElem?_append_left (List.getElem?_eq_some_iff.1 hj).1]
              exact hj
      · intro q hq
        rcases List.mem_cons.1 hq with rfl | hq
        · have : (st.1.set n m).get? n = some m := by simp
          subst hm
          exact .body this
        · exact textOf_grow hu' (h.texts q hq)
      · intro q t' htx
        cases htx with
        | line hl =>
          rcases h.closed none t' (.line hl) with h1 | h1 | h1
          · exact Or.inl (List.mem_cons_of_mem _ h1)
          · exact Or.inr (Or.inl h1)
          · exact Or.inr (Or.inr fun k hk hdk => hkeep k (h1 k hk hdk))
        | body hk =>
          rename_i k q'
          rw [Dict.get?_set] at hk
          split at hk
          · simp at hk
            subst hk
            subst hm
            exact Or.inl List.mem_cons_self
          · rcases h.closed _ _ (.body hk) with h1 | h1 | h1
            · exact Or.inl (List.mem_cons_of_mem _ h1)
            · exact Or.inr (Or.inl h1)
            · exact Or.inr (Or.inr fun k hk hdk => hkeep k (h1 k hk hdk))

/-- All identifiers of a text. -/
theorem visits_inv (hwn : WellNamed defs) {open_ : List (Str × Option MDef)} {p : Option MDef} {t : Str} :
    ∀ (ns : List Str) (st : UseSt), UseInv defs file line ls open_ st → TextOf ls st.1 p t →
      (∀ n ∈ ns, n ∈ scanIdents [] t) →
      UseInv defs file line ls open_ (ns.foldl (visitIdent defs file line p) st) ∧
      TextOf ls (ns.foldl (visitIdent defs file line p) st).1 p t ∧
      (∀ n ∈ ns, (defs.get? n).isSome → ((ns.foldl (visitIdent defs file line p) st).1.get? n).isSome) ∧
      (∀ k, (st.1.get? k).isSome → ((ns.foldl (visitIdent defs file line p) st).1.get? k).isSome)
  | [], st, h, ht, _ => ⟨h, ht, by simp, fun k hk => hk⟩
  | n :: ns, st, h, ht, hns => by
    obtain ⟨h1, h2, h3, h4⟩ := visit_inv hwn h ht (hns n (by simp))
    obtain ⟨g1, g2, g3, g4⟩ := visits_inv hwn ns _ h1 h2 (fun k hk => hns k (by simp [hk]))
    refine ⟨g1, g2, ?_, fun k hk => g4 k (h4 k hk)⟩
    intro k hk hd
    rcases List.mem_cons.1 hk with rfl | hk
    · exact g4 k (h3 hd)
    · exact g3 k hk hd

/-- The result of the search. -/
theorem useLoop_inv (hwn : WellNamed defs) : ∀ (k : Nat) (st : UseSt) (u : Dict Str MUse),
    UseInv defs file line ls [] st → useLoop defs file line k st = some u →
    UseInv defs file line ls [] (u, []) ∧ (∀ n, (st.1.get? n).isSome → (u.get? n).isSome)
  | k, (u0, []), u, h, hu => by
    have : u0 = u := by
      cases k <;> simpa [useLoop] using hu
    subst this
    exact ⟨h, fun n hn => hn⟩
  | 0, (u0, q :: stack), u, h, hu => by simp [useLoop] at hu
  | k + 1, (u0, (t, p) :: stack), u, h, hu => by
    rw [useLoop] at hu
    have ht : TextOf ls u0 p t := h.texts (t, p) (by simp)
    have h0 : UseInv defs file line ls [(t, p)] (u0, stack) :=
      ⟨h.origin, fun q hq => h.texts q (by simp [hq]), fun p' t' htx => by
        rcases h.closed p' t' htx with h1 | h1 | h1
        · rcases List.mem_cons.1 h1 with h1 | h1
          · exact Or.inr (Or.inl (by simp [h1]))
          · exact Or.inl h1
        · simp at h1
        · exact Or.inr (Or.inr h1)⟩
    obtain ⟨g1, g2, g3, g4⟩ := visits_inv hwn (scanIdents [] t) (u0, stack) h0 ht (fun n hn => hn)
    have h1 : UseInv defs file line ls [] ((scanIdents [] t).foldl (visitIdent defs file line p) (u0, stack)) :=
      ⟨g1.origin, g1.texts, fun p' t' htx => by
        rcases g1.closed p' t' htx with h1 | h1 | h1
        · exact Or.inl h1
        · simp at h1
          obtain ⟨rfl, rfl⟩ := h1
          exact Or.inr (Or.inr g3)
        · exact Or.inr (Or.inr h1)⟩
    obtain ⟨r1, r2⟩ := useLoop_inv hwn k _ u h1 hu
    exact ⟨r1, fun n hn => r2 n (g4 n hn)⟩

theorem textOf_more {u : Dict Str MUse} {p : Option MDef} {t b : Str} (h : TextOf ls u p t) :
    TextOf (ls ++ [b]) u p t := by
  cases h with
  | line hl => exact .line (by simp [hl])
  | body hk => exact .body hk

theorem textOf_less {u : Dict Str MUse} {p : Option MDef} {t b : Str} (h : TextOf (ls ++ [b]) u p t) :
    TextOf ls u p t ∨ (p = none ∧ t = b) := by
  cases h with
  | line hl =>
    rcases List.mem_append.1 hl with hl | hl
    · exact Or.inl (.line hl)
    · exact Or.inr ⟨rfl, by simpa using hl⟩
  | body hk => exact Or.inl (.body hk)

theorem origin_more {u : Dict Str MUse} {b : Str} (h : Origin defs file line ls u) :
    Origin defs file line (ls ++ [b]) u := by
  refine ⟨h.1, fun i n m hi => ⟨(h.2 i n m hi).1, ?_⟩⟩
  rcases (h.2 i n m hi).2 with ⟨h1, ⟨t, ht, h2⟩, h3⟩ | h1
  · exact Or.inl ⟨h1, ⟨t, by simp [ht], h2⟩, h3⟩
  · exact Or.inr h1

/-- The result for a further line. -/
theorem collect_inv (hwn : WellNamed defs) {u u' : Dict Str MUse} {text : Str}
    (h0 : UseInv defs file line ls [] (u, []))
    (h : collectUses defs file line text u = some u') : UseInv defs file line (ls ++ [text]) [] (u', []) := by
  unfold collectUses at h
  by_cases ht : text = []
  · rw [if_pos ht] at h
    simp at h
    subst h
    refine ⟨origin_more h0.origin, by simp, fun p t htx => ?_⟩
    rcases textOf_less htx with h1 | ⟨rfl, rfl⟩
    · exact h0.closed p t h1
    · subst ht
      exact Or.inr (Or.inr (by simp [scanIdents]))
  · rw [if_neg ht] at h
    refine (useLoop_inv hwn _ _ u' ?_ h).1
    refine ⟨origin_more h0.origin, ?_, fun p t htx => ?_⟩
    · intro q hq; simp at hq; subst hq; exact .line (by simp)
    · rcases textOf_less htx with h1 | ⟨rfl, rfl⟩
      · rcases h0.closed p t h1 with h2 | h2 | h2
        · simp at h2
        · simp at h2
        · exact Or.inr (Or.inr h2)
      · exact Or.inl (by simp)

theorem empty_inv : UseInv defs file line [] [] ([], []) := by
  refine ⟨⟨by simp [Dict.keys], by simp⟩, by simp, fun p t htx => ?_⟩
  cases htx with
  | line hl => simp at hl
  | body hk => simp at hk

/-- Completeness from the invariant. -/
theorem inv_complete {u : Dict Str MUse} (hinv : UseInv defs file line ls [] (u, [])) {t : Str} (ht : t ∈ ls)
    (hend : AllTexts NoLetterAtEnd defs t) {n : Str} (hn : Expands defs t n) : (u.get? n).isSome := by
  induction hn with
  | here hd ho =>
    rcases hinv.closed none t (.line ht) with h1 | h1 | h1
    · simp at h1
    · simp at h1
    · exact h1 _ (occurs_scan hend.1 ho) (by rw [hd]; rfl)
  | inside hm he hd ho ih =>
    obtain ⟨v, hv⟩ := Option.isSome_iff_exists.1 ih
    obtain ⟨i, hi⟩ := get_index hv
    have hdef := (hinv.origin.2 i _ v hi).1
    rw [he] at hdef
    simp at hdef
    subst hdef
    rcases hinv.closed _ _ (.body hv) with h1 | h1 | h1
    · simp at h1
    · simp at h1
    · exact h1 _ (occurs_scan (hend.2 _ _ he) ho) (by rw [hd]; rfl)

/-- Soundness from the invariant. -/
theorem inv_sound {u : Dict Str MUse} (hinv : Origin defs file line ls u)
    (hnum : ∀ t ∈ ls, AllTexts PlainNumbers defs t) : ∀ (i : Nat) n m, u[i]? = some (n, m) →
      ∃ t ∈ ls, Expands defs t n := by
  intro i
  induction i using Nat.strongRecOn with
  | _ i ih =>
    intro n m hi
    obtain ⟨hd, hor⟩ := hinv.2 i n m hi
    rcases hor with ⟨_, ⟨t, ht, hs⟩, _⟩ | ⟨j, p, hj, _, hp, hs, _⟩
    · exact ⟨t, ht, .here hd (scan_occurs (hnum t ht).1 hs)⟩
    · have hp' := (hinv.2 j _ p hp).1
      obtain ⟨t, ht, he⟩ := ih j hj _ p hp
      exact ⟨t, ht, .inside he hp' hd (scan_occurs ((hnum t ht).2 _ _ hp') hs)⟩

/-- The stack of a macro, from the invariant. -/
theorem inv_stack {u : Dict Str MUse} (hwn : WellNamed defs) (hinv : Origin defs file line ls u)
    (hnum : ∀ t ∈ ls, AllTexts PlainNumbers defs t) : ∀ (i k : Nat) n m, u[i]? = some (n, m) → i < k →
      ∃ t ∈ ls, MacroStack defs file line t ((useChain u k (some n)).map useInfo).reverse m.dfn := by
  intro i
  induction i using Nat.strongRecOn with
  | _ i ih =>
    intro k n m hi hk
    obtain ⟨hd, hor⟩ := hinv.2 i n m hi
    have hget : u.get? n = some m := Dict.mem_get? hinv.1 (List.mem_of_getElem? hi)
    have hname := hwn n _ hd
    obtain ⟨k, rfl⟩ : ∃ k', k = k' + 1 := ⟨k - 1, by omega⟩
    rw [useChain, hget]
    dsimp only
    rcases hor with ⟨hpar, ⟨t, ht, hs⟩, hf, hl⟩ | ⟨j, p, hj, hpar, hp, hs, hf, hl⟩
    · refine ⟨t, ht, ?_⟩
      rw [hpar]
      have : useChain u k none = [] := by cases k <;> rfl
      rw [this]
      simp only [List.map_cons, List.map_nil, List.reverse_cons, List.reverse_nil, List.nil_append, useInfo, hf, hl]
      exact .here (by rw [hname]; exact hd) (by rw [hname]; exact scan_occurs (hnum t ht).1 hs)
    · obtain ⟨t, ht, hst⟩ := ih j hj k _ p hp (by omega)
      refine ⟨t, ht, ?_⟩
      rw [hpar]
      simp only [List.map_cons, List.reverse_cons, useInfo, hf, hl]
      have hp' := (hinv.2 j _ p hp).1
      exact .inside hst (by rw [hname]; exact hd) (by rw [hname]; exact scan_occurs ((hnum t ht).2 _ _ hp') hs)

/-- What is shown of C107: every macro to which the line expands is found, if no text ends with a word of one letter. -/
theorem C107_complete_partial (hwn : WellNamed defs) {text : Str} (hend : AllTexts NoLetterAtEnd defs text)
    {u : Dict Str MUse} (h : collectUses defs file line text [] = some u) {n : Str} (hn : Expands defs text n) :
    (u.get? n).isSome :=
  inv_complete (collect_inv hwn empty_inv h) (by simp) hend hn

/-- What is shown of C107: the line expands to every macro that is found, if no number is directly followed by letters. -/
theorem C107_sound_partial (hwn : WellNamed defs) {text : Str} (hnum : AllTexts PlainNumbers defs text)
    {u : Dict Str MUse} (h : collectUses defs file line text [] = some u) {n : Str} (hn : (u.get? n).isSome) :
    Expands defs text n := by
  obtain ⟨m, hm⟩ := Option.isSome_iff_exists.1 hn
  obtain ⟨i, hi⟩ := get_index hm
  obtain ⟨t, ht, he⟩ := inv_sound (collect_inv hwn empty_inv h).origin (by simpa using hnum) i n m hi
  simp at ht
  subst ht
  exact he

/-- Macros that are not used yet. -/
def unused (defs : Dict Str MDef) (u : Dict Str MUse) : Nat :=
  (defs.keys.filter fun k => (u.get? k).isNone).length

theorem unused_set {u : Dict Str MUse} {n : Str} {m : MUse} (hn : n ∈ defs.keys) (hu : u.get? n = none) :
    unused defs (u.set n m) < unused defs u := by
  unfold unused
  have hsub : ∀ l : List Str, (l.filter fun k => ((u.set n m).get? k).isNone).length ≤ (l.filter fun k => (u.get? k).isNone).length := by
    intro l
    induction l with
    | nil => simp
    | cons a l ih =>
      have himp : ((u.set n m).get? a).isNone = true → (u.get? a).isNone = true := by
        rw [Dict.get?_set]
        split
        · simp
        · exact id
      rw [List.filter_cons, List.filter_cons]
      split
      · rename_i h1
        rw [if_pos (himp h1)]
        simpa using ih
      · split
        · simp; omega
        · exact ih
  generalize defs.keys = l at hn
  induction l with
  | nil => simp at hn
  | cons a l ih =>
    rw [List.filter_cons, List.filter_cons]
    by_cases ha : a = n
    · subst ha
      have h1 : ((u.set a m).get? a).isNone = false := by simp
      rw [h1, hu]
      simp only [Bool.false_eq_true, if_false, Option.isNone_none, if_true, List.length_cons]
      have := hsub l
      omega
    · have h1 : (u.set n m).get? a = u.get? a := Dict.get?_set_ne _ _ ha
      rw [h1]
      have := ih ((List.mem_cons.1 hn).resolve_left (fun h => ha h.symm))
      split
      · simpa using this
      · exact this

theorem visit_measure (st : UseSt) (p : Option MDef) (n : Str) :
    (visitIdent defs file line p st n).2.length + unused defs (visitIdent defs file line p st n).1 ≤
      st.2.length + unused defs st.1 := by
  unfold visitIdent
  split
  · exact Nat.le_refl _
  · rename_i hu
    split
    · exact Nat.le_refl _
    · rename_i d hd
      have := unused_set (defs := defs) (u := st.1) (n := n)
        (m := { dfn := d, parent := p.map MDef.name, file := (p.map MDef.file).getD file,
                line := (p.map MDef.line).getD line })
        ((Dict.mem_keys_iff defs n).2 (by rw [hd]; rfl)) (by simpa using hu)
      simp only [List.length_cons]
      omega

theorem visits_measure (p : Option MDef) : ∀ (ns : List Str) (st : UseSt),
    (ns.foldl (visitIdent defs file line p) st).2.length + unused defs (ns.foldl (visitIdent defs file line p) st).1 ≤
      st.2.length + unused defs st.1
  | [], _ => Nat.le_refl _
  | n :: ns, st => Nat.le_trans (visits_measure p ns _) (visit_measure st p n)

theorem useLoop_ends : ∀ (k : Nat) (st : UseSt), st.2.length + unused defs st.1 ≤ k →
    ∃ u, useLoop defs file line k st = some u
  | k, (u, []), _ => ⟨u, by cases k <;> rfl⟩
  | 0, (u, q :: stack), h => by simp at h
  | k + 1, (u, (t, p) :: stack), h => by
    rw [useLoop]
    refine useLoop_ends k _ ?_
    have := visits_measure (defs := defs) (file := file) (line := line) p (scanIdents [] t) (u, stack)
    simp only [List.length_cons] at h
    dsimp only at h this ⊢
    omega

theorem unused_le (u : Dict Str MUse) : unused defs u ≤ defs.length := by
  unfold unused
  refine Nat.le_trans (List.length_filter_le _ _) ?_
  simp [Dict.keys]

end

/-- **C107** The search for the macros of a line ends for all definitions, also if macros mention each other in cycles
(without names composed by `##`, see C80). -/
theorem C107_ends (defs : Dict Str MDef) (file : Str) (line : Nat) (text : Str) (u : Dict Str MUse) :
    ∃ u', collectUses defs file line text u = some u' := by
  unfold collectUses
  split
  · exact ⟨u, rfl⟩
  · refine useLoop_ends _ _ ?_
    have := unused_le (defs := defs) u
    simp
    omega

/-- `#define MAX(a) LIM + a`, `#define LIM (MAX(1) + 10)`, `#define OTHER 1` -/
def loopDefs : Dict Str MDef :=
  [(str! "MAX", ⟨str! "MAX", str! "LIM + a1;", str! "a.h", 1⟩), (str! "LIM", ⟨str! "LIM", str! "(MAX(1) + 10)", str! "b.h", 2⟩),
   (str! "OTHER", ⟨str! "OTHER", str! "1;", str! "b.h", 3⟩)]

example : (collectUses loopDefs (str! "x.c") 7 (str! "x = MAX(2);") []).map Dict.keys = some [str! "MAX", str! "LIM"] := by
  decide +kernel

/-! ### C108 -/

/-- **C108** (full statement, see `C108_fails`): after any queries, all macros that differ between two lines are reported,
and what is reported is a macro with different bodies with correct stacks. -/
def C108_statement : Prop :=
  ∀ (locs : Nat → MLoc), NamedDefs locs → ∀ c, QueryHistory locs c → ∀ l r ds c', findMacroDiffs locs c l r = some (ds, c') →
    (∀ dL dR, MacroDiffers (locs l) (locs r) dL dR →
      ∃ x ∈ ds, x.name = dL.name ∧ x.bodyL = dL.body ∧ x.bodyR = dR.body) ∧
    ∀ x ∈ ds, ReportedRight (locs l) (locs r) x

section
variable {locs : Nat → MLoc}

/-- Uses of a location in the cache. -/
def Cached (locs : Nat → MLoc) (l : Nat) (u : Dict Str MUse) : Prop :=
  ∃ ls, (locs l).text ∈ ls ∧ (∀ t ∈ ls, t = (locs l).text ∨ t = (locs l).before) ∧
    UseInv (locs l).defs (locs l).file (locs l).line ls [] (u, [])

/-- The line before was searched, too. -/
def CachedBefore (locs : Nat → MLoc) (l : Nat) (u : Dict Str MUse) : Prop :=
  ∃ ls, (locs l).text ∈ ls ∧ (locs l).before ∈ ls ∧ UseInv (locs l).defs (locs l).file (locs l).line ls [] (u, [])

/-- All of the cache. -/
def CacheInv (locs : Nat → MLoc) (c : UseCache) : Prop := ∀ l u, c.get? l = some u → Cached locs l u

theorem getUses_inv (hwn : NamedDefs locs) {prev : Bool} {c c' : UseCache} {l : Nat} {u : Dict Str MUse}
    (hc : CacheInv locs c) (hp : prev = true → (c.get? l).isSome) (h : getUses locs prev c l = some (u, c')) :
    CacheInv locs c' ∧ c'.get? l = some u ∧ (∀ k, (c.get? k).isSome → (c'.get? k).isSome) := by
  have hset : ∀ u', Cached locs l u' → CacheInv locs (c.set l u') ∧ (c.set l u').get? l = some u' ∧
      (∀ k, (c.get? k).isSome → ((c.set l u').get? k).isSome) := by
    intro u' hu'
    refine ⟨fun k v hk => ?_, by simp, fun k hk => ?_⟩
    · rw [Dict.get?_set] at hk
      split at hk
      · rename_i e
        simp at hk
        subst e hk
        exact hu'
      · exact hc k v hk
    · rw [Dict.get?_set]
      split
      · rfl
      · exact hk
  unfold getUses at h
  cases ho : c.get? l with
  | none =>
    cases prev with
    | true => simp [ho] at hp
    | false =>
      rw [ho] at h
      simp only [Option.getD_none, Bool.false_eq_true, if_false] at h
      cases hcol : collectUses (locs l).defs (locs l).file (locs l).line (locs l).text [] with
      | none => rw [hcol] at h; cases h
      | some v =>
        rw [hcol] at h
        simp at h
        obtain ⟨rfl, rfl⟩ := h
        exact hset v ⟨[(locs l).text], by simp, by simp, by
          have := collect_inv (hwn l) empty_inv hcol
          simpa using this⟩
  | some w =>
    rw [ho] at h
    cases prev with
    | false =>
      simp at h
      obtain ⟨rfl, rfl⟩ := h
      exact ⟨hc, ho, fun k hk => hk⟩
    | true =>
      simp only [Option.getD_some, if_true] at h
      cases hcol : collectUses (locs l).defs (locs l).file (locs l).line (locs l).before w with
      | none => rw [hcol] at h; cases h
      | some v =>
        rw [hcol] at h
        simp at h
        obtain ⟨rfl, rfl⟩ := h
        obtain ⟨ls, h1, h2, h3⟩ := hc l w ho
        refine hset v ⟨ls ++ [(locs l).before], by simp [h1], ?_, collect_inv (hwn l) h3 hcol⟩
        intro t ht
        rcases List.mem_append.1 ht with ht | ht
        · exact h2 t ht
        · exact Or.inr (by simpa using ht)

theorem diffsAt_inv (hwn : NamedDefs locs) {prev : Bool} {c c' : UseCache} {l r : Nat} {ds : List MDiff}
    (hc : CacheInv locs c) (hp : prev = true → (c.get? l).isSome ∧ (c.get? r).isSome)
    (h : diffsAt locs prev c l r = some (ds, c')) :
    CacheInv locs c' ∧ ∃ uL uR, c'.get? l = some uL ∧ c'.get? r = some uR ∧ ds = useDiffs uL uR := by
  unfold diffsAt at h
  cases h1 : getUses locs prev c l with
  | none => rw [h1] at h; cases h
  | some q =>
    obtain ⟨u1, c1⟩ := q
    rw [h1] at h
    dsimp only at h
    obtain ⟨i1, g1, k1⟩ := getUses_inv hwn hc (fun e => (hp e).1) h1
    cases h2 : getUses locs prev c1 r with
    | none => rw [h2] at h; cases h
    | some q =>
      obtain ⟨u2, c2⟩ := q
      rw [h2] at h
      simp at h
      obtain ⟨rfl, rfl⟩ := h
      obtain ⟨i2, g2, k2⟩ := getUses_inv hwn i1 (fun e => k1 r (hp e).2) h2
      obtain ⟨uL, hL⟩ := Option.isSome_iff_exists.1 (k2 l (by rw [g1]; rfl))
      exact ⟨i2, uL, u2, hL, g2, by rw [hL]; rfl⟩

theorem find_inv (hwn : NamedDefs locs) {c c' : UseCache} {l r : Nat} {ds : List MDiff}
    (hc : CacheInv locs c) (h : findMacroDiffs locs c l r = some (ds, c')) :
    CacheInv locs c' ∧ ∃ uL uR, c'.get? l = some uL ∧ c'.get? r = some uR ∧ ds = useDiffs uL uR := by
  unfold findMacroDiffs at h
  cases h1 : diffsAt locs false c l r with
  | none => rw [h1] at h; cases h
  | some q =>
    obtain ⟨ds1, c1⟩ := q
    rw [h1] at h
    have i1 := diffsAt_inv hwn hc (by simp) h1
    cases ds1 with
    | cons x xs =>
      simp at h
      obtain ⟨rfl, rfl⟩ := h
      exact i1
    | nil =>
      dsimp only at h
      obtain ⟨j1, uL, uR, hL, hR, _⟩ := i1
      exact diffsAt_inv hwn j1 (fun _ => ⟨by rw [hL]; rfl, by rw [hR]; rfl⟩) h

theorem history_inv (hwn : NamedDefs locs) {c : UseCache} (h : QueryHistory locs c) : CacheInv locs c := by
  induction h with
  | start => intro l u h; simp at h
  | query _ hq ih => exact (find_inv hwn ih hq).1

theorem mem_useDiffs {uL uR : Dict Str MUse} {x : MDiff} : x ∈ useDiffs uL uR ↔
    ∃ n m r, (n, m) ∈ uL ∧ uR.get? n = some r ∧ m.dfn.body ≠ r.dfn.body ∧
      x = { name := m.dfn.name, bodyL := m.dfn.body, bodyR := r.dfn.body,
            stackL := ((useChain uL (uL.length + 1) (some n)).map useInfo).reverse,
            stackR := ((useChain uR (uR.length + 1) (some n)).map useInfo).reverse } := by
  unfold useDiffs
  rw [List.mem_filterMap]
  constructor
  · rintro ⟨⟨n, m⟩, hm, hx⟩
    unfold useDiff at hx
    cases hr : uR.get? n with
    | none => simp [hr] at hx
    | some r =>
      simp only [hr] at hx
      by_cases hb : m.dfn.body = r.dfn.body
      · rw [if_pos hb] at hx; cases hx
      · rw [if_neg hb] at hx
        simp at hx
        exact ⟨n, m, r, hm, hr, hb, hx.symm⟩
  · rintro ⟨n, m, r, hm, hr, hb, rfl⟩
    refine ⟨(n, m), hm, ?_⟩
    unfold useDiff
    simp only [hr]
    rw [if_neg hb]

/-- What is shown of C108: all macros that differ are reported if no text ends with a word of one letter. -/
theorem C108_complete_partial (hwn : NamedDefs locs) {c c' : UseCache} (hh : QueryHistory locs c) {l r : Nat}
    {ds : List MDiff} (h : findMacroDiffs locs c l r = some (ds, c'))
    (hl : AllTexts NoLetterAtEnd (locs l).defs (locs l).text) (hr : AllTexts NoLetterAtEnd (locs r).defs (locs r).text)
    {dL dR : MDef} (hd : MacroDiffers (locs l) (locs r) dL dR) :
    ∃ x ∈ ds, x.name = dL.name ∧ x.bodyL = dL.body ∧ x.bodyR = dR.body := by
  obtain ⟨hi, uL, uR, gL, gR, rfl⟩ := find_inv hwn (history_inv hwn hh) h
  obtain ⟨hnm, hdL, hdR, heL, heR, hb⟩ := hd
  obtain ⟨lsL, t1, _, i1⟩ := hi l uL gL
  obtain ⟨lsR, t2, _, i2⟩ := hi r uR gR
  obtain ⟨m, hm⟩ := Option.isSome_iff_exists.1 (inv_complete i1 t1 hl heL)
  obtain ⟨q, hq⟩ := Option.isSome_iff_exists.1 (inv_complete i2 t2 hr heR)
  obtain ⟨i, hmi⟩ := get_index hm
  obtain ⟨j, hqj⟩ := get_index hq
  have e1 : m.dfn = dL := by
    have := (i1.origin.2 i _ m hmi).1
    rw [hdL] at this
    simpa using this.symm
  have e2 : q.dfn = dR := by
    have := (i2.origin.2 j _ q hqj).1
    rw [hdR] at this
    simpa using this.symm
  refine ⟨_, mem_useDiffs.2 ⟨dL.name, m, q, List.mem_of_getElem? hmi, by rw [hnm]; exact hq, by rw [e1, e2]; exact hb, rfl⟩, ?_⟩
  simp [e1, e2]

/-- What is shown of C108: only such macros are reported, with correct stacks, if no number is directly followed by
letters. -/
theorem C108_sound_partial (hwn : NamedDefs locs) {c c' : UseCache} (hh : QueryHistory locs c) {l r : Nat}
    {ds : List MDiff} (h : findMacroDiffs locs c l r = some (ds, c'))
    (hl : ∀ t, t = (locs l).text ∨ t = (locs l).before → AllTexts PlainNumbers (locs l).defs t)
    (hr : ∀ t, t = (locs r).text ∨ t = (locs r).before → AllTexts PlainNumbers (locs r).defs t)
    {x : MDiff} (hx : x ∈ ds) : ReportedRight (locs l) (locs r) x := by
  obtain ⟨hi, uL, uR, gL, gR, rfl⟩ := find_inv hwn (history_inv hwn hh) h
  obtain ⟨n, m, q, hm, hq, hb, rfl⟩ := mem_useDiffs.1 hx
  obtain ⟨lsL, _, t1, i1⟩ := hi l uL gL
  obtain ⟨lsR, _, t2, i2⟩ := hi r uR gR
  obtain ⟨i, hmi⟩ := List.getElem?_of_mem hm
  obtain ⟨j, hqj⟩ := get_index hq
  have e1 := hwn l n _ (i1.origin.2 i _ m hmi).1
  have e2 := hwn r n _ (i2.origin.2 j _ q hqj).1
  obtain ⟨tL, htL, sL⟩ := inv_stack (hwn l) i1.origin (fun t ht => hl t (t1 t ht)) i (uL.length + 1) n m hmi (by
    have := (List.getElem?_eq_some_iff.1 hmi).1
    omega)
  obtain ⟨tR, htR, sR⟩ := inv_stack (hwn r) i2.origin (fun t ht => hr t (t2 t ht)) j (uR.length + 1) n q hqj (by
    have := (List.getElem?_eq_some_iff.1 hqj).1
    omega)
  exact ⟨m.dfn, q.dfn, rfl, by rw [e1, e2], rfl, rfl, hb, ⟨tL, t1 tL htL, sL⟩, ⟨tR, t2 tR htR, sR⟩⟩

theorem getUses_before (hwn : NamedDefs locs) {c c' : UseCache} {l : Nat} {u : Dict Str MUse}
    (hc : CacheInv locs c) (hp : (c.get? l).isSome) (h : getUses locs true c l = some (u, c')) :
    CachedBefore locs l u ∧ c' = c.set l u := by
  unfold getUses at h
  obtain ⟨w, ho⟩ := Option.isSome_iff_exists.1 hp
  rw [ho] at h
  simp only [Option.getD_some, if_true] at h
  cases hcol : collectUses (locs l).defs (locs l).file (locs l).line (locs l).before w with
  | none => rw [hcol] at h; cases h
  | some v =>
    rw [hcol] at h
    simp at h
    obtain ⟨rfl, rfl⟩ := h
    obtain ⟨ls, h1, h2, h3⟩ := hc l w ho
    exact ⟨⟨ls ++ [(locs l).before], by simp [h1], by simp, collect_inv (hwn l) h3 hcol⟩, rfl⟩

theorem diffsAt_before (hwn : NamedDefs locs) {c c' : UseCache} {l r : Nat} {ds : List MDiff}
    (hc : CacheInv locs c) (hl : (c.get? l).isSome) (hr : (c.get? r).isSome)
    (h : diffsAt locs true c l r = some (ds, c')) :
    ∃ uL uR, ds = useDiffs uL uR ∧ CachedBefore locs l uL ∧ CachedBefore locs r uR := by
  unfold diffsAt at h
  cases h1 : getUses locs true c l with
  | none => rw [h1] at h; cases h
  | some q =>
    obtain ⟨u1, c1⟩ := q
    rw [h1] at h
    dsimp only at h
    obtain ⟨i1, g1, k1⟩ := getUses_inv hwn hc (fun _ => hl) h1
    obtain ⟨b1, _⟩ := getUses_before hwn hc hl h1
    cases h2 : getUses locs true c1 r with
    | none => rw [h2] at h; cases h
    | some q =>
      obtain ⟨u2, c2⟩ := q
      rw [h2] at h
      simp at h
      obtain ⟨rfl, rfl⟩ := h
      obtain ⟨b2, e2⟩ := getUses_before hwn i1 (k1 r hr) h2
      refine ⟨_, u2, rfl, ?_, b2⟩
      rw [e2, Dict.get?_set]
      split
      · rename_i e
        subst e
        exact b2
      · rw [g1]
        exact b1

/-- What is shown of C108: some difference is reported if a macro of the lines or of the lines before them differs and no
text ends with a word of one letter. -/
theorem C108_before_partial (hwn : NamedDefs locs) {c c' : UseCache} (hh : QueryHistory locs c) {l r : Nat}
    {ds : List MDiff} (h : findMacroDiffs locs c l r = some (ds, c'))
    (hl : ∀ t, t = (locs l).text ∨ t = (locs l).before → AllTexts NoLetterAtEnd (locs l).defs t)
    (hr : ∀ t, t = (locs r).text ∨ t = (locs r).before → AllTexts NoLetterAtEnd (locs r).defs t)
    {dL dR : MDef} (hd : MacroDiffersNear (locs l) (locs r) dL dR) : ds ≠ [] := by
  unfold findMacroDiffs at h
  cases h1 : diffsAt locs false c l r with
  | none => rw [h1] at h; cases h
  | some q =>
    obtain ⟨ds1, c1⟩ := q
    rw [h1] at h
    obtain ⟨j1, uL, uR, gL, gR, _⟩ := diffsAt_inv hwn (history_inv hwn hh) (by simp) h1
    cases ds1 with
    | cons x xs =>
      simp at h
      rw [← h.1]
      simp
    | nil =>
      dsimp only at h
      obtain ⟨vL, vR, rfl, ⟨lsL, a1, a2, iL⟩, ⟨lsR, b1, b2, iR⟩⟩ :=
        diffsAt_before hwn j1 (by rw [gL]; rfl) (by rw [gR]; rfl) h
      obtain ⟨hnm, hdL, hdR, ⟨tL, htL, heL⟩, ⟨tR, htR, heR⟩, hb⟩ := hd
      have mL : tL ∈ lsL := by rcases htL with rfl | rfl <;> assumption
      have mR : tR ∈ lsR := by rcases htR with rfl | rfl <;> assumption
      obtain ⟨m, hm⟩ := Option.isSome_iff_exists.1 (inv_complete iL mL (hl tL htL) heL)
      obtain ⟨q, hq⟩ := Option.isSome_iff_exists.1 (inv_complete iR mR (hr tR htR) heR)
      obtain ⟨i, hmi⟩ := get_index hm
      obtain ⟨j, hqj⟩ := get_index hq
      have e1 : m.dfn = dL := by
        have := (iL.origin.2 i _ m hmi).1
        rw [hdL] at this
        simpa using this.symm
      have e2 : q.dfn = dR := by
        have := (iR.origin.2 j _ q hqj).1
        rw [hdR] at this
        simpa using this.symm
      exact List.ne_nil_of_mem (mem_useDiffs.2 ⟨dL.name, m, q, List.mem_of_getElem? hmi, by rw [hnm]; exact hq,
        by rw [e1, e2]; exact hb, rfl⟩)

/-- **C108** The query always ends. -/
theorem C108_ends (locs : Nat → MLoc) (c : UseCache) (l r : Nat) : ∃ ds c', findMacroDiffs locs c l r = some (ds, c') := by
  have hg : ∀ prev c l, ∃ u c', getUses locs prev c l = some (u, c') := by
    intro prev c l
    obtain ⟨u, hu⟩ := C107_ends (locs l).defs (locs l).file (locs l).line
      (if prev then (locs l).before else (locs l).text) ((c.get? l).getD [])
    unfold getUses
    split
    · exact ⟨_, _, rfl⟩
    · rw [hu]; exact ⟨_, _, rfl⟩
  have hd : ∀ prev c, ∃ ds c', diffsAt locs prev c l r = some (ds, c') := by
    intro prev c
    obtain ⟨u1, c1, h1⟩ := hg prev c l
    obtain ⟨u2, c2, h2⟩ := hg prev c1 r
    refine ⟨useDiffs ((c2.get? l).getD []) u2, c2, ?_⟩
    unfold diffsAt
    rw [h1]
    dsimp only
    rw [h2]
  obtain ⟨ds, c1, h1⟩ := hd false c
  obtain ⟨ds2, c2, h2⟩ := hd true c1
  unfold findMacroDiffs
  rw [h1]
  cases ds with
  | nil => exact ⟨ds2, c2, h2⟩
  | cons x xs => exact ⟨x :: xs, c1, rfl⟩

end

/-- Two versions: `#define N 1` and `#define N 2`, and `#define LIM N` on both sides. -/
def letterLocs (l : Nat) : MLoc :=
  { file := str! "x.c", line := 7,
    defs := [(str! "LIM", ⟨str! "LIM", str! "N", str! "a.h", 1⟩),
      (str! "N", ⟨str! "N", if l = 0 then str! "1" else str! "2", str! "a.h", 2⟩)],
    text := str! "x = LIM;", before := [] }

/-- The same with a longer body. -/
def wordLocs (l : Nat) : MLoc :=
  { letterLocs l with
    defs := [(str! "LIM", ⟨str! "LIM", str! "(N)", str! "a.h", 1⟩),
      (str! "N", ⟨str! "N", if l = 0 then str! "10" else str! "20", str! "a.h", 2⟩)] }

example : (findMacroDiffs wordLocs [] 0 1).map (·.1) = some [
    { name := str! "N", bodyL := str! "10", bodyR := str! "20",
      stackL := [(str! "LIM (macro)", str! "x.c", 7), (str! "N (macro)", str! "a.h", 1)],
      stackR := [(str! "LIM (macro)", str! "x.c", 7), (str! "N (macro)", str! "a.h", 1)] }] := by decide +kernel

/-- C108 fails: the difference of a macro is not found if its name is a single letter at the end of another macro. -/
theorem C108_fails : ¬ C108_statement := by
  intro h
  obtain ⟨ds, c', hq⟩ := C108_ends letterLocs [] 0 1
  have hwn : NamedDefs letterLocs := by
    intro l
    refine wellNamed_of ?_
    intro p hp
    simp [letterLocs] at hp
    rcases hp with rfl | rfl <;> rfl
  have h1 := (h letterLocs hwn [] .start 0 1 ds c' hq).1 ⟨str! "N", str! "1", str! "a.h", 2⟩
    ⟨str! "N", str! "2", str! "a.h", 2⟩ ?_
  · have e : (findMacroDiffs letterLocs [] 0 1).map (·.1) = some [] := by decide +kernel
    rw [hq] at e
    simp at e
    subst e
    simp at h1
  · have hx : ∀ l b, (letterLocs l).defs.get? (str! "N") = some ⟨str! "N", b, str! "a.h", 2⟩ →
        Expands (letterLocs l).defs (letterLocs l).text (str! "N") := by
      intro l b hb
      refine .inside (m := str! "LIM") (e := ⟨str! "LIM", str! "N", str! "a.h", 1⟩) ?_ rfl hb
        ⟨word_whole (by simp) (by unfold WordChar; decide), by simp⟩
      refine .here (d := ⟨str! "LIM", str! "N", str! "a.h", 1⟩) rfl
        ⟨⟨str! "x = ", [';'], rfl, by simp, by unfold WordChar; decide, ?_, ?_⟩, by simp⟩
      · intro c hc
        simp at hc
        subst hc
        unfold WordChar
        decide
      · intro c hc
        simp at hc
        subst hc
        unfold WordChar
        decide
    exact ⟨rfl, rfl, rfl, hx 0 _ rfl, hx 1 _ rfl, by decide⟩

/-! ### C109 -/

/-- **C109** (full statement, see `C109_fails`): the definition that is used for a macro is the one that holds at the end
of the compile unit. -/
def C109_statement : Prop :=
  ∀ nodes m, collectDefs nodes = some m → ∀ n, m.get? n = finalDef nodes n

/-- C109 fails: after `#undef X` and `#define X 2` the body of the macro is empty. -/
theorem C109_fails : ¬ C109_statement := by
  intro h
  have := h [.file (str! "a.h") [.undef 1 (str! "X"), .define 2 (str! "X") (str! "2")]]
    [(str! "X", ⟨str! "X", [], str! "a.h", 1⟩)] (by decide +kernel) (str! "X")
  exact absurd this (by decide +kernel)

/-- C109 fails: after `#define X 1` and `#define X 2` the first definition is used. -/
theorem C109_fails_first : ¬ C109_statement := by
  intro h
  have := h [.file (str! "a.h") [.define 1 (str! "X") (str! "1"), .define 2 (str! "X") (str! "2")]]
    [(str! "X", ⟨str! "X", str! "1", str! "a.h", 1⟩)] (by decide +kernel) (str! "X")
  exact absurd this (by decide +kernel)

/-- C109 fails: macros of the command line are not known. -/
theorem C109_fails_command_line : ¬ C109_statement := by
  intro h
  have := h [.define 0 (str! "X") (str! "1")] [] (by decide +kernel) (str! "X")
  exact absurd this (by decide +kernel)

mutual
/-- What is recorded for the elements of a file. -/
def MNode.recs (file : Str) : MNode → List MDef
  | .define line n v => [mkDef file line n v]
  | .undef line n => [mkDef file line n []]
  | .file f es => allRecs f es
def allRecs (file : Str) : List MNode → List MDef
  | [] => []
  | n :: ns => MNode.recs file n ++ allRecs file ns
end

mutual
theorem recs_names (file : Str) : ∀ x : MNode, (x.recs file).map MDef.name = (MNode.events file x).map (·.1)
  | .define _ _ _ => rfl
  | .undef _ _ => rfl
  | .file f es => by rw [MNode.recs, MNode.events]; exact allRecs_names f es
theorem allRecs_names (file : Str) : ∀ xs : List MNode, (allRecs file xs).map MDef.name = (allEvents file xs).map (·.1)
  | [] => rfl
  | x :: xs => by rw [allRecs, allEvents, List.map_append, List.map_append, recs_names file x, allRecs_names file xs]
end

mutual
theorem events_recs (file : Str) {n : Str} {d : MDef} : ∀ x : MNode, (n, some d) ∈ MNode.events file x → d ∈ x.recs file
  | .define line k v => by
    intro h
    simp [MNode.events] at h
    simp [MNode.recs, h.2]
  | .undef _ _ => by intro h; simp [MNode.events] at h
  | .file f es => by rw [MNode.recs, MNode.events]; exact allEvents_recs f es
theorem allEvents_recs (file : Str) {n : Str} {d : MDef} : ∀ xs : List MNode, (n, some d) ∈ allEvents file xs → d ∈ allRecs file xs
  | [] => by intro h; simp [allEvents] at h
  | x :: xs => by
    rw [allRecs, allEvents, List.mem_append, List.mem_append]
    rintro (h | h)
    · exact Or.inl (events_recs file x h)
    · exact Or.inr (allEvents_recs file xs h)
end

mutual
theorem event_named (file : Str) {n : Str} {d : MDef} : ∀ x : MNode, (n, some d) ∈ MNode.events file x → d.name = n
  | .define line k v => by
    intro h
    simp [MNode.events] at h
    rw [h.1, h.2]
  | .undef _ _ => by intro h; simp [MNode.events] at h
  | .file f es => by rw [MNode.events]; exact events_named f es
theorem events_named (file : Str) {n : Str} {d : MDef} : ∀ xs : List MNode, (n, some d) ∈ allEvents file xs → d.name = n
  | [] => by intro h; simp [allEvents] at h
  | x :: xs => by
    rw [allEvents, List.mem_append]
    rintro (h | h)
    · exact event_named file x h
    · exact events_named file xs h
end

/-- What is recorded for the files on the stack. -/
def stackRecs (stack : List (Str × List MNode)) : List MDef := stack.flatMap fun p => allRecs p.1 p.2

theorem insertDef_keep {m : Dict Str MDef} {d e : MDef} {n : Str} (h : m.get? n = some e) : (insertDef m d).get? n = some e := by
  unfold insertDef
  split
  · exact h
  · rename_i hs
    rw [Dict.get?_set]
    split
    · rename_i hn
      subst hn
      simp [h] at hs
    · exact h

theorem insertDef_new {m : Dict Str MDef} {d e : MDef} {n : Str} (h : (insertDef m d).get? n = some e) :
    m.get? n = some e ∨ (e = d ∧ d.name = n) := by
  unfold insertDef at h
  split at h
  · exact Or.inl h
  · rw [Dict.get?_set] at h
    split at h
    · rename_i hn
      simp at h
      exact Or.inr ⟨h.symm, hn.symm⟩
    · exact Or.inl h

theorem insertDef_has (m : Dict Str MDef) (d : MDef) : ((insertDef m d).get? d.name).isSome := by
  unfold insertDef
  split
  · assumption
  · simp

/-- One file. -/
theorem defFold (f : Str) : ∀ (es : List MNode) (st : List (Str × List MNode) × Dict Str MDef),
    (∀ n d, st.2.get? n = some d → (es.foldl (defStep f) st).2.get? n = some d) ∧
    (∀ n d, (es.foldl (defStep f) st).2.get? n = some d → st.2.get? n = some d ∨ (d ∈ allRecs f es ∧ d.name = n)) ∧
    (∀ d, d ∈ stackRecs (es.foldl (defStep f) st).1 → d ∈ stackRecs st.1 ∨ d ∈ allRecs f es) ∧
    (∀ d, d ∈ stackRecs st.1 ∨ d ∈ allRecs f es →
      d ∈ stackRecs (es.foldl (defStep f) st).1 ∨ ((es.foldl (defStep f) st).2.get? d.name).isSome) ∧
    ((es.foldl (defStep f) st).1.map fun p => fileCounts p.2 + 1).sum =
      (st.1.map fun p => fileCounts p.2 + 1).sum + fileCounts es
  | [], st => by
    refine ⟨fun n d h => h, fun n d h => Or.inl h, fun d h => Or.inl h, ?_, by simp [fileCounts]⟩
    rintro d (h | h)
    · exact Or.inl h
    · simp [allRecs] at h
  | x :: es, st => by
    obtain ⟨h1, h2, h3, h4, h5⟩ := defFold f es (defStep f st x)
    simp only [List.foldl_cons]
    have hrec : ∀ (l : Nat) (k v : Str), defStep f st x = (st.1, insertDef st.2 (mkDef f l k v)) →
        x.recs f = [mkDef f l k v] → x.fileCount = 0 →
        (∀ n d, st.2.get? n = some d → (es.foldl (defStep f) (defStep f st x)).2.get? n = some d) ∧
        (∀ n d, (es.foldl (defStep f) (defStep f st x)).2.get? n = some d →
          st.2.get? n = some d ∨ (d ∈ allRecs f (x :: es) ∧ d.name = n)) ∧
        (∀ d, d ∈ stackRecs (es.foldl (defStep f) (defStep f st x)).1 → d ∈ stackRecs st.1 ∨ d ∈ allRecs f (x :: es)) ∧
        (∀ d, d ∈ stackRecs st.1 ∨ d ∈ allRecs f (x :: es) → d ∈ stackRecs (es.foldl (defStep f) (defStep f st x)).1 ∨
          ((es.foldl (defStep f) (defStep f st x)).2.get? d.name).isSome) ∧
        ((es.foldl (defStep f) (defStep f st x)).1.map fun p => fileCounts p.2 + 1).sum =
          (st.1.map fun p => fileCounts p.2 + 1).sum + fileCounts (x :: es) := by
      intro l k v he hr hc
      rw [he] at h1 h2 h3 h4 h5 ⊢
      dsimp only at h1 h2 h3 h4 h5
      have ha : ∀ d, d ∈ allRecs f (x :: es) ↔ d = mkDef f l k v ∨ d ∈ allRecs f es := by
        intro d; rw [allRecs, hr]; simp
      refine ⟨fun n d h => h1 n d (insertDef_keep h), ?_, ?_, ?_, ?_⟩
      · intro n d h
        rcases h2 n d h with h | ⟨h, hn⟩
        · rcases insertDef_new h with h | ⟨h, hn⟩
          · exact Or.inl h
          · exact Or.inr ⟨(ha d).2 (Or.inl h), by rw [h]; exact hn⟩
        · exact Or.inr ⟨(ha d).2 (Or.inr h), hn⟩
      · intro d h
        rcases h3 d h with h | h
        · exact Or.inl h
        · exact Or.inr ((ha d).2 (Or.inr h))
      · rintro d (h | h)
        · exact h4 d (Or.inl h)
        · rcases (ha d).1 h with rfl | h
          · obtain ⟨e, he'⟩ := Option.isSome_iff_exists.1 (insertDef_has st.2 (mkDef f l k v))
            exact Or.inr (by rw [h1 _ _ he']; rfl)
          · exact h4 d (Or.inr h)
      · rw [h5, fileCounts, hc]; omega
    cases x with
    | define l k v => exact hrec l k v rfl rfl rfl
    | undef l k => exact hrec l k [] rfl rfl rfl
    | file g fs =>
      have he : defStep f st (.file g fs) = ((g, fs) :: st.1, st.2) := rfl
      rw [he] at h1 h2 h3 h4 h5 ⊢
      dsimp only at h1 h2 h3 h4 h5
      have hs : ∀ d, d ∈ stackRecs ((g, fs) :: st.1) ↔ d ∈ allRecs g fs ∨ d ∈ stackRecs st.1 := by
        intro d; simp [stackRecs]
      have ha : ∀ d, d ∈ allRecs f (.file g fs :: es) ↔ d ∈ allRecs g fs ∨ d ∈ allRecs f es := by
        intro d; rw [allRecs, MNode.recs]; simp
      refine ⟨h1, ?_, ?_, ?_, ?_⟩
      · intro n d h
        rcases h2 n d h with h | ⟨h, hn⟩
        · exact Or.inl h
        · exact Or.inr ⟨(ha d).2 (Or.inr h), hn⟩
      · intro d h
        rw [ha]
        rcases h3 d h with h | h
        · rcases (hs d).1 h with h | h
          · exact Or.inr (Or.inl h)
          · exact Or.inl h
        · exact Or.inr (Or.inr h)
      · rintro d (h | h)
        · exact h4 d (Or.inl ((hs d).2 (Or.inr h)))
        · rcases (ha d).1 h with h | h
          · exact h4 d (Or.inl ((hs d).2 (Or.inl h)))
          · exact h4 d (Or.inr h)
      · rw [h5, fileCounts, MNode.fileCount]
        simp only [List.map_cons, List.sum_cons]
        omega

/-- All files. -/
theorem defLoop_spec : ∀ (k : Nat) (stack : List (Str × List MNode)) (m m' : Dict Str MDef),
    defLoop k stack m = some m' →
    (∀ n d, m.get? n = some d → m'.get? n = some d) ∧
    (∀ n d, m'.get? n = some d → m.get? n = some d ∨ (d ∈ stackRecs stack ∧ d.name = n)) ∧
    (∀ d ∈ stackRecs stack, (m'.get? d.name).isSome)
  | k, [], m, m', h => by
    have : m = m' := by cases k <;> simpa [defLoop] using h
    subst this
    exact ⟨fun n d h => h, fun n d h => Or.inl h, by simp [stackRecs]⟩
  | 0, _ :: _, m, m', h => by simp [defLoop] at h
  | k + 1, (f, es) :: stack, m, m', h => by
    rw [defLoop] at h
    obtain ⟨h1, h2, h3, h4, _⟩ := defFold f es (stack, m)
    obtain ⟨g1, g2, g3⟩ := defLoop_spec k _ _ m' h
    have hs : ∀ d, d ∈ stackRecs ((f, es) :: stack) ↔ d ∈ allRecs f es ∨ d ∈ stackRecs stack := by
      intro d; simp [stackRecs]
    refine ⟨fun n d h => g1 n d (h1 n d h), ?_, ?_⟩
    · intro n d h
      rcases g2 n d h with h | ⟨h, hn⟩
      · rcases h2 n d h with h | ⟨h, hn⟩
        · exact Or.inl h
        · exact Or.inr ⟨(hs d).2 (Or.inl h), hn⟩
      · rcases h3 d h with h | h
        · exact Or.inr ⟨(hs d).2 (Or.inr h), hn⟩
        · exact Or.inr ⟨(hs d).2 (Or.inl h), hn⟩
    · intro d hd
      rcases h4 d (((hs d).1 hd).symm) with h | h
      · exact g3 d h
      · obtain ⟨e, he⟩ := Option.isSome_iff_exists.1 h
        rw [g1 _ _ he]
        rfl

theorem defLoop_ends : ∀ (k : Nat) (stack : List (Str × List MNode)) (m : Dict Str MDef),
    (stack.map fun p => fileCounts p.2 + 1).sum ≤ k → ∃ m', defLoop k stack m = some m'
  | k, [], m, _ => ⟨m, by cases k <;> rfl⟩
  | 0, _ :: _, m, h => by simp at h
  | k + 1, (f, es) :: stack, m, h => by
    rw [defLoop]
    refine defLoop_ends k _ _ ?_
    have := (defFold f es (stack, m)).2.2.2.2
    simp only [List.map_cons, List.sum_cons] at h
    dsimp only at this
    omega

theorem top_count : ∀ nodes : List MNode,
    ((nodes.filterMap topFile).map fun p => fileCounts p.2 + 1).sum = fileCounts nodes
  | [] => rfl
  | .define _ _ _ :: ns => by rw [fileCounts, MNode.fileCount, Nat.zero_add]; exact top_count ns
  | .undef _ _ :: ns => by rw [fileCounts, MNode.fileCount, Nat.zero_add]; exact top_count ns
  | .file _ _ :: ns => by simp [topFile, fileCounts, MNode.fileCount, top_count ns]

/-- **C109** The macros of a compile unit are always collected. -/
theorem C109_ends (nodes : List MNode) : ∃ m, collectDefs nodes = some m := by
  refine defLoop_ends _ _ _ ?_
  rw [List.map_reverse, List.sum_reverse, top_count]

theorem top_recs : ∀ {nodes : List MNode} {d : MDef}, d ∈ stackRecs (nodes.filterMap topFile) → d ∈ allRecs [] nodes
  | [], d, h => by simp [stackRecs] at h
  | x :: xs, d, h => by
    rw [allRecs, List.mem_append]
    cases x with
    | define l k v => exact Or.inr (top_recs (by exact h))
    | undef l k => exact Or.inr (top_recs (by exact h))
    | file f es =>
      rw [List.filterMap_cons, topFile] at h
      dsimp only at h
      rw [stackRecs, List.flatMap_cons, List.mem_append] at h
      rcases h with h | h
      · exact Or.inl (by rw [MNode.recs]; exact h)
      · exact Or.inr (top_recs h)

theorem recs_top : ∀ {nodes : List MNode} {n : Str} {d : MDef}, InFilesOnly nodes n → (n, some d) ∈ allEvents [] nodes →
    d ∈ stackRecs (nodes.filterMap topFile)
  | [], n, d, _, h => by simp [allEvents] at h
  | x :: xs, n, d, hf, h => by
    rw [allEvents, List.mem_append] at h
    have hf' : InFilesOnly xs n := fun y hy => hf y (by simp [hy])
    have hx := hf x (by simp)
    cases x with
    | define l k v =>
      rcases h with h | h
      · rcases hx with ⟨_, _, hx⟩ | hx
        · cases hx
        · exact absurd rfl (hx _ h)
      · exact recs_top (nodes := xs) hf' h
    | undef l k =>
      rcases h with h | h
      · simp [MNode.events] at h
      · exact recs_top (nodes := xs) hf' h
    | file f es =>
      rw [List.filterMap_cons, topFile]
      dsimp only
      rw [stackRecs, List.flatMap_cons, List.mem_append]
      rcases h with h | h
      · exact Or.inl (allEvents_recs f es (by rwa [MNode.events] at h))
      · exact Or.inr (recs_top hf' h)

theorem events_length (nodes : List MNode) (n : Str) :
    ((allRecs [] nodes).filter fun d => decide (d.name = n)).length = (eventsOf nodes n).length := by
  unfold eventsOf
  have h := congrArg (fun l => (l.filter fun k => decide (k = n)).length) (allRecs_names [] nodes)
  simpa [List.filter_map, Function.comp_def] using h

/-- What is shown of C109: names that are defined once, in a file, and not undefined have this definition, and names that
are not defined have none. Missing: macros that are redefined or undefined and those of the command line. -/
theorem C109_once_partial {nodes : List MNode} {m : Dict Str MDef} (h : collectDefs nodes = some m) (n : Str)
    (hf : InFilesOnly nodes n) (hn : eventsOf nodes n = [] ∨ ∃ d, eventsOf nodes n = [(n, some d)]) :
    m.get? n = finalDef nodes n := by
  obtain ⟨_, h2, h3⟩ := defLoop_spec _ _ _ m h
  have hrev : ∀ d, d ∈ stackRecs (nodes.filterMap topFile).reverse ↔ d ∈ stackRecs (nodes.filterMap topFile) := by
    intro d; simp [stackRecs]
  have hlen := events_length nodes n
  rcases hn with hn | ⟨d, hn⟩
  · unfold finalDef
    rw [hn] at hlen ⊢
    cases hm : m.get? n with
    | none => rfl
    | some e =>
      rcases h2 n e hm with h | ⟨h, he⟩
      · simp at h
      · have := top_recs ((hrev e).1 h)
        have hmem : e ∈ (allRecs [] nodes).filter fun d => decide (d.name = n) := by simp [this, he]
        simp at hlen
        exact absurd he (hlen e this)
  · unfold finalDef
    rw [hn] at hlen ⊢
    have hd : (n, some d) ∈ allEvents [] nodes := by
      have : (n, some d) ∈ eventsOf nodes n := by rw [hn]; simp
      exact (List.mem_filter.1 this).1
    have hds := recs_top hf hd
    have hdr := allEvents_recs [] nodes hd
    obtain ⟨e0, he0⟩ := List.length_eq_one_iff.1 hlen
    have hdn : d.name = n := events_named [] nodes hd
    obtain ⟨e, he⟩ := Option.isSome_iff_exists.1 (h3 d ((hrev d).2 hds))
    rw [hdn] at he
    rcases h2 n e he with h | ⟨h, hen⟩
    · simp at h
    · have m1 : e ∈ (allRecs [] nodes).filter fun d => decide (d.name = n) := by simp [top_recs ((hrev e).1 h), hen]
      have m2 : d ∈ (allRecs [] nodes).filter fun d => decide (d.name = n) := by simp [hdr, hdn]
      rw [he0] at m1 m2
      simp at m1 m2
      rw [he, m1, m2]
      rfl

example : (collectDefs [.file (str! "a.c") [.file (str! "a.h") [.define 3 (str! "MAX(a, b)") (str! "a > b ? a : b")],
      .define 2 (str! "N") (str! "5")]]).map (fun m => (m.get? (str! "MAX"), m.get? (str! "N"))) =
    some (some ⟨str! "MAX", str! "a > b ? a : b", str! "a.h", 3⟩, some ⟨str! "N", str! "5", str! "a.c", 2⟩) := by
  decide +kernel

/-! ### C110 -/

/-- **C110** (full statement, see `C110_fails`): what is reported for two lines does not depend on earlier queries. -/
def C110_statement : Prop :=
  ∀ (locs : Nat → MLoc), NamedDefs locs → ∀ c, QueryHistory locs c → ∀ l r,
    (findMacroDiffs locs c l r).map (·.1) = (findMacroDiffs locs [] l r).map (·.1)

/-- `x = QQ;` after `y = PP;` in two places and `x = QQ + PP;` in the third, where both macros have other bodies. -/
def mergeLocs (l : Nat) : MLoc :=
  { file := str! "x.c", line := 7,
    defs := [(str! "QQ", ⟨str! "QQ", if l = 2 then str! "20" else str! "10", str! "a.h", 1⟩),
      (str! "PP", ⟨str! "PP", if l = 2 then str! "21" else str! "11", str! "a.h", 2⟩)],
    text := if l = 2 then str! "x = QQ + PP;" else str! "x = QQ;", before := if l = 2 then [] else str! "y = PP;" }

/-- C110 fails: macros of the line before stay recorded for the line after a query without a difference. -/
theorem C110_fails : ¬ C110_statement := by
  intro h
  obtain ⟨ds, c', hq⟩ := C108_ends mergeLocs [] 0 1
  have hwn : NamedDefs mergeLocs := by
    intro l
    refine wellNamed_of ?_
    intro p hp
    simp [mergeLocs] at hp
    rcases hp with rfl | rfl <;> rfl
  have h1 := h mergeLocs hwn c' (.query .start hq) 0 2
  have e : (findMacroDiffs mergeLocs [] 0 1).map (·.2) = some c' := by rw [hq]; rfl
  have e2 : (findMacroDiffs mergeLocs [] 0 1).bind (fun q => (findMacroDiffs mergeLocs q.2 0 2).map fun z => z.1.map MDiff.name) =
      some [str! "QQ", str! "PP"] := by decide +kernel
  have e3 : (findMacroDiffs mergeLocs [] 0 2).map (fun z => z.1.map MDiff.name) = some [str! "QQ"] := by decide +kernel
  rw [hq] at e2
  have h2 := congrArg (Option.map (List.map MDiff.name)) h1
  rw [Option.map_map, Option.map_map] at h2
  have e2' : (findMacroDiffs mergeLocs c' 0 2).map (fun z => z.1.map MDiff.name) = some [str! "QQ", str! "PP"] := e2
  have h3 : (findMacroDiffs mergeLocs c' 0 2).map (fun z => z.1.map MDiff.name) =
      (findMacroDiffs mergeLocs [] 0 2).map (fun z => z.1.map MDiff.name) := h2
  rw [e2', e3] at h3
  exact absurd h3 (by decide)

namespace Spec

/-- Caches after queries that found a difference on the lines themselves. -/
inductive FoundHistory (locs : Nat → MLoc) : UseCache → Prop
  | start : FoundHistory locs []
  | query {c c' : UseCache} {l r : Nat} {x : MDiff} {ds : List MDiff} : FoundHistory locs c →
      diffsAt locs false c l r = some (x :: ds, c') → FoundHistory locs c'

end Spec

section
variable {locs : Nat → MLoc}

/-- The cache holds what was found on the lines themselves. -/
def FreshCache (locs : Nat → MLoc) (c : UseCache) : Prop :=
  ∀ l u, c.get? l = some u → collectUses (locs l).defs (locs l).file (locs l).line (locs l).text [] = some u

theorem getUses_fresh {c : UseCache} (hc : FreshCache locs c) (l : Nat) :
    ∃ u c', getUses locs false c l = some (u, c') ∧ FreshCache locs c' ∧ c'.get? l = some u ∧
      collectUses (locs l).defs (locs l).file (locs l).line (locs l).text [] = some u ∧
      ∀ k v, c.get? k = some v → c'.get? k = some v := by
  cases ho : c.get? l with
  | some u =>
    refine ⟨u, c, by unfold getUses; rw [ho], hc, ho, hc l u ho, fun k v h => h⟩
  | none =>
    obtain ⟨u, hu⟩ := C107_ends (locs l).defs (locs l).file (locs l).line (locs l).text []
    refine ⟨u, c.set l u, ?_, ?_, by simp, hu, ?_⟩
    · unfold getUses
      rw [ho]
      simp only [Option.getD_none, Bool.false_eq_true, if_false, hu, Option.map_some]
    · intro k v hk
      rw [Dict.get?_set] at hk
      split at hk
      · rename_i e
        simp at hk
        subst e hk
        exact hu
      · exact hc k v hk
    · intro k v hk
      rw [Dict.get?_set]
      split
      · rename_i e
        subst e
        rw [ho] at hk
        cases hk
      · exact hk

theorem diffsAt_fresh {c : UseCache} (hc : FreshCache locs c) (l r : Nat) :
    ∃ uL uR c', diffsAt locs false c l r = some (useDiffs uL uR, c') ∧ FreshCache locs c' ∧ c'.get? l = some uL ∧
      c'.get? r = some uR ∧ collectUses (locs l).defs (locs l).file (locs l).line (locs l).text [] = some uL ∧
      collectUses (locs r).defs (locs r).file (locs r).line (locs r).text [] = some uR := by
  obtain ⟨uL, c1, h1, f1, g1, e1, _⟩ := getUses_fresh hc l
  obtain ⟨uR, c2, h2, f2, g2, e2, k2⟩ := getUses_fresh f1 r
  refine ⟨uL, uR, c2, ?_, f2, k2 l uL g1, g2, e1, e2⟩
  unfold diffsAt
  rw [h1]
  dsimp only
  rw [h2]
  dsimp only
  rw [k2 l uL g1]
  rfl

theorem found_fresh {c : UseCache} (h : FoundHistory locs c) : FreshCache locs c := by
  induction h with
  | start => intro l u h; simp at h
  | query _ hq ih =>
    obtain ⟨uL, uR, c', h1, h2, _⟩ := diffsAt_fresh ih _ _
    rw [h1] at hq
    simp at hq
    rw [← hq.2]
    exact h2

/-- The search on the lines before only depends on what is recorded for the two lines. -/
theorem getUses_prev {c d : UseCache} {l : Nat} (h : c.get? l = d.get? l) :
    (getUses locs true c l).map (·.1) = (getUses locs true d l).map (·.1) := by
  unfold getUses
  rw [h]
  cases d.get? l <;> simp [Option.map_map, Function.comp_def]

theorem diffsAt_prev {c d : UseCache} {l r : Nat} (hl : c.get? l = d.get? l) (hr : c.get? r = d.get? r) :
    (diffsAt locs true c l r).map (·.1) = (diffsAt locs true d l r).map (·.1) := by
  have step : ∀ (c d : UseCache) (k j : Nat), c.get? k = d.get? k → c.get? j = d.get? j →
      ∃ u c' d', getUses locs true c k = some (u, c') ∧ getUses locs true d k = some (u, d') ∧ c'.get? j = d'.get? j ∧
        c'.get? k = some u ∧ d'.get? k = some u := by
    intro c d k j hk hj
    obtain ⟨u, hu⟩ := C107_ends (locs k).defs (locs k).file (locs k).line (locs k).before ((d.get? k).getD [])
    have hg : ∀ e : UseCache, e.get? k = d.get? k → getUses locs true e k = some (u, e.set k u) := by
      intro e he
      unfold getUses
      rw [he]
      cases hd : d.get? k with
      | none => rw [hd] at hu; simp only [if_true, hu, Option.map_some]
      | some v => rw [hd] at hu; simp only [if_true, hu, Option.map_some]
    refine ⟨u, _, _, hg c hk, hg d rfl, ?_, by simp, by simp⟩
    rw [Dict.get?_set, Dict.get?_set, hj]
  obtain ⟨u1, c1, d1, h1, h2, h3, g1, g2⟩ := step c d l r hl hr
  obtain ⟨u2, c2, d2, h4, h5, h6, _, _⟩ := step c1 d1 r l h3 (g1.trans g2.symm)
  unfold diffsAt
  rw [h1, h2]
  dsimp only
  rw [h4, h5]
  dsimp only
  rw [h6]
  rfl

/-- What is shown of C110: what is reported does not depend on earlier queries that found a difference on the lines
themselves. Missing: earlier queries that continued with the lines before. -/
theorem C110_partial {c : UseCache} (h : FoundHistory locs c) (l r : Nat) :
    (findMacroDiffs locs c l r).map (·.1) = (findMacroDiffs locs [] l r).map (·.1) := by
  obtain ⟨uL, uR, c1, h1, _, gl, gr, eL, eR⟩ := diffsAt_fresh (found_fresh h) l r
  obtain ⟨uL', uR', c2, h2, _, gl', gr', eL', eR'⟩ := diffsAt_fresh (locs := locs) (c := []) (by intro l u h; simp at h) l r
  rw [eL] at eL'
  rw [eR] at eR'
  simp at eL' eR'
  subst eL' eR'
  unfold findMacroDiffs
  rw [h1, h2]
  cases useDiffs uL uR with
  | nil => exact diffsAt_prev (gl.trans gl'.symm) (gr.trans gr'.symm)
  | cons x xs => rfl

end

/-- A query that finds a difference, so that the same is found again. -/
example : (findMacroDiffs wordLocs [] 0 1).bind (fun q => (findMacroDiffs wordLocs q.2 0 1).map (·.1)) =
    (findMacroDiffs wordLocs [] 0 1).map (·.1) := by decide +kernel

end DK
