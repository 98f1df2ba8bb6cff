import Verif.Spec.FunListing

/-! C194: the functions of a compiled C file are listed. -/

set_option autoImplicit false

namespace DK
open Spec

private theorem takeWhile_app (p : Char → Bool) (n : Str) (c : Char) (a : Str) (hn : ∀ x ∈ n, p x = true) (hc : p c = false) :
    (n ++ c :: a).takeWhile p = n ∧ (n ++ c :: a).dropWhile p = c :: a := by
  induction n with
  | nil => simp [hc]
  | cons x n ih =>
    have hx := hn x List.mem_cons_self
    obtain ⟨h1, h2⟩ := ih fun y hy => hn y (List.mem_cons_of_mem _ hy)
    rw [List.cons_append, List.takeWhile_cons, if_pos hx, List.dropWhile_cons, if_pos hx, h1, h2]
    exact ⟨rfl, rfl⟩

private theorem mem_word (cs : Str) (c : Char) (h : c ∈ cs.takeWhile identChar) : identChar c = true := by
  induction cs with
  | nil => cases h
  | cons x cs ih =>
    rw [List.takeWhile_cons] at h
    split at h
    · rename_i hx
      rcases List.mem_cons.1 h with he | he
      · rw [he]; exact hx
      · exact ih he
    · cases h

private theorem lastMention_none (a : Str) (h : ∀ x m y, IsCName m → a ≠ x ++ '@' :: (m ++ '(' :: y)) : lastMention a = none := by
  induction a with
  | nil => rfl
  | cons c cs ih =>
    rw [lastMention, ih fun x m y hm he => h (c :: x) m y hm (by rw [he]; rfl)]
    dsimp only
    rw [if_neg]
    intro hc
    simp only [Bool.and_eq_true, decide_eq_true_eq, Bool.not_eq_true', List.isEmpty_eq_false_iff] at hc
    obtain ⟨⟨h1, h2⟩, h3⟩ := hc
    subst h1
    cases hd : cs.dropWhile identChar with
    | nil => rw [hd] at h3; cases h3
    | cons d ds =>
      rw [hd] at h3
      cases h3
      refine h [] (cs.takeWhile identChar) ds ⟨h2, fun c hc => ?_⟩ ?_
      · exact mem_word cs c hc
      · rw [← hd, List.takeWhile_append_dropWhile]
        rfl

private theorem lastMention_skip (b t : Str) (h : '@' ∉ b) (ht : lastMention t = none) : lastMention (b ++ t) = none := by
  induction b with
  | nil => exact ht
  | cons c b ih =>
    rw [List.mem_cons, not_or] at h
    rw [List.cons_append, lastMention, ih h.2]
    dsimp only
    rw [if_neg]
    have hc : c ≠ '@' := fun he => h.1 he.symm
    simp [hc]

private theorem lastMention_before (b t n : Str) (ht : lastMention t = some n) : lastMention (b ++ t) = some n := by
  induction b with
  | nil => exact ht
  | cons c b ih => rw [List.cons_append, lastMention, ih]

private theorem paren_no : identChar '(' = false := by decide

private theorem functionOfLine_def (b n a : Str) (hb : '@' ∉ b) (hn : '@' ∉ n) (hp : '(' ∉ n ∨ n.head? = some '"')
    (ha : ∀ x m y, IsCName m → a ≠ x ++ '@' :: (m ++ '(' :: y)) :
    functionOfLine (LLLine.def b n a).text = if IsCName n then some n else none := by
  have htext : (LLLine.def b n a).text = str! "define" ++ (b ++ '@' :: (n ++ '(' :: a)) := by
    simp [LLLine.text]
  have hin : lastMention (n ++ '(' :: a) = none := by
    apply lastMention_skip n _ hn
    rw [lastMention, lastMention_none a ha]
    rfl
  unfold functionOfLine
  rw [if_pos (by rw [htext]; rfl), htext]
  have hdrop : (str! "define" ++ (b ++ '@' :: (n ++ '(' :: a))).drop 6 = b ++ '@' :: (n ++ '(' :: a) := rfl
  rw [hdrop]
  by_cases hc : IsCName n
  · rw [if_pos hc]
    apply lastMention_before
    rw [lastMention, hin]
    dsimp only
    obtain ⟨h1, h2⟩ := takeWhile_app identChar n '(' a hc.2 paren_no
    rw [h1, h2, if_pos]
    simp [hc.1]
  · rw [if_neg hc]
    apply lastMention_skip b _ hb
    rw [lastMention, hin]
    dsimp only
    rw [if_neg]
    intro h
    simp only [Bool.and_eq_true, decide_eq_true_eq, Bool.not_eq_true', List.isEmpty_eq_false_iff] at h
    obtain ⟨⟨_, h2⟩, h3⟩ := h
    apply hc
    by_cases hall : ∀ c ∈ n, identChar c = true
    · obtain ⟨h1, _⟩ := takeWhile_app identChar n '(' a hall paren_no
      rw [h1] at h2
      exact ⟨h2, hall⟩
    · exfalso
      have key : ∀ (n : Str), (¬ ∀ c ∈ n, identChar c = true) → '(' ∉ n →
          ((n ++ '(' :: a).dropWhile identChar).head? ≠ some '(' := by
        intro n
        induction n with
        | nil => intro h; exact absurd (fun c hc => nomatch hc) h
        | cons x n ih =>
          intro h hp
          rw [List.mem_cons, not_or] at hp
          rw [List.cons_append, List.dropWhile_cons]
          by_cases hx : identChar x = true
          · rw [if_pos hx]
            refine ih (fun hall => h fun c hc => ?_) hp.2
            rcases List.mem_cons.1 hc with he | he
            · rw [he]; exact hx
            · exact hall c he
          · rw [if_neg hx]
            intro he
            exact hp.1 (Option.some.inj he).symm
      rcases hp with hp | hp
      · exact key n hall hp h3
      · cases n with
        | nil => cases hp
        | cons x n =>
          cases hp
          rw [List.cons_append, List.takeWhile_cons, if_neg (by decide)] at h2
          exact h2 rfl

private theorem filterMap_defined (ls : List LLLine) (hw : ∀ l ∈ ls, l.WellFormed) (hp : ∀ l ∈ ls, l.Plain) :
    (ls.map LLLine.text).filterMap functionOfLine = definedFunctions ls := by
  induction ls with
  | nil => rfl
  | cons l ls ih =>
    have ih := ih (fun x hx => hw x (List.mem_cons_of_mem _ hx)) (fun x hx => hp x (List.mem_cons_of_mem _ hx))
    have h1 := hw l List.mem_cons_self
    have h2 := hp l List.mem_cons_self
    rw [List.map_cons, List.filterMap_cons]
    cases l with
    | «def» b n a =>
      rw [functionOfLine_def b n a h1 h2.1 h2.2.1 h2.2.2, ih, definedFunctions]
      by_cases hc : IsCName n
      · simp only [if_pos hc]
      · simp only [if_neg hc]
    | other t =>
      have : functionOfLine (LLLine.other t).text = none := by
        unfold functionOfLine
        rw [if_neg]
        intro h
        exact h1 (List.isPrefixOf_iff_prefix.1 h)
      rw [this, ih, definedFunctions]

private theorem fold_keys (ns acc : List Str) (hn : ns.Nodup) (hd : ∀ n ∈ ns, n ∉ acc) : ns.foldl addFunKey acc = acc ++ ns := by
  induction ns generalizing acc with
  | nil => simp
  | cons n ns ih =>
    rw [List.nodup_cons] at hn
    have h1 := hd n List.mem_cons_self
    rw [List.foldl_cons, addFunKey, if_neg (by simpa using h1), ih _ hn.2]
    · simp
    · intro m hm
      simp only [List.mem_append, List.mem_singleton, not_or]
      exact ⟨hd m (List.mem_cons_of_mem _ hm), fun he => hn.1 (he ▸ hm)⟩

/-- **C194** (false) For a file that is written by the compiler, the listed functions are the ones with names as in C that are
defined in it. -/
def C194_statement : Prop :=
  ∀ (ls : List LLLine), (∀ l ∈ ls, l.WellFormed) → (definedFunctions ls).Nodup →
    functionListing (ls.map LLLine.text) = definedFunctions ls

/-- A function in a section with the name `@g(`: it is listed as `g`. -/
theorem C194_fails : ¬ C194_statement := by
  intro h
  have := h [.def (str! " i32 ") (str! "f") (str! ") section \"@g(\" {")] (by
    intro l hl
    rw [List.mem_singleton] at hl
    subst hl
    unfold LLLine.WellFormed
    decide) (by decide)
  revert this
  decide

/-- **C194** The listed functions are exactly those with names as in C that are defined in the file, in its order, if no
definition mentions a text such as `@name(` after its name. Missing: definitions with such a text. -/
theorem C194_listing_partial (ls : List LLLine) (hw : ∀ l ∈ ls, l.WellFormed) (hp : ∀ l ∈ ls, l.Plain)
    (hn : (definedFunctions ls).Nodup) : functionListing (ls.map LLLine.text) = definedFunctions ls := by
  unfold functionListing
  rw [filterMap_defined ls hw hp, fold_keys _ _ hn (by simp)]
  rfl

/-- Two functions, a clone made by the compiler, a declaration, and the first line of a body. -/
example :
    functionListing [str! "define dso_local i32 @f(ptr noundef %0) #0 !dbg !7 {", str! "  %2 = call i32 @g(i32 1)",
      str! "define internal i32 @f.part.0(i32 %0) {", str! "declare i32 @h(i32)", str! "define %struct.a @k_2() {"] =
    [str! "f", str! "k_2"] ∧
    LLLine.Plain (.def (str! " i32 ") (str! "f.part.0") []) ∧
    (LLLine.def (str! " %struct.a ") (str! "k_2") (str! ") {")).text = str! "define %struct.a @k_2() {" := by
  refine ⟨by decide, ⟨by decide, by decide, ?_⟩, by decide⟩
  intro x m y _ h
  cases x <;> cases h

end DK
