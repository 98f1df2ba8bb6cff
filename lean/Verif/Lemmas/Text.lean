import Verif.Spec.Text
import Verif.Lemmas.Paths

set_option autoImplicit false

namespace DK
open Spec

theorem startsWith_iff {s p : Str} : startsWith s p = true ↔ ∃ r, s = p ++ r := by
  unfold startsWith
  rw [List.isPrefixOf_iff_prefix]
  exact ⟨fun ⟨r, h⟩ => ⟨r, h.symm⟩, fun ⟨r, h⟩ => ⟨r, h.symm⟩⟩

theorem endsWith_iff {s p : Str} : endsWith s p = true ↔ ∃ r, s = r ++ p := by
  unfold endsWith
  rw [List.isSuffixOf_iff_suffix]
  exact ⟨fun ⟨r, h⟩ => ⟨r, h.symm⟩, fun ⟨r, h⟩ => ⟨r, h.symm⟩⟩

theorem findSub_none {p s : Str} : findSub p s = none ↔ ¬ Occurs p s := by
  induction s with
  | nil =>
    unfold findSub
    by_cases hp : p = []
    · rw [if_pos hp]; subst hp
      simp only [reduceCtorEq, false_iff, not_not]
      exact ⟨[], [], rfl⟩
    · rw [if_neg hp]
      simp only [true_iff]
      rintro ⟨a, b, h⟩
      simp at h
      exact hp h.2.1
  | cons c s ih =>
    unfold findSub
    by_cases h : startsWith (c :: s) p = true
    · rw [if_pos h]
      obtain ⟨r, hr⟩ := startsWith_iff.1 h
      simp only [reduceCtorEq, false_iff, not_not]
      exact ⟨[], r, hr⟩
    · rw [if_neg h, Option.map_eq_none_iff, ih]
      constructor
      · rintro hn ⟨a, b, hab⟩
        cases a with
        | nil => exact h (startsWith_iff.2 ⟨b, hab⟩)
        | cons x a =>
          simp only [List.cons_append, List.cons.injEq] at hab
          exact hn ⟨a, b, hab.2⟩
      · rintro hn ⟨a, b, hab⟩
        exact hn ⟨c :: a, b, by rw [hab]; rfl⟩

theorem hasText_iff {p s : Str} : hasText p s = true ↔ Occurs p s := by
  unfold hasText
  cases h : findSub p s with
  | none => simp [findSub_none.1 h]
  | some i =>
    simp only [Option.isSome_some, true_iff]
    by_contra hc
    rw [findSub_none.2 hc] at h
    cases h

/-- The found position is that of the first occurrence. -/
theorem findSub_some {p : Str} : ∀ {s : Str} {i : Nat}, findSub p s = some i →
    (∃ x r, s = x ++ p ++ r ∧ x.length = i) ∧ ∀ y r, s = y ++ p ++ r → i ≤ y.length := by
  intro s
  induction s with
  | nil =>
    intro i h
    unfold findSub at h
    split at h
    · next hp => cases h; subst hp; exact ⟨⟨[], [], rfl, rfl⟩, fun y r _ => Nat.zero_le _⟩
    · cases h
  | cons c s ih =>
    intro i h
    unfold findSub at h
    by_cases hs : startsWith (c :: s) p = true
    · rw [if_pos hs] at h
      cases h
      obtain ⟨r, hr⟩ := startsWith_iff.1 hs
      exact ⟨⟨[], r, hr, rfl⟩, fun y r _ => Nat.zero_le _⟩
    · rw [if_neg hs] at h
      cases hf : findSub p s with
      | none => rw [hf] at h; cases h
      | some j =>
        rw [hf] at h
        simp only [Option.map_some, Option.some.injEq] at h
        subst h
        obtain ⟨⟨x, r, h1, h2⟩, h3⟩ := ih hf
        refine ⟨⟨c :: x, r, by rw [h1]; rfl, by simp [h2]⟩, fun y r' hy => ?_⟩
        cases y with
        | nil => exact absurd (startsWith_iff.2 ⟨r', hy⟩) hs
        | cons z y =>
          simp only [List.cons_append, List.cons.injEq] at hy
          have := h3 y r' hy.2
          simpa using this

theorem first_no_overlap {p s x r : Str} (hp : p ≠ []) (h : s = x ++ p ++ r)
    (hmin : ∀ y r, s = y ++ p ++ r → x.length ≤ y.length) : ¬ Occurs p (x ++ p.dropLast) := by
  rintro ⟨a, b, hab⟩
  have hl := List.dropLast_append_getLast hp
  have : s = a ++ p ++ (b ++ p.getLast hp :: r) := by
    calc s = (x ++ p.dropLast) ++ (p.getLast hp :: r) := by
            rw [h]; conv_lhs => rw [← hl]
            simp
      _ = _ := by rw [hab]; simp
  have h1 := hmin _ _ this
  have h2 := congrArg List.length hab
  have h3 : 0 < p.length := List.length_pos_iff.2 hp
  simp only [List.length_append, List.length_dropLast] at h2
  omega

theorem replaceLoop_spec {p q : Str} (hp : p ≠ []) : ∀ (n : Nat) (s : Str), s.length < n →
    ∃ t, replaceLoop p q n s = some t ∧ Replaced p q s t := by
  intro n
  induction n with
  | zero => intro s h; omega
  | succ n ih =>
    intro s hn
    unfold replaceLoop
    cases hf : findSub p s with
    | none => exact ⟨s, rfl, .stop s (findSub_none.1 hf)⟩
    | some i =>
      obtain ⟨⟨x, r, h1, h2⟩, h3⟩ := findSub_some hf
      have h0 : 0 < p.length := List.length_pos_iff.2 hp
      have hd : s.drop (i + p.length) = r := by
        rw [h1, ← h2]; simp [List.drop_append]
      have ht : s.take i = x := by rw [h1, ← h2]; simp
      obtain ⟨t, ht1, ht2⟩ := ih r (by
        have := congrArg List.length h1
        simp only [List.length_append] at this
        omega)
      refine ⟨x ++ q ++ t, ?_, ?_⟩
      · simp only [hd, ht1, ht, Option.map_some]
      · rw [h1]
        exact .step x r t (first_no_overlap hp h1 (fun y r' hy => by rw [h2]; exact h3 y r' hy)) ht2

/-- Two decompositions at the first occurrence are the same. -/
theorem first_unique {p x s x' s' : Str} (hp : p ≠ []) (h : x ++ p ++ s = x' ++ p ++ s')
    (h1 : ¬ Occurs p (x ++ p.dropLast)) (h2 : ¬ Occurs p (x' ++ p.dropLast)) : x = x' ∧ s = s' := by
  have key : ∀ {x s x' s' : Str}, x ++ p ++ s = x' ++ p ++ s' → ¬ Occurs p (x' ++ p.dropLast) → x'.length ≤ x.length := by
    intro x s x' s' h hn
    by_contra hc
    push Not at hc
    have h0 : 0 < p.length := List.length_pos_iff.2 hp
    apply hn
    -- the first |x'| + |p| - 1 characters contain the occurrence at |x|
    have e : x' ++ p.dropLast = (x ++ p ++ s).take (x'.length + (p.length - 1)) := by
      rw [h, List.append_assoc, List.take_length_add_append, List.take_append_of_le_length (by omega), List.dropLast_eq_take]
    refine ⟨x, s.take (x'.length + (p.length - 1) - (x ++ p).length), ?_⟩
    rw [e, List.take_append, List.take_of_length_le (by simp; omega)]
  have hx : x.length = x'.length := Nat.le_antisymm (key h.symm h1) (key h h2)
  rw [List.append_assoc, List.append_assoc] at h
  obtain ⟨h3, h4⟩ := List.append_inj h hx
  exact ⟨h3, List.append_cancel_left h4⟩

theorem replaced_unique {p q s t t' : Str} (hp : p ≠ []) (h : Replaced p q s t) (h' : Replaced p q s t') : t = t' := by
  induction h generalizing t' with
  | stop s hn =>
    cases h' with
    | stop _ _ => rfl
    | step x s0 t0 _ _ => exact absurd ⟨x, s0, rfl⟩ hn
  | step x s t hx hr ih =>
    generalize hw : x ++ p ++ s = w at h'
    cases h' with
    | stop _ hn => exact absurd ⟨x, s, hw.symm⟩ hn
    | step x0 s0 t0 hx0 hr0 =>
      obtain ⟨rfl, rfl⟩ := first_unique hp hw hx hx0
      rw [ih hr0]

theorem findAndReplace_spec {p q s : Str} (hp : p ≠ []) : ∃ t, findAndReplace p q s = some t ∧ Replaced p q s t := by
  unfold findAndReplace
  rw [if_neg hp]
  exact replaceLoop_spec hp _ _ (Nat.lt_succ_self _)

theorem findAndReplace_eq {p q s t : Str} (hp : p ≠ []) (h : Replaced p q s t) : findAndReplace p q s = some t := by
  obtain ⟨t', h1, h2⟩ := findAndReplace_spec (q := q) (s := s) hp
  rw [h1, replaced_unique hp h2 h]

/-! ### Texts whose first character does not occur again -/

theorem occurs_append_left {p s : Str} (t : Str) (h : Occurs p s) : Occurs p (s ++ t) := by
  obtain ⟨a, b, rfl⟩ := h
  exact ⟨a, b ++ t, by simp⟩

theorem occurs_append_right {p s : Str} (t : Str) (h : Occurs p s) : Occurs p (t ++ s) := by
  obtain ⟨a, b, rfl⟩ := h
  exact ⟨t ++ a, b, by simp⟩

/-- An occurrence of a text whose first character does not occur again in it, in a text divided before this character, is in
one of the two parts. -/
theorem occurs_split {c : Char} {p x y : Str} (hc : c ∉ p) (h : Occurs (c :: p) (x ++ c :: y)) :
    Occurs (c :: p) x ∨ Occurs (c :: p) (c :: y) := by
  obtain ⟨a, b, h⟩ := h
  rw [List.append_assoc, List.append_eq_append_iff] at h
  rcases h with ⟨u, h1, h2⟩ | ⟨u, h1, h2⟩
  · right; exact ⟨u, b, by rw [h2]; simp⟩
  · -- x = a ++ u, the occurrence starts at or before the division
    cases u with
    | nil => right; exact ⟨[], b, by simpa using h2.symm⟩
    | cons z u =>
      simp only [List.cons_append, List.cons.injEq] at h2
      obtain ⟨rfl, h2⟩ := h2
      rw [List.append_eq_append_iff] at h2
      rcases h2 with ⟨v, h3, h4⟩ | ⟨v, h3, h4⟩
      · left; exact ⟨a, v, by rw [h1, h3]; simp⟩
      · cases v with
        | nil =>
          left; exact ⟨a, [], by rw [h1]; simp at h3; rw [h3]; simp⟩
        | cons w v =>
          simp only [List.cons_append, List.cons.injEq] at h4
          obtain ⟨rfl, h4⟩ := h4
          exact absurd (by rw [h3]; simp) hc

/-- Replacing can be undone if the replacement did not occur before. -/
theorem replaced_back {p : Str} {c : Char} {q s t : Str} (hc : c ∉ q) (hn : ¬ Occurs (c :: q) s)
    (h : Replaced p (c :: q) s t) : Replaced (c :: q) p t s := by
  induction h with
  | stop s _ => exact .stop s hn
  | step x s t _ _ ih =>
    refine .step x t s ?_ (ih (fun ho => hn (occurs_append_right _ ho)))
    intro ho
    have hx : ¬ Occurs (c :: q) x := fun hx => hn (by rw [List.append_assoc]; exact occurs_append_left _ hx)
    cases q with
    | nil => exact hx (by simpa using ho)
    | cons d q =>
      simp only [List.dropLast_cons_cons] at ho
      rcases occurs_split hc ho with h1 | ⟨a, b, h1⟩
      · exact hx h1
      · have := congrArg List.length h1
        simp at this
        omega

/-- The replaced text does not occur in the result, if neither contains its first character again and they differ. -/
theorem not_occurs_replaced {c : Char} {p q s t : Str} (hp : c ∉ p) (hq : c ∉ q)
    (hd : ∀ u v, c :: p ++ u ≠ c :: q ++ v) (h : Replaced (c :: p) (c :: q) s t) : ¬ Occurs (c :: p) t := by
  induction h with
  | stop s hn => exact hn
  | step x s t hx _ ih =>
    intro ho
    rw [List.append_assoc] at ho
    rcases occurs_split (y := q ++ t) hp ho with h1 | h1
    · exact hx (occurs_append_left _ h1)
    · obtain ⟨a, b, h2⟩ := h1
      cases a with
      | nil => exact hd b t (by simpa using h2.symm)
      | cons z a =>
        simp only [List.cons_append, List.cons.injEq, List.append_assoc] at h2
        obtain ⟨_, h2⟩ := h2
        rw [List.append_eq_append_iff] at h2
        rcases h2 with ⟨u, h3, h4⟩ | ⟨u, h3, h4⟩
        · exact ih ⟨u, b, by rw [h4]; simp⟩
        · cases u with
          | nil => exact ih ⟨[], b, by simpa using h4.symm⟩
          | cons w u =>
            simp only [List.cons_append, List.cons.injEq] at h4
            obtain ⟨rfl, h4⟩ := h4
            exact hq (by rw [h3]; simp)

end DK
