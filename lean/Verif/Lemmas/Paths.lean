import Verif.Model.Paths

set_option autoImplicit false

namespace DK

theorem splitChar_ne_nil (c : Char) (s : Str) : splitChar c s ≠ [] := by
  cases s with
  | nil => simp [splitChar]
  | cons x xs =>
    unfold splitChar
    split
    · simp
    · split <;> simp

theorem splitChar_cons_ne {c x : Char} (xs : Str) (h : x ≠ c) :
    ∃ w ws, splitChar c xs = w :: ws ∧ splitChar c (x :: xs) = (x :: w) :: ws := by
  cases hs : splitChar c xs with
  | nil => exact absurd hs (splitChar_ne_nil c xs)
  | cons w ws => exact ⟨w, ws, rfl, by rw [splitChar, if_neg h, hs]⟩

/-- Splitting after a separator-free word. -/
theorem splitChar_append (c : Char) (w rest : Str) (h : c ∉ w) :
    splitChar c (w ++ c :: rest) = w :: splitChar c rest := by
  induction w with
  | nil => simp [splitChar]
  | cons x w ih =>
    simp only [List.mem_cons, not_or] at h
    have := ih h.2
    rw [List.cons_append, splitChar, if_neg (Ne.symm h.1), this]

theorem splitChar_none (c : Char) (w : Str) (h : c ∉ w) : splitChar c w = [w] := by
  induction w with
  | nil => rfl
  | cons x w ih =>
    simp only [List.mem_cons, not_or] at h
    rw [splitChar, if_neg (Ne.symm h.1), ih h.2]

theorem splitChar_join (c : Char) : ∀ ws : List Str, ws ≠ [] → (∀ w ∈ ws, c ∉ w) → splitChar c (joinChar c ws) = ws
  | [], h, _ => absurd rfl h
  | [w], _, h => by rw [joinChar, splitChar_none c w (h w (by simp))]
  | w :: w' :: ws, _, h => by
    rw [joinChar, splitChar_append c w _ (h w (by simp)), splitChar_join c (w' :: ws) (by simp)
      (fun x hx => h x (List.mem_cons_of_mem _ hx))]

/-- The pieces contain no separator and only characters of the string. -/
theorem mem_splitChar {c : Char} {s w : Str} (h : w ∈ splitChar c s) : c ∉ w ∧ ∀ x ∈ w, x ∈ s := by
  induction s generalizing w with
  | nil => simp [splitChar] at h; subst h; simp
  | cons y s ih =>
    by_cases hy : y = c
    · rw [splitChar, if_pos hy, List.mem_cons] at h
      rcases h with rfl | h
      · simp
      · exact ⟨(ih h).1, fun x hx => List.mem_cons_of_mem _ ((ih h).2 x hx)⟩
    · obtain ⟨v, vs, h1, h2⟩ := splitChar_cons_ne s hy
      rw [h2, List.mem_cons] at h
      rcases h with rfl | h
      · have := ih (w := v) (by rw [h1]; simp)
        refine ⟨?_, ?_⟩
        · simp only [List.mem_cons, not_or]; exact ⟨Ne.symm hy, this.1⟩
        · intro x hx
          simp only [List.mem_cons] at hx ⊢
          exact hx.imp_right (this.2 x)
      · have := ih (w := w) (by rw [h1]; simp [h])
        exact ⟨this.1, fun x hx => List.mem_cons_of_mem _ (this.2 x hx)⟩

/-- A path component that `normpath` keeps. -/
def NormalComp (w : Str) : Prop := w ≠ [] ∧ w ≠ str! "." ∧ w ≠ str! ".." ∧ '/' ∉ w

instance (w : Str) : Decidable (NormalComp w) := by unfold NormalComp; infer_instance

theorem foldl_normStep (ws : List Str) (h : ∀ w ∈ ws, NormalComp w) (acc : List Str) :
    ws.foldl normStep acc = acc ++ ws := by
  induction ws generalizing acc with
  | nil => simp
  | cons w ws ih =>
    have hw := h w (by simp)
    rw [List.foldl_cons, ih (fun x hx => h x (List.mem_cons_of_mem _ hx))]
    have : normStep acc w = acc ++ [w] := by
      unfold normStep
      rw [if_neg (by rintro (hh | hh); exacts [hw.1 hh, hw.2.1 hh]), if_neg hw.2.2.1]
    rw [this]; simp

/-- The absolute path with the given components. -/
def absPath (ws : List Str) : Str := '/' :: joinChar '/' ws

theorem absComps_absPath (cwd ws : List Str) (h : ∀ w ∈ ws, NormalComp w) : absComps cwd (absPath ws) = ws := by
  unfold absComps absPath
  rw [splitChar, if_pos rfl, List.foldl_cons]
  simp only [List.head?_cons, if_true]
  have h0 : normStep [] [] = ([] : List Str) := by simp [normStep]
  rw [h0]
  cases ws with
  | nil => simp [joinChar, splitChar, normStep]
  | cons w ws =>
    rw [splitChar_join '/' (w :: ws) (by simp) (fun x hx => (h x hx).2.2.2), foldl_normStep _ h]
    simp

theorem absComps_empty (cwd : List Str) : absComps cwd [] = cwd := by
  simp [absComps, splitChar, normStep]

theorem joinChar_head (w : Str) (ws : List Str) (hw : w ≠ []) : (joinChar '/' (w :: ws)).head? = w.head? := by
  cases ws with
  | nil => rfl
  | cons w' ws =>
    rw [joinChar]
    cases w with
    | nil => exact absurd rfl hw
    | cons x w => rfl

theorem absComps_rel (cwd ws : List Str) (hne : ws ≠ []) (h : ∀ w ∈ ws, NormalComp w) :
    absComps cwd (joinChar '/' ws) = cwd ++ ws := by
  unfold absComps
  rw [splitChar_join '/' ws hne (fun x hx => (h x hx).2.2.2)]
  cases ws with
  | nil => exact absurd rfl hne
  | cons w ws =>
    have hw := h w (by simp)
    rw [if_neg, foldl_normStep _ h]
    rw [joinChar_head w ws hw.1]
    intro hh
    cases w with
    | nil => exact hw.1 rfl
    | cons x w => simp at hh; subst hh; exact hw.2.2.2 (by simp)

theorem commonLen_append {α : Type} [DecidableEq α] (a b : List α) : commonLen a (a ++ b) = a.length := by
  induction a with
  | nil => cases b <;> rfl
  | cons x a ih => simp [commonLen, ih]

theorem commonLen_le {α : Type} [DecidableEq α] : ∀ a b : List α, commonLen a b ≤ a.length ∧ commonLen a b ≤ b.length
  | [], _ => by simp [commonLen]
  | _ :: _, [] => by simp [commonLen]
  | x :: a, y :: b => by
    unfold commonLen
    split
    · have := commonLen_le a b; simp; omega
    · simp

theorem commonLen_take {α : Type} [DecidableEq α] : ∀ a b : List α, a.take (commonLen a b) = b.take (commonLen a b)
  | [], b => by cases b <;> simp [commonLen]
  | _ :: _, [] => by simp [commonLen]
  | x :: a, y :: b => by
    unfold commonLen
    split
    · next h => subst h; simp [commonLen_take a b]
    · simp

/-- Every component of a resolved absolute path is a non-empty piece of it. -/
theorem mem_foldl_normStep {ws acc : List Str} {w : Str} (h : w ∈ ws.foldl normStep acc) :
    w ∈ acc ∨ (w ∈ ws ∧ w ≠ []) := by
  induction ws generalizing acc with
  | nil => exact Or.inl h
  | cons v ws ih =>
    rw [List.foldl_cons] at h
    rcases ih h with h | h
    · unfold normStep at h
      split at h
      · exact Or.inl h
      · next hv =>
        split at h
        · exact Or.inl (List.mem_of_mem_dropLast h)
        · rw [List.mem_append, List.mem_singleton] at h
          rcases h with h | rfl
          · exact Or.inl h
          · exact Or.inr ⟨by simp, fun hh => hv (Or.inl hh)⟩
    · exact Or.inr ⟨by simp [h.1], h.2⟩

theorem replaceChar_inj {a b : Char} (s t : Str) (hs : b ∉ s) (ht : b ∉ t) (h : replaceChar a b s = replaceChar a b t) :
    s = t := by
  induction s generalizing t with
  | nil => cases t with
    | nil => rfl
    | cons y t => simp [replaceChar] at h
  | cons x s ih =>
    cases t with
    | nil => simp [replaceChar] at h
    | cons y t =>
      simp only [replaceChar, List.map_cons, List.cons.injEq] at h
      simp only [List.mem_cons, not_or] at hs ht
      have h2 := ih t hs.2 ht.2 h.2
      have h1 : x = y := by
        have := h.1
        by_cases hx : x = a <;> by_cases hy : y = a
        · rw [hx, hy]
        · rw [if_pos hx, if_neg hy] at this; exact absurd this ht.1
        · rw [if_neg hx, if_pos hy] at this; exact absurd this.symm hs.1
        · rwa [if_neg hx, if_neg hy] at this
      rw [h1, h2]

theorem not_mem_replaceChar {a b x : Char} (s : Str) (hx : x ∉ s) (hb : x ≠ b) : x ∉ replaceChar a b s := by
  unfold replaceChar
  intro h
  obtain ⟨c, hc, he⟩ := List.mem_map.1 h
  split at he
  · exact hb he.symm
  · exact hx (he ▸ hc)

/-- A text with a separator that does not occur in the parts can be taken apart uniquely. -/
theorem append_sep_inj {c : Char} {a a' b b' : Str} (h : c ∉ a) (h' : c ∉ a') (he : a ++ c :: b = a' ++ c :: b') :
    a = a' ∧ b = b' := by
  induction a generalizing a' with
  | nil =>
    cases a' with
    | nil => simpa using he
    | cons x a' =>
      simp only [List.nil_append, List.cons_append, List.cons.injEq] at he
      exact absurd (by rw [he.1]; simp) h'
  | cons x a ih =>
    cases a' with
    | nil =>
      simp only [List.nil_append, List.cons_append, List.cons.injEq] at he
      exact absurd (by rw [he.1]; simp) h
    | cons y a' =>
      simp only [List.cons_append, List.cons.injEq] at he
      simp only [List.mem_cons, not_or] at h h'
      obtain ⟨h1, h2⟩ := ih h.2 h'.2 he.2
      exact ⟨by rw [he.1, h1], h2⟩

end DK
