import Verif.Spec.Identifier

/-! Property C154: the texts shown for arguments of inline assembly. -/

set_option autoImplicit false

namespace DK
open Spec

/-- **C154** as stated: the text is found, and it contains the names of all variables and members that are accessed. -/
def C154_statement : Prop :=
  ∀ (fields : Str → Nat → Option Str) (members : Str → Nat → IdTy) (v : IdVal), ValidVal members v →
    ∃ t, identOf fields v = .ok t ∧ ∀ m ∈ mentioned fields members v, TextIn m t

private def noFields : Str → Nat → Option Str := fun _ _ => none

/-- **C154 (violated)** The address `p + 1`, where `p` points to an integer: the engine ends with an exception. -/
theorem C154_fails : ¬ C154_statement := by
  intro h
  obtain ⟨t, ht, -⟩ := h noFields (fun _ _ => .other) (.index (.elem (.plain (str! "p")) .other) 1) (by simp [ValidVal, isGep])
  exact absurd ht (by
    have : identOf noFields (.index (.elem (.plain (str! "p")) .other) 1) = .error .outOfRange := by decide
    rw [this]; intro hh; cases hh)

/-- **C154 (violated)** The address `&a[i]` of a structure in an array: the engine dereferences a null pointer. -/
theorem C154_fails_element : ¬ C154_statement := by
  intro h
  obtain ⟨t, ht, -⟩ := h noFields (fun _ _ => .other) (.indexVal (.elem (.plain (str! "array")) (.struct (str! "s"))) (.plain (str! "i")))
    (by simp [ValidVal, isGep, IdVal.isElem])
  exact absurd ht (by
    have : identOf noFields (.indexVal (.elem (.plain (str! "array")) (.struct (str! "s"))) (.plain (str! "i"))) = .error .nullPointer := by decide
    rw [this]; intro hh; cases hh)

private theorem textIn_iff_isInfix {p s : Str} : TextIn p s ↔ p <:+: s :=
  ⟨fun ⟨a, b, h⟩ => ⟨a, b, h.symm⟩, fun ⟨a, b, h⟩ => ⟨a, b, h.symm⟩⟩

/-- **C154 (violated)** The element `buf[3]` of an array is shown as `&([3])`, without the name. -/
theorem C154_fails_name : ¬ C154_statement := by
  intro h
  obtain ⟨t, ht, hm⟩ := h noFields (fun _ _ => .other) (.index (.index (.elem (.plain (str! "buf")) (.array .other)) 0) 3)
    (by simp [ValidVal, isGep])
  have : identOf noFields (.index (.index (.elem (.plain (str! "buf")) (.array .other)) 0) 3) = .ok (str! "&([3])") := by decide
  rw [this] at ht
  cases ht
  have := textIn_iff_isInfix.1 (hm (str! "buf") (by simp [mentioned, IdVal.isElem, reachedType, IdTy.structName]))
  exact absurd this (by decide)

private def nestedFields : Str → Nat → Option Str := fun s n =>
  if s = str! "inner" ∧ n = 0 then some (str! "count") else if s = str! "outer" ∧ n = 0 then some (str! "lock")
  else if s = str! "outer" ∧ n = 1 then some (str! "inner") else none

private def nestedMembers : Str → Nat → IdTy := fun s n => if s = str! "outer" ∧ n = 1 then .struct (str! "inner") else .other

private def nestedVal : IdVal := .index (.index (.index (.elem (.plain (str! "x")) (.struct (str! "outer"))) 0) 1) 0

/-- **C154 (violated)** The member `count` of the inner structure is shown with the name `lock` of a member of the outer
one. -/
theorem C154_fails_member : ¬ C154_statement := by
  intro h
  obtain ⟨t, ht, hm⟩ := h nestedFields nestedMembers nestedVal (by simp [nestedVal, ValidVal, isGep])
  have : identOf nestedFields nestedVal = .ok (str! "&(&(x->inner)->lock)") := by decide
  rw [this] at ht
  cases ht
  have := textIn_iff_isInfix.1 (hm (str! "count") (by decide))
  exact absurd this (by decide)

private def loadedTwice : IdVal :=
  .load (.load (.index (.index (.elem (.index (.index (.elem (.plain (str! "x")) (.struct (str! "outer"))) 0) 1) (.struct (str! "inner"))) 0) 0))

/-- **C154 (violated)** A pointer in an inner structure that is dereferenced: the text loses its end. -/
theorem C154_fails_deref : ¬ C154_statement := by
  intro h
  obtain ⟨t, ht, hm⟩ := h nestedFields nestedMembers loadedTwice (by simp [loadedTwice, ValidVal, isGep])
  have : identOf nestedFields loadedTwice = .ok (str! "x->inner)->coun") := by decide
  rw [this] at ht
  cases ht
  have := textIn_iff_isInfix.1 (hm (str! "count") (by decide))
  exact absurd this (by decide)

private theorem stripRef_addRef (b : Str) : stripRef (addRef b) = .ok b := by
  have hl : (addRef b).length = b.length + 3 := by simp [addRef]
  unfold stripRef
  rw [if_neg (by omega), if_neg (by omega), hl, Nat.add_sub_cancel]
  congr 1
  show (List.drop 2 ('&' :: '(' :: (b ++ [')']))).take b.length = b
  rw [List.drop_succ_cons, List.drop_succ_cons, List.drop_zero, List.take_left]

private theorem textIn_append_left {m s : Str} (t : Str) (h : TextIn m s) : TextIn m (s ++ t) := by
  obtain ⟨a, b, rfl⟩ := h
  exact ⟨a, b ++ t, by simp⟩

private theorem textIn_append_right {m s : Str} (t : Str) (h : TextIn m s) : TextIn m (t ++ s) := by
  obtain ⟨a, b, rfl⟩ := h
  exact ⟨t ++ a, b, by simp⟩

private theorem textIn_refl (m : Str) : TextIn m m := ⟨[], [], by simp⟩

/-- What is known about the text of a simple value. -/
private def GoodText (fields : Str → Nat → Option Str) (members : Str → Nat → IdTy) (v : IdVal) (t : Str) : Prop :=
  (isRefVal v = true → ∃ b, t = addRef b ∧ (∀ m ∈ mentioned fields members v, TextIn m b) ∧ ((plainHead v).2 = true → b.head? ≠ some '&')) ∧
  (isRefVal v = false → (plainHead v).1 = true → t.head? ≠ some '&') ∧
  ∀ m ∈ mentioned fields members v, TextIn m t

private theorem head_append_of {a b : Str} (ha : a ≠ []) (h : a.head? ≠ some '&') : (a ++ b).head? ≠ some '&' := by
  cases a with
  | nil => exact absurd rfl ha
  | cons x a => exact h

private theorem head_append {a b : Str} (h : a.head? ≠ some '&') (hb : b.head? ≠ some '&') : (a ++ b).head? ≠ some '&' := by
  cases a with
  | nil => exact hb
  | cons x a => exact h

private theorem bracketed_head (t : Str) : (bracketed t).head? ≠ some '&' := by
  unfold bracketed
  split
  · decide
  · show (some '[') ≠ some '&'
    decide

private theorem textIn_bracketed {m t : Str} (h : TextIn m t) (hne : t ≠ []) : TextIn m (bracketed t) := by
  unfold bracketed
  rw [if_neg hne]
  exact textIn_append_left _ (textIn_append_right _ h)

private theorem textIn_bracketed' {m t : Str} (h : TextIn m t) : TextIn m (bracketed t) := by
  by_cases hne : t = []
  · subst hne
    obtain ⟨a, b, hab⟩ := h
    have : m = [] := by
      have := congrArg List.length hab
      simp only [List.length_nil, List.length_append] at this
      exact List.length_eq_zero_iff.1 (by omega)
    subst this
    exact ⟨[], bracketed [], by simp⟩
  · exact textIn_bracketed h hne

private theorem mentioned_index_first {fields : Str → Nat → Option Str} {members : Str → Nat → IdTy} {g : IdVal} {n : Nat}
    (h : g.isElem = true) : mentioned fields members (.index g n) = mentioned fields members g := by
  rw [mentioned, h]; simp

private theorem not_ref_of_plain (v : IdVal) (h : (plainHead v).1 = true) : isRefVal v = false := by
  induction v with
  | plain t => rfl
  | bitcast ty v ih => rfl
  | zext v ih => exact ih h
  | load v ih => rfl
  | elem v s ih => exact ih h
  | index g n ih =>
    rw [plainHead] at h
    rw [isRefVal]
    split at h
    · rename_i hz; rw [if_pos hz]; exact ih h
    · cases h
  | indexVal g i ih1 ih2 => cases h

private theorem simple_good {fields : Str → Nat → Option Str} {members : Str → Nat → IdTy} (v : IdVal) (hv : SimpleVal members v) :
    ∃ t, identOf fields v = .ok t ∧ GoodText fields members v t := by
  induction v with
  | plain t =>
    refine ⟨t, rfl, by simp [isRefVal], fun _ _ => hv, ?_⟩
    intro m hm
    rw [mentioned, List.mem_singleton] at hm
    subst hm
    exact textIn_refl _
  | bitcast ty v ih =>
    obtain ⟨t, ht, h1, h2, h3⟩ := ih hv
    refine ⟨str! "((" ++ ty ++ str! ") " ++ t ++ str! ")", by rw [identOf, ht], by simp [isRefVal], ?_, ?_⟩
    · intro _ _
      show (some '(') ≠ some '&'
      decide
    · intro m hm
      exact textIn_append_left _ (textIn_append_right _ (h3 m hm))
  | zext v ih => exact ih hv
  | elem v s ih => exact ih hv
  | load v ih =>
    obtain ⟨hv, hl⟩ := hv
    obtain ⟨t, ht, h1, h2, h3⟩ := ih hv
    cases hr : isRefVal v with
    | true =>
      obtain ⟨b, rfl, hb, hh⟩ := h1 hr
      refine ⟨b, ?_, by simp [isRefVal], ?_, hb⟩
      · rw [identOf, ht]
        dsimp only
        rw [if_pos (by rfl), stripRef_addRef]
      · intro _ hp
        rw [plainHead, hr] at hp
        exact hh (by simpa using hp)
    | false =>
      have hp : (plainHead v).1 = true := by
        rcases hl with hl | hl
        · rw [hr] at hl; cases hl
        · exact hl
      refine ⟨str! "*(" ++ t ++ str! ")", ?_, by simp [isRefVal], ?_, ?_⟩
      · rw [identOf, ht]
        dsimp only
        rw [if_neg (h2 hr hp)]
      · intro _ _
        show (some '*') ≠ some '&'
        decide
      · intro m hm
        exact textIn_append_left _ (textIn_append_right _ (h3 m hm))
  | index g n ih =>
    obtain ⟨hg, hc⟩ := hv
    obtain ⟨t, ht, h1, h2, h3⟩ := ih hg
    by_cases hz : g.isElem && decide (n = 0)
    · refine ⟨t, ?_, ?_, ?_, ?_⟩
      · rw [identOf, ht]; dsimp only; rw [if_pos hz]
      · rw [isRefVal, if_pos hz, plainHead, if_pos hz, mentioned_index_first (by simp only [Bool.and_eq_true] at hz; exact hz.1)]; exact h1
      · rw [isRefVal, if_pos hz, plainHead, if_pos hz]; exact h2
      · rw [mentioned_index_first (by simp only [Bool.and_eq_true] at hz; exact hz.1)]; exact h3
    · have hno : ¬ (g.isElem = true ∧ n = 0) := by
        intro ⟨a, b⟩; exact hz (by simp [a, b])
      have hre : isRefVal (.index g n) = true := by rw [isRefVal, if_neg hz]
      rcases hc with hc | ⟨v, s, rfl⟩ | ⟨hr, hs, hty⟩
      · exact absurd hc hno
      · have hsrc : (IdVal.index (.elem v (.struct s)) 0).source.structName = some s := rfl
        have hmen : mentioned fields members (.index (.index (.elem v (.struct s)) 0) n) =
            mentioned fields members (.index (.elem v (.struct s)) 0) ++ [memberText fields s n] := by
          rw [mentioned]
          simp [IdVal.isElem, reachedType, IdTy.structName]
        have hin : ∀ m ∈ mentioned fields members (.index (.index (.elem v (.struct s)) 0) n),
            TextIn m (t ++ str! "->" ++ memberText fields s n) := by
          rw [hmen]
          intro m hm
          rcases List.mem_append.1 hm with hm | hm
          · exact textIn_append_left _ (textIn_append_left _ (h3 m hm))
          · rw [List.mem_singleton] at hm
            subst hm
            exact textIn_append_right _ (textIn_refl _)
        refine ⟨addRef (t ++ str! "->" ++ memberText fields s n), ?_, ?_, ?_, ?_⟩
        · rw [identOf, ht]
          dsimp only
          rw [if_neg hz, hsrc]
        · intro _
          refine ⟨_, rfl, hin, ?_⟩
          intro hp
          rw [plainHead, if_neg hz, hsrc] at hp
          have hp : (plainHead (IdVal.index (.elem v (.struct s)) 0)).1 = true := hp
          rw [List.append_assoc]
          exact head_append (h2 (not_ref_of_plain _ hp) hp) (by
            show (some '-') ≠ some '&'
            decide)
        · intro hf; rw [hre] at hf; cases hf
        · intro m hm
          exact textIn_append_left _ (textIn_append_right _ (hin m hm))
      · obtain ⟨b, rfl, hb, hh⟩ := h1 hr
        have hmen : mentioned fields members (.index g n) = mentioned fields members g := by
          rw [mentioned]
          rcases hty with hty | hty
          · rw [hty]; simp
          · rw [hty]; simp
        have hin : ∀ m ∈ mentioned fields members (.index g n), TextIn m (b ++ bracketed (indexText n)) := by
          rw [hmen]
          intro m hm
          exact textIn_append_left _ (hb m hm)
        refine ⟨addRef (b ++ bracketed (indexText n)), ?_, ?_, ?_, ?_⟩
        · rw [identOf, ht]
          dsimp only
          rw [if_neg hz, hs]
          dsimp only
          rw [stripRef_addRef]
        · intro _
          refine ⟨_, rfl, hin, ?_⟩
          intro hp
          rw [plainHead, if_neg hz, hs] at hp
          exact head_append (hh hp) (bracketed_head _)
        · intro hf; rw [hre] at hf; cases hf
        · intro m hm
          exact textIn_append_left _ (textIn_append_right _ (hin m hm))
  | indexVal g i ih1 ih2 =>
    obtain ⟨hg, hi, hr, hs⟩ := hv
    obtain ⟨t, ht, h1, h2, h3⟩ := ih1 hg
    obtain ⟨ti, hti, -, -, h6⟩ := ih2 hi
    obtain ⟨b, rfl, hb, hh⟩ := h1 hr
    have hin : ∀ m ∈ mentioned fields members (.indexVal g i), TextIn m (b ++ bracketed ti) := by
      intro m hm
      rw [mentioned] at hm
      rcases List.mem_append.1 hm with hm | hm
      · exact textIn_append_left _ (hb m hm)
      · exact textIn_append_right _ (textIn_bracketed' (h6 m hm))
    refine ⟨addRef (b ++ bracketed ti), ?_, ?_, ?_, ?_⟩
    · rw [identOf, ht]
      dsimp only
      rw [hs]
      dsimp only
      rw [hti]
      dsimp only
      rw [stripRef_addRef]
    · intro _
      refine ⟨_, rfl, hin, ?_⟩
      intro hp
      exact head_append (hh hp) (bracketed_head _)
    · intro hf; cases hf
    · intro m hm
      exact textIn_append_left _ (textIn_append_right _ (hin m hm))

/-- **C154 (partial)** For simple values the text is found and contains all names. Missing: see `C154_fails` and the
theorems after it. -/
theorem C154_names_partial (fields : Str → Nat → Option Str) (members : Str → Nat → IdTy) (v : IdVal) (hv : SimpleVal members v) :
    ∃ t, identOf fields v = .ok t ∧ ∀ m ∈ mentioned fields members v, TextIn m t := by
  obtain ⟨t, ht, -, -, h⟩ := simple_good (fields := fields) v hv
  exact ⟨t, ht, h⟩

/-- The value `x->inner` is simple, and so is an element of an array in a structure. -/
example : SimpleVal nestedMembers (.load (.index (.index (.elem (.plain (str! "x")) (.struct (str! "outer"))) 0) 1)) ∧
    identOf nestedFields (.load (.index (.index (.elem (.plain (str! "x")) (.struct (str! "outer"))) 0) 1)) = .ok (str! "x->inner") ∧
    mentioned nestedFields nestedMembers (.load (.index (.index (.elem (.plain (str! "x")) (.struct (str! "outer"))) 0) 1)) =
      [str! "x", str! "inner"] := by
  refine ⟨⟨⟨⟨by simp [SimpleVal], .inl ⟨rfl, rfl⟩⟩, .inr (.inl ⟨_, _, rfl⟩)⟩, .inl rfl⟩, by decide, by decide⟩

example : SimpleVal nestedMembers (.indexVal (.index (.elem (.index (.index (.elem (.plain (str! "x")) (.struct (str! "outer"))) 0) 0)
      (.array .other)) 0) (.plain (str! "i"))) ∧
    identOf nestedFields (.indexVal (.index (.elem (.index (.index (.elem (.plain (str! "x")) (.struct (str! "outer"))) 0) 0)
      (.array .other)) 0) (.plain (str! "i"))) = .ok (str! "&(x->lock[i])") := by
  refine ⟨⟨⟨⟨⟨by simp [SimpleVal], .inl ⟨rfl, rfl⟩⟩, .inr (.inl ⟨_, _, rfl⟩)⟩, .inl ⟨rfl, rfl⟩⟩, by simp [SimpleVal], rfl, rfl⟩, by decide⟩

end DK
