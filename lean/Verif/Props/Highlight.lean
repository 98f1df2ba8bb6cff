import Verif.Spec.Highlight

/-! The lines of a call are marked in the viewer. -/

set_option autoImplicit false

namespace DK
open Spec

private theorem find_old (rows : List VRow) (l : Nat) :
    (findOldRow rows l = none ∧ ¬ ShowsOld rows l) ∨ (∃ r ∈ rows, findOldRow rows l = some r ∧ r.oldLine = some l) := by
  cases h : findOldRow rows l with
  | none =>
    left
    refine ⟨rfl, ?_⟩
    rintro ⟨r, hr, hl⟩
    have := List.find?_eq_none.1 h r hr
    simp [hl] at this
  | some r =>
    right
    exact ⟨r, List.mem_of_find?_eq_some h, rfl, by simpa using List.find?_some h⟩

private theorem find_new (rows : List VRow) (l : Nat) :
    (findNewRow rows l = none ∧ ¬ ShowsNew rows l) ∨ (∃ r ∈ rows, findNewRow rows l = some r ∧ r.newLine = some l) := by
  cases h : findNewRow rows l with
  | none =>
    left
    refine ⟨rfl, ?_⟩
    rintro ⟨r, hr, hl⟩
    have := List.find?_eq_none.1 h r hr
    simp [hl] at this
  | some r =>
    right
    exact ⟨r, List.mem_of_find?_eq_some h, rfl, by simpa using List.find?_some h⟩

private theorem row_key_inj (rows : List VRow) (hd : DiffRows rows) (r r' : VRow) (hr : r ∈ rows) (hr' : r' ∈ rows)
    (h : r.key = r'.key) : r = r' := by
  apply hd r hr r' hr'
  cases r <;> cases r' <;> simp_all [VRow.key, VRow.oldLine, VRow.newLine]

/-- **C195** (false) If lines of a call are given, exactly these lines of both versions are marked. -/
def C195_statement : Prop :=
  ∀ (rows : List VRow) (o n : Nat), DiffRows rows → ∀ r ∈ rows,
    (r ∈ markedRows (some (o, n)) rows → (∀ l, r.oldLine = some l → l = o) ∧ (∀ l, r.newLine = some l → l = n)) ∧
    (r.oldLine = some o ∨ r.newLine = some n → r ∈ markedRows (some (o, n)) rows)

/-- Calls on lines 1 and 2: as both rows are unchanged, both lines are marked in both versions. -/
theorem C195_fails : ¬ C195_statement := by
  intro h
  have := ((h [.normal 1 1, .normal 2 2] 1 2 (by unfold DiffRows; intro r hr r' hr'; simp at hr hr'; rcases hr with rfl | rfl <;> rcases hr' with rfl | rfl <;> simp [VRow.oldLine, VRow.newLine]) (.normal 1 1) (by decide)).1 (by decide)).2 1 rfl
  exact absurd this (by decide)

/-- If the line of one version is not among the rows, that of the other version is not marked. -/
theorem C195_fails_missing : ¬ C195_statement := by
  intro h
  have := (h [.delete 1] 1 5 (by unfold DiffRows; intro r hr r' hr'; simp at hr hr'; simp [hr, hr']) (.delete 1) (by decide)).2
    (Or.inl rfl)
  exact absurd this (by decide)

/-- **C195** The marked rows are those with the line of the old call in the old version or that of the new call in the new
version, if both are among the rows, and none otherwise. -/
theorem C195_rows_partial (rows : List VRow) (o n : Nat) (hd : DiffRows rows) (r : VRow) :
    r ∈ markedRows (some (o, n)) rows ↔
      r ∈ rows ∧ ShowsOld rows o ∧ ShowsNew rows n ∧ (r.oldLine = some o ∨ r.newLine = some n) := by
  unfold markedRows linesToHighlight
  rw [List.mem_filter]
  refine and_congr_right fun hr => ?_
  rcases find_old rows o with ⟨h1, h2⟩ | ⟨a, ha, h1, h2⟩
  · simp only [h1]
    simp [h2]
  · rcases find_new rows n with ⟨h3, h4⟩ | ⟨b, hb, h3, h4⟩
    · simp only [h1, h3]
      simp [h4]
    · simp only [h1, h3]
      have hk : (if a.key = b.key then [a.key] else [a.key, b.key]).contains r.key = true ↔ (r = a ∨ r = b) := by
        have e1 : r.key = a.key ↔ r = a := ⟨row_key_inj rows hd r a hr ha, fun h => h ▸ rfl⟩
        have e2 : r.key = b.key ↔ r = b := ⟨row_key_inj rows hd r b hr hb, fun h => h ▸ rfl⟩
        split
        · rename_i hab
          have := row_key_inj rows hd a b ha hb hab
          subst this
          simp [e1]
        · simp [e1, e2]
      rw [hk]
      constructor
      · rintro (rfl | rfl)
        · exact ⟨⟨_, ha, h2⟩, ⟨b, hb, h4⟩, Or.inl h2⟩
        · exact ⟨⟨a, ha, h2⟩, ⟨_, hb, h4⟩, Or.inr h4⟩
      · rintro ⟨_, _, h | h⟩
        · exact Or.inl (hd r hr a ha (Or.inl ⟨o, h, h2⟩))
        · exact Or.inr (hd r hr b hb (Or.inr ⟨n, h, h4⟩))

/-- **C195** Exactly the lines of the call are marked in both versions, if both are among the rows and no unchanged row has
only one of them. Missing: calls on unchanged lines that do not correspond, and lines that are not shown. -/
theorem C195_lines_partial (rows : List VRow) (o n : Nat) (hd : DiffRows rows) (ho : ShowsOld rows o) (hn : ShowsNew rows n)
    (ha : CallsAligned rows o n) (l : Nat) :
    ((∃ r ∈ markedRows (some (o, n)) rows, r.oldLine = some l) ↔ l = o) ∧
    ((∃ r ∈ markedRows (some (o, n)) rows, r.newLine = some l) ↔ l = n) := by
  have hm := C195_rows_partial rows o n hd
  constructor
  · constructor
    · rintro ⟨r, hr, hl⟩
      obtain ⟨h1, _, _, h | h⟩ := (hm r).1 hr
      · rw [h] at hl; exact (Option.some.inj hl).symm
      · cases r with
        | normal o' n' =>
          cases hl
          cases h
          exact (ha _ _ h1).2 rfl
        | insert => cases hl
        | delete => cases h
    · rintro rfl
      obtain ⟨r, hr, h⟩ := ho
      exact ⟨r, (hm r).2 ⟨hr, ⟨r, hr, h⟩, hn, Or.inl h⟩, h⟩
  · constructor
    · rintro ⟨r, hr, hl⟩
      obtain ⟨h1, _, _, h | h⟩ := (hm r).1 hr
      · cases r with
        | normal o' n' =>
          cases hl
          cases h
          exact (ha _ _ h1).1 rfl
        | insert => cases h
        | delete => cases hl
      · rw [h] at hl; exact (Option.some.inj hl).symm
    · rintro rfl
      obtain ⟨r, hr, h⟩ := hn
      exact ⟨r, (hm r).2 ⟨hr, ho, ⟨r, hr, h⟩, Or.inr h⟩, h⟩

/-- **C195** Without lines of a call, nothing is marked. -/
theorem C195_none (rows : List VRow) : markedRows none rows = [] := by
  simp [markedRows, linesToHighlight]

/-- A call that was moved and changed, and one on an unchanged line. -/
example :
    markedRows (some (5, 6)) [.normal 4 4, .delete 5, .insert 5, .insert 6, .normal 6 7] = [.delete 5, .insert 6] ∧
    markedRows (some (6, 7)) [.normal 4 4, .delete 5, .insert 5, .insert 6, .normal 6 7] = [.normal 6 7] ∧
    CallsAligned [.normal 4 4, .delete 5, .insert 5, .insert 6, .normal 6 7] 6 7 := by
  refine ⟨by decide, by decide, ?_⟩
  intro o' n' h
  simp at h
  omega

end DK
