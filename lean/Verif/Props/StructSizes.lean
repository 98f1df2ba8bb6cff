import Verif.Spec.StructSizes

/-! C191: constants that are found equal because of the sizes of structures are sizes of one structure. -/

set_option autoImplicit false

namespace DK
open Spec

private theorem mem_putName (n x : Str) (l : List Str) : x ∈ putName n l ↔ x = n ∨ x ∈ l := by
  induction l with
  | nil => simp [putName]
  | cons y ys ih =>
    rw [putName]
    split
    · rename_i h
      subst h
      simp
    · split
      · simp
      · rw [List.mem_cons, ih, List.mem_cons]
        tauto

private theorem putName_ne (n : Str) (l : List Str) : putName n l ≠ [] := by
  intro h
  have := (mem_putName n n l).2 (Or.inl rfl)
  rw [h] at this
  cases this

private theorem findSize_add (n : Str) (size k : Nat) (m : List (Nat × List Str)) :
    findSize k (addSize n size m) =
      if size = k then some (match findSize k m with | some l => putName n l | none => [n]) else findSize k m := by
  induction m with
  | nil => rfl
  | cons e es ih =>
    rw [addSize]
    by_cases he : e.1 = size
    · rw [if_pos he, findSize, findSize]
      by_cases hk : size = k
      · simp [he, hk]
      · simp [he, hk]
    · rw [if_neg he, findSize, ih, findSize]
      by_cases hk : size = k
      · subst hk
        rw [if_neg he, if_neg he]
      · simp only [if_neg hk]

/-- What the map knows: the names of a size are those of the structures of this size, in a set that is not empty. -/
private theorem findSize_spec (ts : List SizedStruct) (acc : List (Nat × List Str)) (k : Nat) (x : Str) :
    (∃ l, findSize k (structSizes acc ts) = some l ∧ x ∈ l) ↔ (∃ l, findSize k acc = some l ∧ x ∈ l) ∨ HasSize ts x k := by
  induction ts generalizing acc with
  | nil => simp [structSizes, HasSize]
  | cons t ts ih =>
    rw [structSizes, ih]
    have hs : HasSize (t :: ts) x k ↔ (t.name = x ∧ t.sized = true ∧ t.size = k) ∨ HasSize ts x k := by
      simp [HasSize]
    rw [hs]
    by_cases h1 : t.sized = true
    · rw [if_pos h1, findSize_add]
      by_cases h2 : t.size = k
      · rw [if_pos h2]
        cases hf : findSize k acc with
        | none =>
          simp only [Option.some.injEq, exists_eq_left', List.mem_singleton, reduceCtorEq, false_and, exists_false,
            false_or]
          constructor
          · rintro (h | h)
            · exact Or.inl ⟨h.symm, h1, h2⟩
            · exact Or.inr h
          · rintro (h | h)
            · exact Or.inl h.1.symm
            · exact Or.inr h
        | some l =>
          simp only [Option.some.injEq, exists_eq_left', mem_putName]
          constructor
          · rintro ((h | h) | h)
            · exact Or.inr (Or.inl ⟨h.symm, h1, h2⟩)
            · exact Or.inl h
            · exact Or.inr (Or.inr h)
          · rintro (h | h | h)
            · exact Or.inl (Or.inr h)
            · exact Or.inl (Or.inl h.1.symm)
            · exact Or.inr h
      · rw [if_neg h2]
        constructor
        · rintro (h | h)
          · exact Or.inl h
          · exact Or.inr (Or.inr h)
        · rintro (h | h | h)
          · exact Or.inl h
          · exact absurd h.2.2 h2
          · exact Or.inr h
    · rw [if_neg h1]
      constructor
      · rintro (h | h)
        · exact Or.inl h
        · exact Or.inr (Or.inr h)
      · rintro (h | h | h)
        · exact Or.inl h
        · exact absurd h.2.1 h1
        · exact Or.inr h

private theorem structSizes_ne (ts : List SizedStruct) (acc : List (Nat × List Str)) (k : Nat)
    (h : ∀ l, findSize k acc = some l → l ≠ []) : ∀ l, findSize k (structSizes acc ts) = some l → l ≠ [] := by
  induction ts generalizing acc with
  | nil => exact h
  | cons t ts ih =>
    rw [structSizes]
    apply ih
    intro l hl
    split at hl
    · rw [findSize_add] at hl
      split at hl
      · cases hf : findSize k acc with
        | none => rw [hf] at hl; cases hl; simp
        | some l' => rw [hf] at hl; cases hl; exact putName_ne _ _
      · exact h l hl
    · exact h l hl

private theorem mem_size (ts : List SizedStruct) (k : Nat) (l : List Str) (h : findSize k (structSizes [] ts) = some l)
    (x : Str) : x ∈ l ↔ HasSize ts x k := by
  have := findSize_spec ts [] k x
  rw [h] at this
  simp only [Option.some.injEq, exists_eq_left', findSize, reduceCtorEq, false_and, exists_false, false_or] at this
  exact this

private theorem sizeAsInt_small (v : Nat) (h : v < 2 ^ 31) : sizeAsInt v = v := by
  unfold sizeAsInt
  have : v % 2 ^ 32 = v := Nat.mod_eq_of_lt (by omega)
  rw [this, if_pos h]

/-- **C191** (false) Constants that are found equal because of the sizes of structures are the sizes of one structure,
in the first and the second module. -/
def C191_statement : Prop :=
  ∀ (l r : List SizedStruct) (v w : Nat), v < 2 ^ 64 → w < 2 ^ 64 → equalBySizes l r v w = true →
    ∃ n, HasSize l n v ∧ HasSize r n w

/-- A structure of 8 bytes, and the numbers 2^32 + 8 and 8: the first one is cut to 32 bits. -/
theorem C191_fails : ¬ C191_statement := by
  intro h
  obtain ⟨n, ⟨t, ht, h1, h2, h3⟩, _⟩ := h [⟨str! "struct.a", true, 8⟩] [⟨str! "struct.a", true, 8⟩] (2 ^ 32 + 8) 8
    (by decide) (by decide) (by decide)
  cases ht with
  | head => exact absurd h3 (by decide)
  | tail _ h => cases h

/-- **C191** (false) Sizes of two structures are only found equal if it is the same structure. -/
def C191_written_statement : Prop :=
  ∀ (l r : List SizedStruct) (x y : Str) (v w : Nat), v < 2 ^ 31 → w < 2 ^ 31 → HasSize l x v → HasSize r y w →
    equalBySizes l r v w = true → x = y

/-- Two structures of the same size that both grow: `sizeof(struct a)` and `sizeof(struct b)` are found equal. -/
theorem C191_fails_written : ¬ C191_written_statement := by
  intro h
  exact absurd (h [⟨str! "struct.a", true, 8⟩, ⟨str! "struct.b", true, 8⟩] [⟨str! "struct.b", true, 16⟩, ⟨str! "struct.a", true, 16⟩]
    (str! "struct.a") (str! "struct.b") 8 16 (by decide) (by decide) ⟨_, List.mem_cons_self, rfl, rfl, rfl⟩
    ⟨_, List.mem_cons_self, rfl, rfl, rfl⟩ (by decide)) (by decide)

/-- **C191** For constants below 2^31. If they are found equal because of the sizes of structures, there is a structure
with these sizes, and every structure with the first size in the first module has the second size in the second one, and
the other way round. So, sizes of structures that are written in the source are sizes of one structure, too.
Missing: larger constants, which are cut; a written structure that is replaced by another one of the same size. -/
theorem C191_size_partial (l r : List SizedStruct) (v w : Nat) (hv : v < 2 ^ 31) (hw : w < 2 ^ 31)
    (h : equalBySizes l r v w = true) :
    (∃ n, HasSize l n v ∧ HasSize r n w) ∧ ∀ n, HasSize l n v ↔ HasSize r n w := by
  unfold equalBySizes at h
  rw [sizeAsInt_small v hv, sizeAsInt_small w hw] at h
  cases hl : findSize v (structSizes [] l) with
  | none => rw [hl] at h; cases h
  | some a =>
    cases hr : findSize w (structSizes [] r) with
    | none => rw [hl, hr] at h; cases h
    | some b =>
      rw [hl, hr] at h
      have hab : a = b := of_decide_eq_true h
      subst hab
      have hne := structSizes_ne l [] v (fun _ h => by cases h) a hl
      obtain ⟨n, hn⟩ := List.exists_mem_of_ne_nil a hne
      exact ⟨⟨n, (mem_size l v a hl n).1 hn, (mem_size r w a hr n).1 hn⟩,
        fun n => (mem_size l v a hl n).symm.trans (mem_size r w a hr n)⟩

/-- **C191** For constants below 2^31. If one structure is the only one with its size in each module, its sizes are only
found equal with sizes of the same structure. -/
theorem C191_only_partial (l r : List SizedStruct) (x y : Str) (v w : Nat) (hv : v < 2 ^ 31) (hw : w < 2 ^ 31)
    (hx : HasSize l x v) (hy : HasSize r y w) (hu : ∀ n, HasSize l n v → n = x) (h : equalBySizes l r v w = true) : x = y :=
  (hu y (((C191_size_partial l r v w hv hw h).2 y).2 hy)).symm

private theorem putName_single (x : Str) : putName x [x] = [x] := by rw [putName, if_pos rfl]

private theorem single_set (ts : List SizedStruct) (acc : List (Nat × List Str)) (k : Nat) (x : Str)
    (ha : findSize k acc = none ∨ findSize k acc = some [x]) (hu : ∀ n, HasSize ts n k → n = x) :
    findSize k (structSizes acc ts) = none ∨ findSize k (structSizes acc ts) = some [x] := by
  induction ts generalizing acc with
  | nil => exact ha
  | cons t ts ih =>
    rw [structSizes]
    apply ih
    · split
      · rename_i h1
        rw [findSize_add]
        split
        · rename_i h2
          have : t.name = x := hu t.name ⟨t, List.mem_cons_self, rfl, h1, h2⟩
          right
          rcases ha with ha | ha
          · rw [ha, this]
          · rw [ha, this]; exact congrArg some (putName_single x)
        · exact ha
      · exact ha
    · rintro n ⟨t', ht', h⟩
      exact hu n ⟨t', List.mem_cons_of_mem _ ht', h⟩

/-- **C191** For constants below 2^31. If a structure is the only one with its size in each of the modules, its sizes are
found equal, also if they differ. -/
theorem C191_accepted_partial (l r : List SizedStruct) (x : Str) (v w : Nat) (hv : v < 2 ^ 31) (hw : w < 2 ^ 31)
    (hx : HasSize l x v) (hy : HasSize r x w) (hl : ∀ n, HasSize l n v → n = x) (hr : ∀ n, HasSize r n w → n = x) :
    equalBySizes l r v w = true := by
  have key : ∀ (ts : List SizedStruct) (k : Nat), HasSize ts x k → (∀ n, HasSize ts n k → n = x) →
      findSize k (structSizes [] ts) = some [x] := by
    intro ts k h hu
    rcases single_set ts [] k x (Or.inl rfl) hu with h1 | h1
    · obtain ⟨l, hl, _⟩ := (findSize_spec ts [] k x).2 (Or.inr h)
      rw [h1] at hl
      cases hl
    · exact h1
  unfold equalBySizes
  rw [sizeAsInt_small v hv, sizeAsInt_small w hw, key l v hx hl, key r w hy hr]
  exact decide_eq_true rfl

/-- A structure that grows from 8 to 16 bytes, beside another one of 24 bytes. -/
example :
    equalBySizes [⟨str! "struct.a", true, 8⟩, ⟨str! "struct.b", true, 24⟩] [⟨str! "struct.b", true, 24⟩, ⟨str! "struct.a", true, 16⟩] 8 16 = true ∧
    equalBySizes [⟨str! "struct.a", true, 8⟩, ⟨str! "struct.b", true, 24⟩] [⟨str! "struct.b", true, 24⟩, ⟨str! "struct.a", true, 16⟩] 8 24 = false ∧
    equalBySizes [⟨str! "struct.b", true, 8⟩, ⟨str! "struct.a", true, 8⟩] [⟨str! "struct.a", true, 16⟩, ⟨str! "struct.b", true, 16⟩] 8 16 = true := by
  decide

end DK
