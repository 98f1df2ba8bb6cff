import Verif.Model.Py

/-! Lemmas about dictionaries. -/

namespace DK.Dict
variable {α β : Type} [DecidableEq α]

@[simp] theorem get?_nil (a : α) : get? ([] : Dict α β) a = none := rfl

theorem get?_set (d : Dict α β) (a : α) (b : β) (c : α) :
    get? (set d a b) c = if c = a then some b else get? d c := by
  induction d with
  | nil => by_cases h : a = c <;> simp [set, get?, h, eq_comm]
  | cons p d ih =>
    obtain ⟨k, v⟩ := p
    by_cases h : k = a
    · subst h
      by_cases hc : k = c
      · subst hc; simp [set, get?]
      · have : ¬ c = k := fun e => hc e.symm
        simp [set, get?, hc, this]
    · by_cases hc : k = c
      · subst hc; simp [set, get?, h]
      · simp [set, get?, h, hc, ih]

@[simp] theorem get?_set_self (d : Dict α β) (a : α) (b : β) : get? (set d a b) a = some b := by
  simp [get?_set]

theorem get?_set_ne (d : Dict α β) {a c : α} (b : β) (h : c ≠ a) :
    get? (set d a b) c = get? d c := by
  simp [get?_set, h]

theorem mem_keys_iff (d : Dict α β) (a : α) : a ∈ keys d ↔ (get? d a).isSome := by
  induction d with
  | nil => simp [keys]
  | cons p d ih =>
    obtain ⟨k, v⟩ := p
    by_cases h : k = a
    · simp [keys, get?, h]
    · have h' : ¬ a = k := fun e => h e.symm
      simp only [keys, List.map_cons, List.mem_cons, h', false_or, get?, h, if_false]
      exact ih

theorem mem_keys_iff_ex (d : Dict α β) (a : α) : a ∈ keys d ↔ ∃ b, get? d a = some b := by
  rw [mem_keys_iff, Option.isSome_iff_exists]

theorem get?_eq_none_iff (d : Dict α β) (a : α) : get? d a = none ↔ a ∉ keys d := by
  rw [mem_keys_iff]; cases get? d a <;> simp

theorem get?_mem {d : Dict α β} {a : α} {b : β} (h : get? d a = some b) : (a, b) ∈ d := by
  induction d with
  | nil => simp at h
  | cons p d ih =>
    obtain ⟨k, v⟩ := p
    by_cases hk : k = a
    · simp [get?, hk] at h; subst h; subst hk; simp
    · simp [get?, hk] at h; exact List.mem_cons_of_mem _ (ih h)

theorem get?_mem_values {d : Dict α β} {a : α} {b : β} (h : get? d a = some b) : b ∈ values d :=
  List.mem_map.2 ⟨(a, b), get?_mem h, rfl⟩

theorem mem_get? {d : Dict α β} (hn : (keys d).Nodup) {a : α} {b : β} (h : (a, b) ∈ d) :
    get? d a = some b := by
  induction d with
  | nil => simp at h
  | cons p d ih =>
    obtain ⟨k, v⟩ := p
    simp only [keys, List.map_cons, List.nodup_cons] at hn
    rcases List.mem_cons.1 h with h | h
    · injection h with h1 h2; subst h1; subst h2; simp [get?]
    · have : k ≠ a := by
        rintro rfl
        exact hn.1 (List.mem_map.2 ⟨(k, b), h, rfl⟩)
      simp [get?, this, ih hn.2 h]

theorem mem_iff_get? {d : Dict α β} (hn : (keys d).Nodup) {a : α} {b : β} :
    (a, b) ∈ d ↔ get? d a = some b := ⟨mem_get? hn, get?_mem⟩

theorem keys_set (d : Dict α β) (a : α) (b : β) :
    keys (set d a b) = if a ∈ keys d then keys d else keys d ++ [a] := by
  induction d with
  | nil => simp [set, keys]
  | cons p d ih =>
    obtain ⟨k, v⟩ := p
    by_cases h : k = a
    · subst h; simp [set, keys]
    · have h' : ¬ a = k := fun e => h e.symm
      have e1 : keys (set ((k, v) :: d) a b) = k :: keys (set d a b) := by simp [set, h, keys]
      have e2 : keys ((k, v) :: d) = k :: keys d := rfl
      rw [e1, ih, e2]
      by_cases hm : a ∈ keys d <;> simp [hm, h']

theorem nodup_keys_set {d : Dict α β} (hn : (keys d).Nodup) (a : α) (b : β) :
    (keys (set d a b)).Nodup := by
  rw [keys_set]
  split
  · exact hn
  · rename_i h
    rw [List.nodup_append]
    refine ⟨hn, by simp, ?_⟩
    intro x hx y hy
    simp only [List.mem_singleton] at hy
    subst hy
    rintro rfl
    exact h hx

theorem keys_erase (d : Dict α β) (a : α) : keys (erase d a) = (keys d).erase a := by
  induction d with
  | nil => rfl
  | cons p d ih =>
    obtain ⟨k, v⟩ := p
    by_cases h : k = a
    · subst h; simp [erase, keys]
    · have e1 : keys (erase ((k, v) :: d) a) = k :: keys (erase d a) := by simp [erase, h, keys]
      have e2 : keys ((k, v) :: d) = k :: keys d := rfl
      rw [e1, ih, e2, List.erase_cons]
      simp [h]

theorem nodup_keys_erase {d : Dict α β} (hn : (keys d).Nodup) (a : α) :
    (keys (erase d a)).Nodup := by
  rw [keys_erase]; exact hn.erase _

theorem get?_erase {d : Dict α β} (hn : (keys d).Nodup) (a c : α) :
    get? (erase d a) c = if c = a then none else get? d c := by
  induction d with
  | nil => simp [erase]
  | cons p d ih =>
    obtain ⟨k, v⟩ := p
    simp only [keys, List.map_cons, List.nodup_cons] at hn
    by_cases h : k = a
    · subst h
      by_cases hc : c = k
      · subst hc
        simp only [erase, if_true]
        exact (get?_eq_none_iff _ _).2 hn.1
      · have : ¬ k = c := fun e => hc e.symm
        simp [erase, get?, hc, this]
    · by_cases hc : k = c
      · subst hc; simp [erase, get?, h]
      · simp [erase, get?, h, hc, ih hn.2]

theorem mem_set {d : Dict α β} (hn : (keys d).Nodup) {a : α} {b : β} {p : α × β} :
    p ∈ set d a b ↔ p = (a, b) ∨ (p ∈ d ∧ p.1 ≠ a) := by
  obtain ⟨x, y⟩ := p
  rw [mem_iff_get? (nodup_keys_set hn a b), mem_iff_get? hn, get?_set]
  by_cases h : x = a
  · simp [h, eq_comm]
  · simp [h]

theorem contains_iff (d : Dict α β) (a : α) : contains d a = true ↔ a ∈ keys d := by
  rw [mem_keys_iff, contains]

theorem mem_values_iff {d : Dict α β} (hn : (keys d).Nodup) {b : β} :
    b ∈ values d ↔ ∃ a, get? d a = some b := by
  constructor
  · intro h
    obtain ⟨⟨a, b'⟩, h1, rfl⟩ := List.mem_map.1 h
    exact ⟨a, mem_get? hn h1⟩
  · rintro ⟨a, h⟩
    exact get?_mem_values h

end DK.Dict
