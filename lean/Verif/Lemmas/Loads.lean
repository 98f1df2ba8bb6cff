import Verif.Spec.Loads

/-!
Lemmas about the layout of types and about the search for the replacement of a load.
-/

set_option autoImplicit false

namespace DK
open Spec

theorem fieldAt_bound (fs : LFields) : ∀ n o t, fieldAt fs n = some (o, t) → o + tySize t ≤ fieldsSize fs := by
  match fs with
  | .nil => intro n o t h; simp [fieldAt] at h
  | .cons pad t rest =>
    intro n o t' h
    cases n with
    | zero =>
      simp [fieldAt] at h
      obtain ⟨rfl, rfl⟩ := h
      simp [fieldsSize]
    | succ n =>
      simp only [fieldAt, Option.map_eq_some_iff] at h
      obtain ⟨⟨o1, t1⟩, h1, h2⟩ := h
      simp at h2
      obtain ⟨rfl, rfl⟩ := h2
      have := fieldAt_bound rest n o1 t1 h1
      simp [fieldsSize]
      omega

theorem fieldAt_lt (fs : LFields) : ∀ m n o t o' t', fieldAt fs m = some (o, t) → fieldAt fs n = some (o', t') →
    m < n → o + tySize t ≤ o' := by
  match fs with
  | .nil => intro m n o t o' t' h; simp [fieldAt] at h
  | .cons pad t rest =>
    intro m n o t1 o' t2 h h' hmn
    cases n with
    | zero => omega
    | succ n =>
      simp only [fieldAt, Option.map_eq_some_iff] at h'
      obtain ⟨⟨o2, t3⟩, h1, h2⟩ := h'
      simp at h2
      obtain ⟨rfl, rfl⟩ := h2
      cases m with
      | zero =>
        simp [fieldAt] at h
        obtain ⟨rfl, rfl⟩ := h
        omega
      | succ m =>
        simp only [fieldAt, Option.map_eq_some_iff] at h
        obtain ⟨⟨o4, t4⟩, h3, h4⟩ := h
        simp at h4
        obtain ⟨rfl, rfl⟩ := h4
        have := fieldAt_lt rest m n _ _ _ _ h3 h1 (by omega)
        omega

theorem arr_lt {i j : Int} {s : Nat} (h : i < j) : i * s + s ≤ j * s := by
  have h1 : (i + 1) * (s : Int) ≤ j * s := Int.mul_le_mul_of_nonneg_right (by omega) (by omega)
  rw [Int.add_mul] at h1
  omega

theorem select_bound {t : LTy} {i : Int} (h : idxIn t i) :
    ∃ o t', selectTy t i = some (o, t') ∧ 0 ≤ o ∧ o + tySize t' ≤ tySize t := by
  cases t with
  | cell n => exact absurd h (by simp [idxIn])
  | arr n t =>
    obtain ⟨h0, h1⟩ := h
    refine ⟨_, _, rfl, Int.mul_nonneg h0 (by omega), ?_⟩
    have := arr_lt (s := tySize t) h1
    simp only [tySize, Int.natCast_mul]
    exact this
  | struct fs =>
    obtain ⟨h0, h1⟩ := h
    obtain ⟨⟨o, t'⟩, ho⟩ := Option.isSome_iff_exists.1 h1
    refine ⟨o, t', by simp [selectTy, h0, ho], by omega, ?_⟩
    have := fieldAt_bound fs _ _ _ ho
    simp only [tySize]
    omega

theorem select_apart {t : LTy} {i j : Int} {o o' : Int} {t1 t2 : LTy} (hi : idxIn t i) (hj : idxIn t j)
    (hne : i ≠ j) (h1 : selectTy t i = some (o, t1)) (h2 : selectTy t j = some (o', t2)) :
    o + tySize t1 ≤ o' ∨ o' + tySize t2 ≤ o := by
  cases t with
  | cell n => exact absurd hi (by simp [idxIn])
  | arr n t =>
    simp [selectTy] at h1 h2
    obtain ⟨rfl, rfl⟩ := h1
    obtain ⟨rfl, rfl⟩ := h2
    rcases Int.lt_or_gt_of_ne hne with h | h
    · exact Or.inl (arr_lt h)
    · exact Or.inr (arr_lt h)
  | struct fs =>
    simp only [selectTy, hi.1, hj.1, if_true, Option.map_eq_some_iff] at h1 h2
    obtain ⟨⟨a, ta⟩, ha, ha'⟩ := h1
    obtain ⟨⟨b, tb⟩, hb, hb'⟩ := h2
    simp at ha' hb'
    obtain ⟨rfl, rfl⟩ := ha'
    obtain ⟨rfl, rfl⟩ := hb'
    have hi0 := hi.1
    have hj0 := hj.1
    rcases Nat.lt_or_gt_of_ne (show i.toNat ≠ j.toNat by omega) with h | h
    · have := fieldAt_lt fs _ _ _ _ _ _ ha hb h
      omega
    · have := fieldAt_lt fs _ _ _ _ _ _ hb ha h
      omega

theorem path_bound : ∀ (is : List Int) (t : LTy), pathIn t is →
    0 ≤ pathOffset t is ∧ pathOffset t is + tySize (pathTy t is) ≤ tySize t := by
  intro is
  induction is with
  | nil => intro t _; simp [pathOffset, pathTy]
  | cons i is ih =>
    intro t h
    obtain ⟨h1, h2⟩ := h
    obtain ⟨o, t', hs, ho, hb⟩ := select_bound h1
    rw [hs] at h2
    have := ih t' h2
    simp only [pathOffset, pathTy, hs]
    omega

/-- Lists of indices that differ somewhere. -/
def DifferAt (is js : List Int) : Prop := ∃ (k : Nat) (x y : Int), is[k]? = some x ∧ js[k]? = some y ∧ x ≠ y

theorem paths_apart : ∀ (is js : List Int) (t : LTy), pathIn t is → pathIn t js → DifferAt is js →
    pathOffset t is + tySize (pathTy t is) ≤ pathOffset t js ∨
    pathOffset t js + tySize (pathTy t js) ≤ pathOffset t is := by
  intro is
  induction is with
  | nil =>
    intro js t _ _ h
    obtain ⟨k, x, y, h, _⟩ := h
    simp at h
  | cons i is ih =>
    intro js t h1 h2 hd
    cases js with
    | nil =>
      obtain ⟨k, x, y, _, h, _⟩ := hd
      simp at h
    | cons j js =>
      obtain ⟨hi, h1⟩ := h1
      obtain ⟨hj, h2⟩ := h2
      obtain ⟨o, t1, hs, ho, hb⟩ := select_bound hi
      obtain ⟨o', t2, hs', ho', hb'⟩ := select_bound hj
      rw [hs] at h1
      rw [hs'] at h2
      simp only [pathOffset, pathTy, hs, hs']
      by_cases hij : i = j
      · subst hij
        rw [hs] at hs'
        simp at hs'
        obtain ⟨rfl, rfl⟩ := hs'
        have hd' : DifferAt is js := by
          obtain ⟨k, x, y, hx, hy, hxy⟩ := hd
          cases k with
          | zero => simp at hx hy; omega
          | succ k => exact ⟨k, x, y, by simpa using hx, by simpa using hy, hxy⟩
        have := ih js t1 h1 h2 hd'
        omega
      · have h3 := path_bound is t1 h1
        have h4 := path_bound js t2 h2
        have := select_apart hi hj hij hs hs'
        omega

theorem diverge_differ (e : MEnv) : ∀ is js : List PIdx, indicesDiverge is js = true →
    DifferAt (is.map (idxVal e)) (js.map (idxVal e)) := by
  have step : ∀ (i j : PIdx) (is js : List PIdx), DifferAt (is.map (idxVal e)) (js.map (idxVal e)) →
      DifferAt ((i :: is).map (idxVal e)) ((j :: js).map (idxVal e)) := by
    rintro i j is js ⟨k, x, y, hx, hy, hne⟩
    exact ⟨k + 1, x, y, by simpa using hx, by simpa using hy, hne⟩
  intro is
  induction is with
  | nil => intro js h; simp [indicesDiverge] at h
  | cons i is ih =>
    intro js h
    cases js with
    | nil => cases i <;> simp [indicesDiverge] at h
    | cons j js =>
      cases i with
      | var x => simp only [indicesDiverge] at h; exact step _ _ _ _ (ih js h)
      | const m =>
        cases j with
        | var x => simp only [indicesDiverge] at h; exact step _ _ _ _ (ih js h)
        | const n =>
          simp only [indicesDiverge] at h
          split at h
          · rename_i hne
            exact ⟨0, m, n, rfl, rfl, hne⟩
          · exact step _ _ _ _ (ih js h)

/-- The indices of two accesses to the same type select different bytes if they differ somewhere. -/
theorem gep_apart {ty : LTy} {is js : List Int} {v w : Nat}
    (hi : match is with | [] => v ≤ tySize ty | _ :: l => pathIn ty l ∧ v ≤ tySize (pathTy ty l))
    (hj : match js with | [] => w ≤ tySize ty | _ :: l => pathIn ty l ∧ w ≤ tySize (pathTy ty l))
    (hd : DifferAt is js) :
    gepOffset ty is + v ≤ gepOffset ty js ∨ gepOffset ty js + w ≤ gepOffset ty is := by
  cases is with
  | nil => obtain ⟨k, x, y, h, _⟩ := hd; simp at h
  | cons i is =>
    cases js with
    | nil => obtain ⟨k, x, y, _, h, _⟩ := hd; simp at h
    | cons j js =>
      simp only [gepOffset]
      by_cases hij : i = j
      · subst hij
        have hd' : DifferAt is js := by
          obtain ⟨k, x, y, hx, hy, hxy⟩ := hd
          cases k with
          | zero => simp at hx hy; omega
          | succ k => exact ⟨k, x, y, by simpa using hx, by simpa using hy, hxy⟩
        have := paths_apart is js ty hi.1 hj.1 hd'
        have := hi.2
        have := hj.2
        omega
      · have h3 := path_bound is ty hi.1
        have h4 := path_bound js ty hj.1
        have := hi.2
        have := hj.2
        rcases Int.lt_or_gt_of_ne hij with h | h
        · have := arr_lt (s := tySize ty) h
          omega
        · have := arr_lt (s := tySize ty) h
          omega

theorem addr_alloca (e : MEnv) : ∀ (p : MPtr) (a : Nat), getAllocaFromPtr p = some a → (addrOf e p).1 = some a
  | .alloca i, a, h => by simpa [getAllocaFromPtr, addrOf] using h
  | .gep _ _ b _, a, h => by simpa [addrOf] using addr_alloca e b a (by simpa [getAllocaFromPtr] using h)
  | .other _, a, h => by simp [getAllocaFromPtr] at h

end DK
