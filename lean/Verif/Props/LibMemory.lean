import Verif.Spec.LibMemory

/-! The library never uses freed memory, and what it frees. -/

set_option autoImplicit false

namespace DK
open Spec

private theorem setAt_same {α : Type} (f : Nat → α) (i : Nat) (v : α) : setAt f i v i = v := by simp [setAt]

private theorem setAt_ne {α : Type} (f : Nat → α) (i j : Nat) (v : α) (h : j ≠ i) : setAt f i v j = f j := by simp [setAt, h]

/-- Some object refers to `m`. -/
private def Referred (s : LibState) (m : Nat) : Prop := ∃ j, (s.objs j).bind LibObj.owner? = some m

/-- What holds between uses; the exception is an object to which a reference was just removed. -/
private structure MemInv (s : LibState) (exc : Option Nat) : Prop where
  objs_lt : ∀ j x, s.objs j = some x → j < s.next
  heap_lt : ∀ j, s.heap j = true → j < s.next
  held_obj : ∀ j, s.held j = true → ∃ x, s.objs j = some x
  mod : ∀ j, s.objs j = some .module → s.heap j = true
  fn : ∀ j o m, s.objs j = some (.function o m) → o = m ∧ s.objs m = some .module
  tb : ∀ j o m, s.objs j = some (.table o m) → s.heap j = true ∧ o = m ∧ s.objs m = some .module
  unheld : ∀ j x, some j ≠ exc → s.objs j = some x → s.held j = false → x = .module ∧ Referred s j

/-- Every block belongs to an object. -/
private def MemTight (s : LibState) : Prop :=
  ∀ j, s.heap j = true → s.objs j = some .module ∨ ∃ o m, s.objs j = some (.table o m)

private theorem dependents_iff (s : LibState) (e : Option Nat) (h : MemInv s e) (m : Nat) :
    s.dependents m = true ↔ Referred s m := by
  unfold LibState.dependents Referred
  rw [List.any_eq_true]
  constructor
  · rintro ⟨j, _, hj⟩
    exact ⟨j, by simpa using hj⟩
  · rintro ⟨j, hj⟩
    refine ⟨j, ?_, by simpa using hj⟩
    rw [List.mem_range]
    cases hx : s.objs j with
    | none => simp [hx] at hj
    | some x => exact h.objs_lt j x hx

private theorem new_none (s : LibState) (e : Option Nat) (h : MemInv s e) : s.objs s.next = none := by
  cases hx : s.objs s.next with
  | none => rfl
  | some x => exact absurd (h.objs_lt _ x hx) (Nat.lt_irrefl _)

private theorem access_ok (s : LibState) (b : Nat) (h : s.heap b = true) : s.access b = some s := by
  simp [LibState.access, h]

private theorem alloc_inv (s : LibState) (h : MemInv s none) : MemInv s.alloc none where
  objs_lt j x hj := Nat.lt_succ_of_lt (h.objs_lt j x hj)
  heap_lt j hj := by
    by_cases e : j = s.next
    · rw [e]; exact Nat.lt_succ_self _
    · rw [show s.alloc.heap j = s.heap j from setAt_ne _ _ _ _ e] at hj
      exact Nat.lt_succ_of_lt (h.heap_lt j hj)
  held_obj := h.held_obj
  mod j hj := by
    have := h.objs_lt j _ hj
    rw [show s.alloc.heap j = s.heap j from setAt_ne _ _ _ _ (by omega)]
    exact h.mod j hj
  fn := h.fn
  tb j o m hj := by
    have := h.objs_lt j _ hj
    rw [show s.alloc.heap j = s.heap j from setAt_ne _ _ _ _ (by omega)]
    exact h.tb j o m hj
  unheld := h.unheld

private theorem temp_inv (s : LibState) (h : MemInv s none) :
    ∃ s', s.tempArray = some s' ∧ MemInv s' none ∧ (MemTight s → MemTight s') ∧ s'.objs = s.objs ∧ s'.held = s.held := by
  have ha := alloc_inv s h
  refine ⟨{ s.alloc with heap := setAt s.alloc.heap s.next false }, ?_, ?_, ?_, rfl, rfl⟩
  · unfold LibState.tempArray LibState.free
    rw [if_pos (by exact setAt_same _ _ _)]
  · have hh : ∀ j, j ≠ s.next → setAt s.alloc.heap s.next false j = s.heap j := by
      intro j hj
      rw [setAt_ne _ _ _ _ hj]
      exact setAt_ne _ _ _ _ hj
    refine ⟨ha.objs_lt, ?_, ha.held_obj, ?_, ha.fn, ?_, ha.unheld⟩
    · intro j hj
      by_cases e : j = s.next
      · rw [e]; exact Nat.lt_succ_self _
      · exact Nat.lt_succ_of_lt (h.heap_lt j ((hh j e) ▸ hj))
    · intro j hj
      have := h.objs_lt j _ hj
      exact (hh j (by omega)).trans (h.mod j hj)
    · intro j o m hj
      have := h.objs_lt j _ hj
      have ht := h.tb j o m hj
      exact ⟨(hh j (by omega)).trans ht.1, ht.2⟩
  · intro ht j hj
    by_cases e : j = s.next
    · subst e
      exact absurd (hj.symm.trans (setAt_same _ _ _)) (by decide)
    · apply ht j
      have : setAt s.alloc.heap s.next false j = s.heap j := by
        rw [setAt_ne _ _ _ _ e]
        exact setAt_ne _ _ _ _ e
      exact this ▸ hj

private theorem plain_inv (s : LibState) (h : MemInv s none) (m : Nat) (hm : s.objs m = some .module) :
    MemInv (s.addPlain (.function m m)) none ∧ (MemTight s → MemTight (s.addPlain (.function m m))) ∧
      (s.addPlain (.function m m)).objs m = some .module := by
  have hn := new_none s none h
  have hmn := h.objs_lt m _ hm
  have ho : ∀ j, j ≠ s.next → (s.addPlain (.function m m)).objs j = s.objs j := fun j hj => setAt_ne _ _ _ _ hj
  have hs : (s.addPlain (.function m m)).objs s.next = some (.function m m) := setAt_same _ _ _
  have hm' : (s.addPlain (.function m m)).objs m = some .module := (ho m (by omega)).trans hm
  have hh : ∀ j, j ≠ s.next → (s.addPlain (.function m m)).held j = s.held j := fun j hj => setAt_ne _ _ _ _ hj
  refine ⟨⟨?_, ?_, ?_, ?_, ?_, ?_, ?_⟩, ?_, hm'⟩
  · intro j x hj
    by_cases e : j = s.next
    · rw [e]; exact Nat.lt_succ_self _
    · exact Nat.lt_succ_of_lt (h.objs_lt j x (ho j e ▸ hj))
  · exact fun j hj => Nat.lt_succ_of_lt (h.heap_lt j hj)
  · intro j hj
    by_cases e : j = s.next
    · exact ⟨_, e ▸ hs⟩
    · rw [ho j e]
      exact h.held_obj j (hh j e ▸ hj)
  · intro j hj
    by_cases e : j = s.next
    · rw [e, hs] at hj; cases hj
    · exact h.mod j (ho j e ▸ hj)
  · intro j o m' hj
    by_cases e : j = s.next
    · rw [e, hs] at hj
      cases hj
      exact ⟨rfl, hm'⟩
    · have hf := h.fn j o m' (ho j e ▸ hj)
      have := h.objs_lt m' _ hf.2
      exact ⟨hf.1, (ho m' (by omega)).trans hf.2⟩
  · intro j o m' hj
    by_cases e : j = s.next
    · rw [e, hs] at hj; cases hj
    · have hf := h.tb j o m' (ho j e ▸ hj)
      have := h.objs_lt m' _ hf.2.2
      exact ⟨hf.1, hf.2.1, (ho m' (by omega)).trans hf.2.2⟩
  · intro j x hx hj hd
    by_cases e : j = s.next
    · rw [e] at hd
      exact absurd (hd.symm.trans (setAt_same _ _ _)) (by decide)
    · obtain ⟨h1, k, hk⟩ := h.unheld j x hx (ho j e ▸ hj) (hh j e ▸ hd)
      refine ⟨h1, k, ?_⟩
      rw [ho k]
      · exact hk
      · rintro rfl
        rw [hn] at hk
        cases hk
  · intro ht j hj
    have := h.heap_lt j hj
    rw [ho j (by omega)]
    exact ht j hj

private theorem functions_inv (n : Nat) (s : LibState) (h : MemInv s none) (m : Nat) (hm : s.objs m = some .module) :
    MemInv (s.addFunctions m m n) none ∧ (MemTight s → MemTight (s.addFunctions m m n)) := by
  induction n generalizing s with
  | zero => exact ⟨h, id⟩
  | succ n ih =>
    obtain ⟨h1, h2, h3⟩ := plain_inv s h m hm
    have h4 := ih _ h1 h3
    exact ⟨h4.1, fun ht => h4.2 (h2 ht)⟩

private theorem owning_inv (s : LibState) (h : MemInv s none) (x : LibObj)
    (hx : x = .module ∨ ∃ m, x = .table m m ∧ s.objs m = some .module) :
    MemInv (s.addOwning x) none ∧ (MemTight s → MemTight (s.addOwning x)) := by
  have hn := new_none s none h
  have ho : ∀ j, j ≠ s.next → (s.addOwning x).objs j = s.objs j := fun j hj => setAt_ne _ _ _ _ hj
  have hs : (s.addOwning x).objs s.next = some x := setAt_same _ _ _
  have hh : ∀ j, j ≠ s.next → (s.addOwning x).held j = s.held j := fun j hj => setAt_ne _ _ _ _ hj
  have hp : ∀ j, j ≠ s.next → (s.addOwning x).heap j = s.heap j := fun j hj => setAt_ne _ _ _ _ hj
  have hps : (s.addOwning x).heap s.next = true := setAt_same _ _ _
  refine ⟨⟨?_, ?_, ?_, ?_, ?_, ?_, ?_⟩, ?_⟩
  · intro j y hj
    by_cases e : j = s.next
    · rw [e]; exact Nat.lt_succ_self _
    · exact Nat.lt_succ_of_lt (h.objs_lt j y (ho j e ▸ hj))
  · intro j hj
    by_cases e : j = s.next
    · rw [e]; exact Nat.lt_succ_self _
    · exact Nat.lt_succ_of_lt (h.heap_lt j (hp j e ▸ hj))
  · intro j hj
    by_cases e : j = s.next
    · exact ⟨_, e ▸ hs⟩
    · rw [ho j e]
      exact h.held_obj j (hh j e ▸ hj)
  · intro j hj
    by_cases e : j = s.next
    · rw [e]; exact hps
    · rw [hp j e]
      exact h.mod j (ho j e ▸ hj)
  · intro j o m' hj
    by_cases e : j = s.next
    · rw [e, hs] at hj
      rcases hx with rfl | ⟨m, rfl, _⟩ <;> cases hj
    · have hf := h.fn j o m' (ho j e ▸ hj)
      have := h.objs_lt m' _ hf.2
      exact ⟨hf.1, (ho m' (by omega)).trans hf.2⟩
  · intro j o m' hj
    by_cases e : j = s.next
    · rw [e, hs] at hj
      rcases hx with rfl | ⟨m, rfl, hm⟩
      · cases hj
      · cases hj
        have := h.objs_lt _ _ hm
        exact ⟨e ▸ hps, rfl, (ho _ (by omega)).trans hm⟩
    · have hf := h.tb j o m' (ho j e ▸ hj)
      have := h.objs_lt m' _ hf.2.2
      exact ⟨(hp j e).trans hf.1, hf.2.1, (ho m' (by omega)).trans hf.2.2⟩
  · intro j y hy hj hd
    by_cases e : j = s.next
    · rw [e] at hd
      exact absurd (hd.symm.trans (setAt_same _ _ _)) (by decide)
    · obtain ⟨h1, k, hk⟩ := h.unheld j y hy (ho j e ▸ hj) (hh j e ▸ hd)
      refine ⟨h1, k, ?_⟩
      rw [ho k]
      · exact hk
      · rintro rfl
        rw [hn] at hk
        cases hk
  · intro ht j hj
    by_cases e : j = s.next
    · rw [e, hs]
      rcases hx with rfl | ⟨m, rfl, _⟩
      · exact Or.inl rfl
      · exact Or.inr ⟨m, m, rfl⟩
    · rw [ho j e]
      exact ht j (hp j e ▸ hj)

private theorem release_inv (s : LibState) (m : Nat) (h : MemInv s (some m)) (hm : s.objs m = some .module) :
    ∃ s', s.release m = some s' ∧ MemInv s' none ∧ (MemTight s → MemTight s') := by
  unfold LibState.release
  by_cases hc : (s.held m || s.dependents m) = true
  · rw [if_pos hc]
    refine ⟨s, rfl, ⟨h.objs_lt, h.heap_lt, h.held_obj, h.mod, h.fn, h.tb, ?_⟩, id⟩
    intro j x _ hj hd
    by_cases e : j = m
    · subst e
      rw [hm] at hj
      cases hj
      refine ⟨rfl, (dependents_iff s _ h j).1 ?_⟩
      rw [hd] at hc
      exact hc
    · exact h.unheld j x (fun he => e (Option.some.inj he)) hj hd
  · rw [if_neg hc]
    rw [Bool.or_eq_true, not_or] at hc
    have hr : ¬ Referred s m := fun hr => hc.2 ((dependents_iff s _ h m).2 hr)
    have hf : s.free m = some { s with heap := setAt s.heap m false } := by
      unfold LibState.free
      rw [if_pos (h.mod m hm)]
    rw [hf]
    have ho : ∀ j, j ≠ m → setAt s.objs m none j = s.objs j := fun j hj => setAt_ne _ _ _ _ hj
    have hs : setAt s.objs m none m = none := setAt_same _ _ _
    have hp : ∀ j, j ≠ m → setAt s.heap m false j = s.heap j := fun j hj => setAt_ne _ _ _ _ hj
    have hne : ∀ j x, setAt s.objs m none j = some x → j ≠ m ∧ s.objs j = some x := by
      intro j x hj
      by_cases e : j = m
      · rw [e, hs] at hj; cases hj
      · exact ⟨e, ho j e ▸ hj⟩
    refine ⟨_, rfl, ⟨?_, ?_, ?_, ?_, ?_, ?_, ?_⟩, ?_⟩
    · exact fun j x hj => h.objs_lt j x (hne j x hj).2
    · intro j hj
      by_cases e : j = m
      · rw [e]; exact h.objs_lt m _ hm
      · exact h.heap_lt j (hp j e ▸ hj)
    · intro j hj
      have hj' : s.held j = true := hj
      have e : j ≠ m := fun e => hc.1 (e ▸ hj')
      obtain ⟨x, hx⟩ := h.held_obj j hj'
      exact ⟨x, (ho j e).trans hx⟩
    · intro j hj
      obtain ⟨e, hj⟩ := hne j _ hj
      exact (hp j e).trans (h.mod j hj)
    · intro j o m' hj
      obtain ⟨e, hj'⟩ := hne j _ hj
      obtain ⟨h1, h2⟩ := h.fn j o m' hj'
      refine ⟨h1, (ho m' ?_).trans h2⟩
      rintro rfl
      exact hr ⟨j, by rw [hj', h1]; rfl⟩
    · intro j o m' hj
      obtain ⟨e, hj'⟩ := hne j _ hj
      obtain ⟨h0, h1, h2⟩ := h.tb j o m' hj'
      refine ⟨(hp j e).trans h0, h1, (ho m' ?_).trans h2⟩
      rintro rfl
      exact hr ⟨j, by rw [hj', h1]; rfl⟩
    · intro j x _ hj hd
      obtain ⟨e, hj⟩ := hne j _ hj
      obtain ⟨h1, k, hk⟩ := h.unheld j x (fun he => e (Option.some.inj he)) hj hd
      refine ⟨h1, k, ?_⟩
      have ek : k ≠ m := by
        rintro rfl
        rw [hm] at hk
        cases hk
      show (setAt s.objs m none k).bind _ = _
      rw [ho k ek]
      exact hk
    · intro ht j hj
      have hj' : setAt s.heap m false j = true := hj
      have e : j ≠ m := by
        rintro rfl
        exact absurd (hj'.symm.trans (setAt_same _ _ _)) (by decide)
      have := ht j (hp j e ▸ hj')
      show setAt s.objs m none j = _ ∨ ∃ o m', setAt s.objs m none j = _
      rw [ho j e]
      exact this

/-- The state after a function or table was removed. -/
private theorem remove_inv (s : LibState) (i o : Nat) (hp' : Nat → Bool) (h : MemInv s none) (x : LibObj) (hx : s.objs i = some x)
    (hxo : x.owner? = some o) (hp : ∀ j, j ≠ i → hp' j = s.heap j) (hle : hp' i = true → s.heap i = true) :
    MemInv { s with held := setAt s.held i false, heap := hp', objs := setAt s.objs i none } (some o) ∧
      setAt s.objs i none o = some .module := by
  have ho : ∀ j, j ≠ i → setAt s.objs i none j = s.objs j := fun j hj => setAt_ne _ _ _ _ hj
  have hne : ∀ j x, setAt s.objs i none j = some x → j ≠ i ∧ s.objs j = some x := by
    intro j x hj
    by_cases e : j = i
    · rw [e, setAt_same] at hj; cases hj
    · exact ⟨e, ho j e ▸ hj⟩
  have hh : ∀ j, j ≠ i → setAt s.held i false j = s.held j := fun j hj => setAt_ne _ _ _ _ hj
  have hnm : ∀ m, s.objs m = some .module → m ≠ i := by
    rintro m hm rfl
    rw [hm] at hx
    cases hx
    cases hxo
  have hom : s.objs o = some .module := by
    cases x with
    | module => cases hxo
    | function o' m =>
      cases hxo
      have := h.fn i o m hx
      rw [this.1]; exact this.2
    | table o' m =>
      cases hxo
      have := h.tb i o m hx
      rw [this.2.1]; exact this.2.2
  refine ⟨⟨?_, ?_, ?_, ?_, ?_, ?_, ?_⟩, (ho o (hnm o hom)).trans hom⟩
  · exact fun j x hj => h.objs_lt j x (hne j x hj).2
  · intro j hj
    by_cases e : j = i
    · exact h.heap_lt j (e ▸ hle (e ▸ hj))
    · exact h.heap_lt j (hp j e ▸ hj)
  · intro j hj
    have hj' : setAt s.held i false j = true := hj
    have e : j ≠ i := by
      rintro rfl
      rw [setAt_same] at hj'
      cases hj'
    obtain ⟨x, hx⟩ := h.held_obj j (hh j e ▸ hj')
    exact ⟨x, (ho j e).trans hx⟩
  · intro j hj
    obtain ⟨e, hj⟩ := hne j _ hj
    exact (hp j e).trans (h.mod j hj)
  · intro j o' m' hj
    obtain ⟨e, hj⟩ := hne j _ hj
    obtain ⟨h1, h2⟩ := h.fn j o' m' hj
    exact ⟨h1, (ho m' (hnm m' h2)).trans h2⟩
  · intro j o' m' hj
    obtain ⟨e, hj⟩ := hne j _ hj
    obtain ⟨h0, h1, h2⟩ := h.tb j o' m' hj
    exact ⟨(hp j e).trans h0, h1, (ho m' (hnm m' h2)).trans h2⟩
  · intro j y hjo hj hd
    obtain ⟨e, hj⟩ := hne j _ hj
    obtain ⟨h1, k, hk⟩ := h.unheld j y (fun he => nomatch he) hj (hh j e ▸ hd)
    refine ⟨h1, k, ?_⟩
    have ek : k ≠ i := by
      rintro rfl
      rw [hx] at hk
      exact hjo (hk.symm.trans hxo)
    show (setAt s.objs i none k).bind _ = _
    rw [ho k ek]
    exact hk

private theorem drop_inv (s : LibState) (i : Nat) (h : MemInv s none) :
    ∃ s', s.drop i = some s' ∧ MemInv s' none ∧ (MemTight s → MemTight s') := by
  unfold LibState.drop
  by_cases hi : s.held i = true
  · rw [if_pos hi]
    obtain ⟨x, hx⟩ := h.held_obj i hi
    have ho : ∀ j, j ≠ i → setAt s.objs i none j = s.objs j := fun j hj => setAt_ne _ _ _ _ hj
    cases x with
    | module =>
      simp only [hx]
      refine release_inv _ i ⟨h.objs_lt, h.heap_lt, ?_, h.mod, h.fn, h.tb, ?_⟩ hx
      · intro j hj
        by_cases e : j = i
        · exact ⟨_, e ▸ hx⟩
        · have hj' : setAt s.held i false j = true := hj
          rw [setAt_ne _ _ _ _ e] at hj'
          exact h.held_obj j hj'
      · intro j x hji hj hd
        have e : j ≠ i := fun e => hji (e ▸ rfl)
        have hd' : setAt s.held i false j = false := hd
        rw [setAt_ne _ _ _ _ e] at hd'
        exact h.unheld j x (fun he => nomatch he) hj hd'
    | function o m =>
      simp only [hx]
      obtain ⟨h1, h2⟩ := remove_inv s i o s.heap h _ hx rfl (fun _ _ => rfl) id
      obtain ⟨s', h3, h4, h5⟩ := release_inv _ o h1 h2
      refine ⟨s', h3, h4, fun ht => h5 ?_⟩
      intro j hj
      have e : j ≠ i := by
        rintro rfl
        rcases ht j hj with h | ⟨_, _, h⟩ <;> rw [hx] at h <;> cases h
      show setAt s.objs i none j = _ ∨ ∃ o m, setAt s.objs i none j = _
      rw [ho j e]
      exact ht j hj
    | table o m =>
      simp only [hx]
      have hb := (h.tb i o m hx).1
      have hf : LibState.free { s with held := setAt s.held i false } i =
          some { s with held := setAt s.held i false, heap := setAt s.heap i false } := by
        unfold LibState.free
        rw [if_pos hb]
      rw [hf]
      obtain ⟨h1, h2⟩ := remove_inv s i o (setAt s.heap i false) h _ hx rfl (fun j hj => setAt_ne _ _ _ _ hj) (fun _ => hb)
      obtain ⟨s', h3, h4, h5⟩ := release_inv _ o h1 h2
      refine ⟨s', h3, h4, fun ht => h5 ?_⟩
      intro j hj
      have hj' : setAt s.heap i false j = true := hj
      have e : j ≠ i := by
        rintro rfl
        rw [setAt_same] at hj'
        cases hj'
      rw [setAt_ne _ _ _ _ e] at hj'
      show setAt s.objs i none j = _ ∨ ∃ o m, setAt s.objs i none j = _
      rw [ho j e]
      exact ht j hj'
  · rw [if_neg hi]
    exact ⟨s, rfl, h, id⟩

private theorem libStep_inv (s : LibState) (op : LibOp) (h : MemInv s none) :
    ∃ s', s.step op = some s' ∧ MemInv s' none ∧ ((∀ t, op ≠ .data t) → MemTight s → MemTight s') := by
  have same : ∃ s', some s = some s' ∧ MemInv s' none ∧ ((∀ t, op ≠ .data t) → MemTight s → MemTight s') :=
    ⟨s, rfl, h, fun _ => id⟩
  cases op with
  | load ok =>
    cases ok with
    | true =>
      have := owning_inv s h .module (Or.inl rfl)
      exact ⟨_, rfl, this.1, fun _ => this.2⟩
    | false =>
      obtain ⟨s', h1, h2, h3, _, _⟩ := temp_inv s h
      exact ⟨s', h1, h2, fun _ => h3⟩
  | getFunction m =>
    unfold LibState.step
    simp only
    split
    · rename_i hc
      rw [Bool.and_eq_true, decide_eq_true_eq] at hc
      rw [access_ok s m (h.mod m hc.2)]
      have := plain_inv s h m hc.2
      exact ⟨_, rfl, this.1, fun _ => this.2.1⟩
    · exact same
  | useModule m =>
    unfold LibState.step
    simp only
    split
    · rename_i hc
      rw [Bool.and_eq_true, decide_eq_true_eq] at hc
      rw [access_ok s m (h.mod m hc.2)]
      exact same
    · exact same
  | usingParam m =>
    unfold LibState.step
    simp only
    split
    · rename_i hc
      rw [Bool.and_eq_true, decide_eq_true_eq] at hc
      rw [access_ok s m (h.mod m hc.2)]
      obtain ⟨s', h1, h2, h3, _, _⟩ := temp_inv s h
      exact ⟨s', h1, h2, fun _ => h3⟩
    · exact same
  | useFunction f =>
    unfold LibState.step
    simp only
    split
    · rename_i o m hf
      split
      · rw [access_ok s m (h.mod m (h.fn f o m hf).2)]
        exact same
      · exact same
    · exact same
  | called f n =>
    unfold LibState.step
    simp only
    split
    · rename_i o m hf
      obtain ⟨he, hm⟩ := h.fn f o m hf
      split
      · rw [access_ok s m (h.mod m hm)]
        obtain ⟨s', h1, h2, h3, h4, _⟩ := temp_inv s h
        rw [Option.bind_some, h1, Option.map_some, he]
        have := functions_inv n s' h2 m (by rw [h4]; exact hm)
        exact ⟨_, rfl, this.1, fun _ ht => this.2 (h3 ht)⟩
      · exact same
    · exact same
  | newTable m =>
    unfold LibState.step
    simp only
    split
    · rename_i hc
      rw [Bool.and_eq_true, decide_eq_true_eq] at hc
      rw [access_ok s m (h.mod m hc.2)]
      have := owning_inv s h (.table m m) (Or.inr ⟨m, rfl, hc.2⟩)
      exact ⟨_, rfl, this.1, fun _ => this.2⟩
    · exact same
  | sysctls t =>
    unfold LibState.step
    simp only
    split
    · rename_i o m hf
      obtain ⟨h0, he, hm⟩ := h.tb t o m hf
      split
      · rw [access_ok s t h0, Option.bind_some, access_ok s m (h.mod m hm)]
        obtain ⟨s', h1, h2, h3, _, _⟩ := temp_inv s h
        exact ⟨s', h1, h2, fun _ => h3⟩
      · exact same
    · exact same
  | procFun t =>
    unfold LibState.step
    simp only
    split
    · rename_i o m hf
      obtain ⟨h0, he, hm⟩ := h.tb t o m hf
      split
      · rw [access_ok s t h0, Option.bind_some, access_ok s m (h.mod m hm), he]
        have := plain_inv s h m hm
        exact ⟨_, rfl, this.1, fun _ => this.2.1⟩
      · exact same
    · exact same
  | data t =>
    unfold LibState.step
    simp only
    split
    · rename_i o m hf
      obtain ⟨h0, he, hm⟩ := h.tb t o m hf
      split
      · rw [access_ok s t h0, Option.bind_some, access_ok s m (h.mod m hm)]
        exact ⟨_, rfl, alloc_inv s h, fun hn => absurd rfl (hn t)⟩
      · exact ⟨s, rfl, h, fun _ => id⟩
    · exact ⟨s, rfl, h, fun _ => id⟩
  | drop i =>
    obtain ⟨s', h1, h2, h3⟩ := drop_inv s i h
    exact ⟨s', h1, h2, fun _ => h3⟩

private theorem run_inv (ops : List LibOp) (s : LibState) (h : MemInv s none) :
    ∃ s', s.run ops = some s' ∧ MemInv s' none ∧ (NoData ops → MemTight s → MemTight s') := by
  induction ops generalizing s with
  | nil => exact ⟨s, rfl, h, fun _ => id⟩
  | cons op ops ih =>
    obtain ⟨s1, h1, h2, h3⟩ := libStep_inv s op h
    obtain ⟨s2, h4, h5, h6⟩ := ih s1 h2
    refine ⟨s2, ?_, h5, fun hn ht => h6 (fun t hm => hn t (List.mem_cons_of_mem _ hm)) (h3 ?_ ht)⟩
    · rw [LibState.run, h1, Option.bind_some, h4]
    · rintro t rfl
      exact hn t List.mem_cons_self

private theorem init_inv : MemInv LibState.init none ∧ MemTight LibState.init := by
  refine ⟨⟨?_, ?_, ?_, ?_, ?_, ?_, ?_⟩, ?_⟩ <;> intros <;> simp_all [LibState.init, MemTight]

/-- **C196** Whatever the user does, in any order, no freed memory is used and none is freed twice. -/
theorem C196_safe (ops : List LibOp) : LibState.init.run ops ≠ none := by
  obtain ⟨s, h, _⟩ := run_inv ops _ init_inv.1
  rw [h]
  exact fun he => nomatch he

/-- **C196** (false) All memory that is allocated can still be reached by the user. -/
def C196_statement : Prop :=
  ∀ (ops : List LibOp) (s : LibState), LibState.init.run ops = some s → ∀ b, s.heap b = true → MemReachable s b

/-- The indices of the data of a sysctl are never freed. -/
theorem C196_fails : ¬ C196_statement := by
  intro h
  have := h [.load true, .newTable 0, .data 1, .drop 1, .drop 0] _ rfl 2 (by decide)
  rcases this with h | ⟨i, h, _⟩
  · exact absurd h (by decide)
  · revert h
    show ¬ setAt (setAt (setAt (setAt (fun _ => false) 0 true) 1 true) 1 false) 0 false i = true
    unfold setAt
    by_cases h0 : i = 0 <;> by_cases h1 : i = 1 <;> simp_all

/-- **C196** All memory that is allocated can still be reached by the user, if data and child entries of sysctl tables are not
asked for. Missing: the indices of these entries. -/
theorem C196_reachable_partial (ops : List LibOp) (s : LibState) (h : LibState.init.run ops = some s) (hn : NoData ops) (b : Nat)
    (hb : s.heap b = true) : MemReachable s b := by
  obtain ⟨s', h1, h2, h3⟩ := run_inv ops _ init_inv.1
  rw [h] at h1
  cases h1
  have ht := h3 hn init_inv.2 b hb
  cases hd : s.held b with
  | true => exact Or.inl hd
  | false =>
    rcases ht with ht | ⟨o, m, ht⟩
    · obtain ⟨_, k, hk⟩ := h2.unheld b _ (fun he => nomatch he) ht hd
      have hkh : ∀ x, s.objs k = some x → x ≠ .module → s.held k = true := by
        intro x hx hne
        cases hd' : s.held k with
        | true => rfl
        | false => exact absurd (h2.unheld k x (fun he => nomatch he) hx hd').1 hne
      right
      cases hx : s.objs k with
      | none => rw [hx] at hk; cases hk
      | some x =>
        rw [hx] at hk
        cases x with
        | module => cases hk
        | function o m =>
          cases hk
          exact ⟨k, hkh _ hx (fun he => nomatch he), m, Or.inl hx⟩
        | table o m =>
          cases hk
          exact ⟨k, hkh _ hx (fun he => nomatch he), m, Or.inr hx⟩
    · cases (h2.unheld b _ (fun he => nomatch he) ht hd).1

/-- **C196** What the user can reach is allocated: a module is not freed while there is a function or a table of it. -/
theorem C196_kept (ops : List LibOp) (s : LibState) (h : LibState.init.run ops = some s) (i m o : Nat) (hi : s.held i = true) :
    (s.objs i = some .module → s.heap i = true) ∧ (s.objs i = some (.function o m) → s.heap m = true) ∧
    (s.objs i = some (.table o m) → s.heap i = true ∧ s.heap m = true) := by
  obtain ⟨s', h1, h2, _⟩ := run_inv ops _ init_inv.1
  rw [h] at h1
  cases h1
  exact ⟨h2.mod i, fun hf => h2.mod m (h2.fn i o m hf).2, fun hf => ⟨(h2.tb i o m hf).1, h2.mod m (h2.tb i o m hf).2.2⟩⟩

/-- A function is used after the user gave up its module; the module is freed with the last function. -/
example :
    ((LibState.init.run [.load true, .getFunction 0, .drop 0, .useFunction 1, .called 1 2]).map fun s =>
      (List.range 6).map s.heap) = some [true, false, false, false, false, false] ∧
    ((LibState.init.run [.load true, .getFunction 0, .drop 0, .called 1 1, .drop 1, .drop 3]).map fun s =>
      (List.range 6).map s.heap) = some [false, false, false, false, false, false] ∧
    NoData [.load true, .getFunction 0] := by
  refine ⟨by decide, by decide, ?_⟩
  intro t h
  simp at h

end DK
