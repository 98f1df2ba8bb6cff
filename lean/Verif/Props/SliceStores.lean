import Verif.Spec.SliceStores
import Verif.Props.SliceKeep

/-! Stores to local variables that slicing keeps: C201. -/

set_option autoImplicit false

namespace DK
open Spec

/-- Everything looked at is reached from the worklist by unvisited instructions. -/
private theorem walk_sound (g : AccFun) (w v v0 : List Nat) (i : Nat) (hv : ∀ x ∈ v0, x ∈ v) (h : i ∈ g.walk w v) :
    ∃ c ∈ w, Relation.ReflTransGen (fun x y => y ∈ g.next x ∧ y ∉ v0) c i := by
  induction w, v using AccFun.walk.induct g with
  | case1 v => rw [AccFun.walk] at h; cases h
  | case2 v c w hc ih =>
    rw [AccFun.walk, if_pos hc] at h
    rcases List.mem_cons.1 h with rfl | h
    · exact ⟨_, List.mem_cons_self, .refl⟩
    · obtain ⟨x, hx, hr⟩ := ih (fun x hx => List.mem_cons_of_mem _ (hv x hx)) h
      rcases List.mem_append.1 hx with hx | hx
      · exact ⟨x, List.mem_cons_of_mem _ hx, hr⟩
      · have hx := List.mem_filter.1 hx
        have h2 := hx.2
        rw [decide_eq_true_eq] at h2
        exact ⟨c, List.mem_cons_self, .head ⟨hx.1, fun h => h2.1 (hv x h)⟩ hr⟩
  | case3 v c w hc ih =>
    rw [AccFun.walk, if_neg hc] at h
    obtain ⟨x, hx, hr⟩ := ih hv h
    exact ⟨x, List.mem_cons_of_mem _ hx, hr⟩

/-- What is looked at or visited is closed under going on. -/
private theorem walk_closed (g : AccFun) (w v : List Nat) (hf : ∀ i ∈ g.insts, ∀ j ∈ g.next i, j ∈ g.insts) :
    (∀ c ∈ w, c ∈ g.insts → c ∈ g.walk w v) ∧
    (∀ i ∈ g.walk w v, ∀ j ∈ g.next i, j ∈ v ∨ j ∈ g.walk w v) := by
  induction w, v using AccFun.walk.induct g with
  | case1 v =>
    rw [AccFun.walk]
    exact ⟨fun _ h => (nomatch h), fun _ h => nomatch h⟩
  | case2 v c w hc ih =>
    rw [AccFun.walk, if_pos hc]
    obtain ⟨h1, h2⟩ := ih
    constructor
    · intro x hx hxi
      rcases List.mem_cons.1 hx with rfl | hx
      · exact List.mem_cons_self
      · exact List.mem_cons_of_mem _ (h1 x (List.mem_append.2 (Or.inl hx)) hxi)
    · intro i hi j hj
      rcases List.mem_cons.1 hi with rfl | hi
      · by_cases hjv : j ∈ v
        · exact Or.inl hjv
        · have hji := hf _ hc j hj
          refine Or.inr (List.mem_cons_of_mem _ (h1 j (List.mem_append.2 (Or.inr ?_)) hji))
          exact List.mem_filter.2 ⟨hj, by rw [decide_eq_true_eq]; exact ⟨hjv, hji⟩⟩
      · rcases h2 i hi j hj with h | h
        · rcases List.mem_cons.1 h with rfl | h
          · exact Or.inr List.mem_cons_self
          · exact Or.inl h
        · exact Or.inr (List.mem_cons_of_mem _ h)
  | case3 v c w hc ih =>
    rw [AccFun.walk, if_neg hc]
    obtain ⟨h1, h2⟩ := ih
    refine ⟨fun x hx hxi => ?_, h2⟩
    rcases List.mem_cons.1 hx with rfl | hx
    · exact absurd hxi hc
    · exact h1 x hx hxi

private theorem mem_next (g : AccFun) (x y : Nat) : y ∈ g.next x ↔ y ∈ g.flow x ∧ g.ends x = false := by
  unfold AccFun.next
  cases h : g.ends x <;> simp

/-- The search looks exactly at the instructions on ways that avoid the pointer and the use. -/
private theorem walk_exact (g : AccFun) (start : Nat → Nat) (p use i : Nat)
    (hf : ∀ i ∈ g.insts, ∀ j ∈ g.flow i, j ∈ g.insts) (hs : start p ∈ g.insts) :
    i ∈ g.walk [start p] [use, p] ↔ FlowAvoiding g p use (start p) i := by
  constructor
  · intro h
    obtain ⟨c, hc, hr⟩ := walk_sound g [start p] [use, p] [use, p] i (fun _ h => h) h
    rw [List.mem_singleton] at hc
    subst hc
    clear h
    induction hr with
    | refl => exact .refl
    | tail _ h2 ih =>
      have h3 := (mem_next g _ _).1 h2.1
      have h4 := h2.2
      simp only [List.mem_cons, List.not_mem_nil, or_false, not_or] at h4
      exact Relation.ReflTransGen.tail ih ⟨h3.1, h3.2, h4.2, h4.1⟩
  · intro h
    obtain ⟨c1, c2⟩ := walk_closed g [start p] [use, p] fun i hi j hj => hf i hi j ((mem_next g i j).1 hj).1
    induction h with
    | refl => exact c1 _ List.mem_cons_self hs
    | tail _ h2 ih =>
      refine (c2 _ ih _ ((mem_next g _ _).2 ⟨h2.1, h2.2.1⟩)).resolve_left ?_
      simp only [List.mem_cons, List.not_mem_nil, or_false, not_or]
      exact ⟨h2.2.2.2, h2.2.2.1⟩

private theorem avoiding_in (g : AccFun) (p use a b : Nat) (hf : ∀ i ∈ g.insts, ∀ j ∈ g.flow i, j ∈ g.insts) (ha : a ∈ g.insts)
    (h : FlowAvoiding g p use a b) : b ∈ g.insts := by
  induction h with
  | refl => exact ha
  | tail _ h2 ih => exact hf _ ih _ h2.1

/-- What is found for a list of instructions. -/
private theorem found_fold (g : AccFun) (start : Nat → Nat) (use d p : Nat) (ws acc l : List Nat)
    (h : ws.foldlM (fun acc i =>
      let own := if g.touches i p then [i] else []
      if g.derives i p then (AccFun.findStores g start use d i).map fun l => acc ++ own ++ l else some (acc ++ own)) acc = some l) :
    ∀ s, s ∈ l ↔ s ∈ acc ∨ (s ∈ ws ∧ g.touches s p = true) ∨
      ∃ i ∈ ws, g.derives i p = true ∧ ∃ l', AccFun.findStores g start use d i = some l' ∧ s ∈ l' := by
  induction ws generalizing acc with
  | nil =>
    cases h
    intro s
    simp
  | cons i ws ih =>
    rw [List.foldlM_cons] at h
    intro s
    have hown : s ∈ (if g.touches i p then [i] else []) ↔ s = i ∧ g.touches s p = true := by
      split
      · rename_i ht
        rw [List.mem_singleton]
        exact ⟨fun h => ⟨h, h ▸ ht⟩, fun h => h.1⟩
      · rename_i ht
        exact ⟨fun h => (nomatch h), fun h => absurd (h.1 ▸ h.2) ht⟩
    dsimp only at h
    by_cases hd : g.derives i p = true
    · rw [if_pos hd] at h
      cases hl : AccFun.findStores g start use d i with
      | none => rw [hl] at h; cases h
      | some l1 =>
        rw [hl] at h
        rw [ih _ h s]
        simp only [List.mem_append, List.mem_cons, hown]
        constructor
        · rintro (((h | h) | h) | h | ⟨x, hx, h⟩)
          · exact Or.inl h
          · exact Or.inr (Or.inl ⟨Or.inl h.1, h.2⟩)
          · exact Or.inr (Or.inr ⟨i, Or.inl rfl, hd, l1, hl, h⟩)
          · exact Or.inr (Or.inl ⟨Or.inr h.1, h.2⟩)
          · exact Or.inr (Or.inr ⟨x, Or.inr hx, h⟩)
        · rintro (h | ⟨h | h, ht⟩ | ⟨x, rfl | hx, h1, l', h2, h3⟩)
          · exact Or.inl (Or.inl (Or.inl h))
          · exact Or.inl (Or.inl (Or.inr ⟨h, ht⟩))
          · exact Or.inr (Or.inl ⟨h, ht⟩)
          · rw [hl] at h2
            cases h2
            exact Or.inl (Or.inr h3)
          · exact Or.inr (Or.inr ⟨x, hx, h1, l', h2, h3⟩)
    · rw [if_neg hd] at h
      rw [ih _ h s]
      simp only [List.mem_append, List.mem_cons, hown]
      constructor
      · rintro ((h | h) | h | ⟨x, hx, h⟩)
        · exact Or.inl h
        · exact Or.inr (Or.inl ⟨Or.inl h.1, h.2⟩)
        · exact Or.inr (Or.inl ⟨Or.inr h.1, h.2⟩)
        · exact Or.inr (Or.inr ⟨x, Or.inr hx, h⟩)
      · rintro (h | ⟨h | h, ht⟩ | ⟨x, rfl | hx, h1, h2⟩)
        · exact Or.inl (Or.inl h)
        · exact Or.inl (Or.inr ⟨h, ht⟩)
        · exact Or.inr (Or.inl ⟨h, ht⟩)
        · exact absurd h1 hd
        · exact Or.inr (Or.inr ⟨x, hx, h1, h2⟩)

/-- All recursive searches of a search have a result. -/
private theorem found_inner (g : AccFun) (start : Nat → Nat) (use d p : Nat) (ws acc l : List Nat)
    (h : ws.foldlM (fun acc i =>
      let own := if g.touches i p then [i] else []
      if g.derives i p then (AccFun.findStores g start use d i).map fun l => acc ++ own ++ l else some (acc ++ own)) acc = some l) :
    ∀ i ∈ ws, g.derives i p = true → ∃ l', AccFun.findStores g start use d i = some l' := by
  induction ws generalizing acc with
  | nil => exact fun _ h => nomatch h
  | cons x ws ih =>
    rw [List.foldlM_cons] at h
    dsimp only at h
    intro i hi hd
    rcases List.mem_cons.1 hi with rfl | hi
    · rw [if_pos hd] at h
      cases hl : AccFun.findStores g start use d i with
      | none => rw [hl] at h; cases h
      | some l1 => exact ⟨l1, rfl⟩
    · by_cases hx : g.derives x p = true
      · rw [if_pos hx] at h
        cases hl : AccFun.findStores g start use d x with
        | none => rw [hl] at h; cases h
        | some l1 => rw [hl] at h; exact ih _ h i hi hd
      · rw [if_neg hx] at h
        exact ih _ h i hi hd

/-- **C201** (false) For a local variable, every store to it is kept that may be executed after the variable is allocated and before
its use. -/
def C201_statement : Prop :=
  ∀ (g : AccFun) (start : Nat → Nat) (use d p : Nat) (l : List Nat), AccOk g start → p ∈ g.insts → g.ends p = false →
    g.findStores start use d p = some l → ∀ s, g.touches s p = true → FlowTo g (start p) s → FlowTo g s use → s ∈ l

namespace SliceStoresEx

/-- `int a; do { g(a); a = 1; } while (c);`: allocation 0, branch 1, use 2, store 3, branch 4 to 2 or 5. -/
def looping : AccFun where
  insts := [0, 1, 2, 3, 4, 5]
  flow := fun i => match i with | 0 => [1] | 1 => [2] | 2 => [3] | 3 => [4] | 4 => [2, 5] | _ => []
  ends := fun i => decide (i = 5)
  touches := fun i p => decide (i = 3 ∧ p = 0)
  derives := fun _ _ => false

/-- `int a; switch (c) { case 1: a = 1; } g(a);`: allocation 0, switch 1, store 2, branch 3, use 4, end 5. -/
def switching : AccFun where
  insts := [0, 1, 2, 3, 4, 5]
  flow := fun i => match i with | 0 => [1] | 1 => [2, 4] | 2 => [3] | 3 => [4] | 4 => [5] | _ => []
  ends := fun i => decide (i = 1 ∨ i = 5)
  touches := fun i p => decide (i = 2 ∧ p = 0)
  derives := fun _ _ => false

/-- `int a[2]; q = &a[1]; *q = 1; if (c) h(a); g(a);`: allocation 0, pointer 1, store 2, branch 3, call 4, branch 5, use 6, end 7. -/
def pointing : AccFun where
  insts := [0, 1, 2, 3, 4, 5, 6, 7]
  flow := fun i => match i with | 3 => [4, 6] | 7 => [] | i => if i < 7 then [i + 1] else []
  ends := fun i => decide (i = 7)
  touches := fun i p => decide ((i = 2 ∧ p = 1) ∨ (i = 4 ∧ p = 0))
  derives := fun i p => decide (i = 1 ∧ p = 0)

end SliceStoresEx

/-- The store in a loop is seen by the use in the next round, but the search stops at the use. -/
theorem C201_fails : ¬ C201_statement := by
  intro h
  have hl : SliceStoresEx.looping.findStores (· + 1) 2 2 0 = some [] := by
    simp [AccFun.findStores, AccFun.walk, AccFun.next, SliceStoresEx.looping]
  have := h SliceStoresEx.looping (· + 1) 2 2 0 [] ⟨by decide, by decide, by
    intro p i h; simp [SliceStoresEx.looping] at h; rw [h.2]; rfl⟩ (by decide) (by decide) hl 3 (by decide)
    (((Relation.ReflTransGen.single (b := 2) (by decide)).tail (c := 3) (by decide)))
    (((Relation.ReflTransGen.single (b := 4) (by decide)).tail (c := 2) (by decide)))
  cases this

/-- The search does not go on behind a switch. -/
theorem C201_fails_switch : ∃ l, SliceStoresEx.switching.findStores (· + 1) 4 2 0 = some l ∧
    FlowTo SliceStoresEx.switching 1 2 ∧ FlowTo SliceStoresEx.switching 2 4 ∧
    SliceStoresEx.switching.touches 2 0 = true ∧ 2 ∉ l := by
  refine ⟨[], by simp [AccFun.findStores, AccFun.walk, AccFun.next, SliceStoresEx.switching], Relation.ReflTransGen.single (by decide),
    (Relation.ReflTransGen.single (b := 3) (by decide)).tail (c := 4) (by decide), by decide, fun h => nomatch h⟩

/-- **C201 (partial)** Exactly those stores and calls are found to which a way leads without a switch and without the use, also for
pointers that are derived from the variable. Missing: ways with switches, and ways that come to the use more than once. -/
theorem C201_found_partial (g : AccFun) (start : Nat → Nat) (use d p : Nat) (l : List Nat) (hok : AccOk g start)
    (hp : p ∈ g.insts) (he : g.ends p = false) (hder : ∀ i q, g.derives i q = true → g.ends i = false)
    (h : g.findStores start use d p = some l) (s : Nat) : s ∈ l ↔ StoreBefore g start use p s := by
  induction d generalizing p l with
  | zero => cases h
  | succ d ih =>
    have hs := hok.inside p hp he
    have hw := fun i => walk_exact g start p use i hok.flow hs
    have hin := found_inner g start use d p _ _ _ h
    rw [found_fold g start use d p _ _ _ h s]
    constructor
    · rintro (h | ⟨h1, h2⟩ | ⟨i, hi, hd, l', hl', hsl⟩)
      · cases h
      · exact .direct p s ((hw s).1 h1) h2
      · have hfi := (hw i).1 hi
        refine .derived p i s hfi hd ((ih i l' (avoiding_in g p use _ i hok.flow hs hfi) (hder i p hd) hl').1 hsl)
    · intro hst
      cases hst with
      | direct _ _ h1 h2 => exact Or.inr (Or.inl ⟨(hw s).2 h1, h2⟩)
      | derived _ i _ h1 hd h2 =>
        have hi := (hw i).2 h1
        obtain ⟨l', hl'⟩ := hin i hi hd
        exact Or.inr (Or.inr ⟨i, hi, hd, l', hl',
          (ih i l' (avoiding_in g p use _ i hok.flow hs h1) (hder i p hd) hl').2 h2⟩)

/-- **C201 (the search ends)** If derived pointers have higher numbers than those they come from, as is the case for a numbering that
follows the definitions, the recursion ends. -/
theorem C201_ends (g : AccFun) (start : Nat → Nat) (use p : Nat) (rank : Nat → Nat) (r : Nat) (hr : ∀ i, rank i ≤ r)
    (hd : ∀ i q, g.derives i q = true → rank q < rank i) : ∃ l, g.findStores start use (r + 1 - rank p) p = some l := by
  have hall : ∀ d p, r < rank p + d → ∃ l, g.findStores start use d p = some l := by
    intro d
    induction d with
    | zero => intro p h; have := hr p; omega
    | succ d ih =>
      intro p h
      unfold AccFun.findStores
      suffices hw : ∀ ws acc : List Nat, ∃ l, ws.foldlM (fun acc i =>
          let own := if g.touches i p then [i] else []
          if g.derives i p then (AccFun.findStores g start use d i).map fun l => acc ++ own ++ l else some (acc ++ own)) acc =
          some l from hw _ _
      intro ws
      induction ws with
      | nil => exact fun acc => ⟨acc, rfl⟩
      | cons i ws ihw =>
        intro acc
        rw [List.foldlM_cons]
        dsimp only
        by_cases hi : g.derives i p = true
        · rw [if_pos hi]
          have := hd i p hi
          obtain ⟨l, hl⟩ := ih i (by omega)
          rw [hl]
          exact ihw _
        · rw [if_neg hi]
          exact ihw _
  have := hr p
  exact hall _ p (by omega)

/-- **C201 (kept, partial)** In the second phase, all these stores are kept with an instruction that uses the local variable, if the stores
that are included there are those found by the search. -/
theorem C201_kept_partial (f : SlFun) (dep base : List Nat) (exit : Option Nat) (n : Nat) (st : SlSt) (g : AccFun)
    (start : Nat → Nat) (d : Nat) (hw : SlWellFormed f dep) (hok : AccOk g start)
    (hder : ∀ i q, g.derives i q = true → g.ends i = false) (h : secondPhase f dep base exit n = some st)
    (hst : ∀ a i, f.alloca a = true → g.findStores start i d a = some (f.stores a i)) (i a s : Nat) (hi : i ∈ st.inc)
    (hp : f.phi i = false) (ha : a ∈ f.ops i) (hal : f.alloca a = true) (hg : a ∈ g.insts) (he : g.ends a = false)
    (hs : StoreBefore g start i a s) : s ∈ st.inc :=
  C199_stores f dep base exit n st hw h i a s hi hp ha hal
    ((C201_found_partial g start i d a _ hok hg he hder (hst a i hal) s).2 hs)

/-- The store through the derived pointer and the call are found. -/
example : SliceStoresEx.pointing.findStores (· + 1) 6 3 0 = some [2, 4] ∧ AccOk SliceStoresEx.pointing (· + 1) := by
  refine ⟨by simp [AccFun.findStores, AccFun.walk, AccFun.next, SliceStoresEx.pointing], by decide, by decide, ?_⟩
  intro p i h
  simp [SliceStoresEx.pointing] at h
  rcases h with (h | h) | h <;> (rw [h.2]; rfl)

/-- The hypotheses of the combined theorem: the function `pointing` with the stores that the search finds. -/
example : ∃ f : SlFun, SlWellFormed f [6] ∧ f.alloca 0 = true ∧ 0 ∈ f.ops 6 ∧
    (∀ a i, f.alloca a = true → SliceStoresEx.pointing.findStores (· + 1) i 9 a = some (f.stores a i)) ∧
    StoreBefore SliceStoresEx.pointing (· + 1) 6 0 2 := by
  have hends : ∀ i, ∃ l, SliceStoresEx.pointing.findStores (· + 1) i 9 0 = some l := by
    intro i
    have := C201_ends SliceStoresEx.pointing (· + 1) i 0 (fun x => if x = 1 then 8 else 0) 8 (by intro x; split <;> omega)
      (by intro x q hx; simp [SliceStoresEx.pointing] at hx; simp [hx.1, hx.2])
    simpa using this
  choose l hl using hends
  refine ⟨{ blocks := [0], succ := fun _ => [], branch := fun _ => false, insts := fun _ => SliceStoresEx.pointing.insts,
            term := fun _ => 7, ops := fun i => if i = 6 then [0] else [], alloca := fun i => decide (i = 0), phi := fun _ => false,
            stores := fun _ i => l i, blockOf := fun _ => 0 }, ⟨?_, ?_, ?_⟩, rfl, by simp, ?_, ?_⟩
  · intro a _ b hb
    cases hb
  · intro b _ hb
    cases hb
  · intro i hi
    exact ⟨0, by simp, by simp at hi; rw [hi]; show 6 ∈ SliceStoresEx.pointing.insts; decide⟩
  · intro a i ha
    simp at ha
    rw [ha]
    exact hl i
  · refine .derived 0 1 2 .refl (by decide) (.direct 1 2 .refl (by decide))

end DK
