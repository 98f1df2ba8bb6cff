import Verif.Lemmas.LoadSearch

/-!
Lemmas about skipped loads: the search ends, and what a successful search means for all runs.
-/

set_option autoImplicit false

namespace DK
open Spec

/-! ### The search ends -/

/-- The number of blocks that have not been visited. -/
def unvisited (f : MFun) (vis : List Nat) : Nat := ((List.range f.length).filter fun x => !vis.contains x).length

theorem preds_lt {f : MFun} {a b : Nat} (h : a ∈ f.preds b) : a < f.length := by
  simp only [MFun.preds, List.mem_filter, List.mem_range] at h
  exact h.1

theorem filter_cons_lt : ∀ (l vis : List Nat) (b : Nat), b ∈ l → b ∉ vis →
    (l.filter fun x => !(b :: vis).contains x).length < (l.filter fun x => !vis.contains x).length := by
  intro l
  induction l with
  | nil => intro vis b h; simp at h
  | cons a l ih =>
    intro vis b h hb
    have hle : (l.filter fun x => !(b :: vis).contains x).length ≤ (l.filter fun x => !vis.contains x).length := by
      apply List.Sublist.length_le
      apply List.monotone_filter_right
      intro x hx
      simp at hx ⊢
      exact hx.2
    by_cases hab : a = b
    · subst hab
      rw [List.filter_cons_of_neg (by simp), List.filter_cons_of_pos (by simpa using hb)]
      simp only [List.length_cons]
      omega
    · have hbl : b ∈ l := by
        rcases List.mem_cons.1 h with h | h
        · exact absurd h.symm hab
        · exact h
      have := ih vis b hbl hb
      by_cases hv : a ∈ vis
      · rw [List.filter_cons_of_neg (by simp [hv]), List.filter_cons_of_neg (by simp [hv])]
        exact this
      · rw [List.filter_cons_of_pos (by simp [hv, hab]), List.filter_cons_of_pos (by simp [hv])]
        simp only [List.length_cons]
        omega

theorem queue_measure {f : MFun} : ∀ (ps vis : List Nat), (∀ x ∈ ps, x < f.length) →
    unvisited f (queuePreds ps vis).1 + (queuePreds ps vis).2.length ≤ unvisited f vis := by
  intro ps
  induction ps with
  | nil => intro vis _; simp [queuePreds]
  | cons b bs ih =>
    intro vis h
    by_cases hb : b ∈ vis
    · have hq : queuePreds (b :: bs) vis = queuePreds bs vis := by simp [queuePreds, hb]
      rw [hq]
      exact ih vis fun x hx => h x (List.mem_cons_of_mem _ hx)
    · have hq : queuePreds (b :: bs) vis =
          ((queuePreds bs (b :: vis)).1, b :: (queuePreds bs (b :: vis)).2) := by simp [queuePreds, hb]
      rw [hq]
      have h1 := ih (b :: vis) fun x hx => h x (List.mem_cons_of_mem _ hx)
      have h2 : unvisited f (b :: vis) < unvisited f vis :=
        filter_cons_lt _ vis b (by simpa using h b List.mem_cons_self) hb
      simp only [List.length_cons]
      omega

theorem search_ends {f : MFun} {ign : Nat → Bool} {p : MPtr} : ∀ (fuel : Nat) (start : Option Nat)
    (queue vis : List Nat) (repl : Option MVal), unvisited f vis + queue.length < fuel →
    (skipSearch f ign p fuel start queue vis repl).isSome = true := by
  intro fuel
  induction fuel with
  | zero => intro start queue vis repl h; omega
  | succ fuel ih =>
    intro start queue vis repl h
    cases queue with
    | nil => rfl
    | cons b queue =>
      simp only [skipSearch]
      split
      · rfl
      · split
        · rfl
        · exact ih _ _ _ _ (by simp only [List.length_cons] at h; omega)
      · split
        · rfl
        · have := queue_measure (f := f) (f.preds b) vis fun x hx => preds_lt hx
          exact ih _ _ _ _ (by simp only [List.length_cons, List.length_append] at h ⊢; omega)

/-! ### Runs -/

theorem preds_empty {f : MFun} (h : ∀ a, a < f.length → 0 ∉ f.succs a) : f.preds 0 = [] := by
  simp only [MFun.preds, List.filter_eq_nil_iff, List.mem_range]
  intro a ha
  simp only [List.contains_eq_mem, decide_eq_true_eq]
  exact h a ha

/-- Positions from which the way back leads to the candidate. -/
def Walkable (b j : Nat) (vis : List Nat) (K k : Nat) (Y n : Nat) : Prop :=
  Y ∈ vis ∧ (Y = K → k < n ∧ (Y = b → n ≤ j))

theorem executed_next {f : MFun} {path : List Nat} {a b m : Nat} :
    executed f (path ++ [a]) b m = executed f path a (f.insts a).length ++ (f.insts b).take m := by
  simp [executed, List.take_length]

theorem take_split {l : List MInst} {k m : Nat} {C : MInst} (h : l[k]? = some C) (hk : k < m) :
    l.take m = l.take k ++ C :: (l.drop (k + 1)).take (m - (k + 1)) := by
  obtain ⟨hlt, rfl⟩ := List.getElem?_eq_some_iff.1 h
  have h1 : l.take m = l.take (k + (m - k)) := by congr 1; omega
  rw [h1, List.take_add]
  congr 1
  rw [List.drop_eq_getElem_cons hlt]
  have : m - k = (m - (k + 1)) + 1 := by omega
  rw [this, List.take_succ_cons]

/-- Every run to such a position has passed the candidate, and afterwards nothing stored to the pointer. -/
theorem walk_back {f : MFun} {ign : Nat → Bool} {p : MPtr} {b j : Nat} {v : MVal} {vis : List Nat}
    {K k : Nat} {C : MInst} (cov : Covered f ign p b j v vis K k C)
    (hent : ∀ a, a < f.length → 0 ∉ f.succs a)
    (htail : ∀ i ∈ (f.insts b).drop j, mayStoreTo i p = false) :
    ∀ {path : List Nat} {X : Nat}, RunTo f path X → ∀ m, m ≤ (f.insts X).length → Walkable b j vis K k X m →
    ∃ path' S2, RunTo f path' K ∧ executed f path X m = executed f path' K k ++ C :: S2 ∧
      (∀ i ∈ S2, mayStoreTo i p = false) ∧
      ∀ A i B, S2 = A ++ i :: B → ∃ path2 Y n, RunTo f path2 Y ∧ (f.insts Y)[n]? = some i ∧
        Walkable b j vis K k Y n := by
  have hC : (f.insts K)[k]? = some C := by
    have h := cov.cand.1
    unfold region at h
    split at h
    · rw [List.getElem?_take] at h
      split at h
      · exact h
      · cases h
    · exact h
  have clean : ∀ X ∈ vis, X ≠ K → ∀ i ∈ f.insts X, mayStoreTo i p = false := by
    intro X hX hne i hi
    have h1 := (cov.rest X hX hne).1
    by_cases hXb : X = b
    · subst hXb
      rw [← List.take_append_drop j (f.insts X)] at hi
      rcases List.mem_append.1 hi with hi | hi
      · exact h1 i (by simpa [region] using hi)
      · exact htail i hi
    · exact h1 i (by simpa [region, hXb] using hi)
  have main : ∀ {path : List Nat} {X : Nat}, RunTo f path X → ∀ m, m ≤ (f.insts X).length →
      Walkable b j vis K k X m → X = K →
      ∃ path' S2, RunTo f path' K ∧ executed f path X m = executed f path' K k ++ C :: S2 ∧
      (∀ i ∈ S2, mayStoreTo i p = false) ∧
      ∀ A i B, S2 = A ++ i :: B → ∃ path2 Y n, RunTo f path2 Y ∧ (f.insts Y)[n]? = some i ∧
        Walkable b j vis K k Y n := by
    intro path X hrun m hm hw hXK
    subst hXK
    obtain ⟨hkm, hbj⟩ := hw.2 rfl
    refine ⟨path, ((f.insts X).drop (k + 1)).take (m - (k + 1)), hrun, ?_, ?_, ?_⟩
    · simp only [executed, List.append_assoc]
      congr 1
      exact take_split hC hkm
    · intro i hi
      apply cov.cand.2.2 i
      by_cases hXb : X = b
      · have := hbj hXb
        simp only [region, hXb, if_true]
        rw [hXb] at hi
        rw [List.drop_take]
        exact (List.take_sublist_take_left (by omega)).subset hi
      · simp only [region, hXb, if_false]
        exact List.mem_of_mem_take hi
    · intro A i B hS
      have hlen : A.length < m - (k + 1) ∧ ((f.insts X).drop (k + 1))[A.length]? = some i := by
        have h2 : (((f.insts X).drop (k + 1)).take (m - (k + 1)))[A.length]? = some i := by
          rw [hS]; simp
        rw [List.getElem?_take] at h2
        split at h2
        · rename_i hlt
          exact ⟨hlt, h2⟩
        · cases h2
      refine ⟨path, X, k + 1 + A.length, hrun, ?_, hw.1, ?_⟩
      · rw [← List.getElem?_drop]; exact hlen.2
      · intro _
        refine ⟨by omega, ?_⟩
        intro hb
        have := hbj hb
        omega
  intro path X hrun
  induction hrun with
  | entry =>
    intro m hm hw
    by_cases hXK : 0 = K
    · exact main .entry m hm hw hXK
    · exact absurd (preds_empty hent) (cov.rest 0 hw.1 hXK).2.1
  | @next path a X hrun ha hsucc ih =>
    intro m hm hw
    by_cases hXK : X = K
    · exact main (.next hrun ha hsucc) m hm hw hXK
    · have hap : a ∈ f.preds X := by
        simp only [MFun.preds, List.mem_filter, List.mem_range]
        exact ⟨ha, by simpa using hsucc⟩
      have hav : a ∈ vis := (cov.rest X hw.1 hXK).2.2 a hap
      have hwa : Walkable b j vis K k a (f.insts a).length := by
        refine ⟨hav, ?_⟩
        intro haK
        refine ⟨?_, ?_⟩
        · rw [haK]
          exact (List.getElem?_eq_some_iff.1 hC).1
        · intro hab
          have hKb : K = b := by omega
          have := cov.only hKb X hw.1
          omega
      obtain ⟨path', S2, h1, h2, h3, h4⟩ := ih (f.insts a).length (Nat.le_refl _) hwa
      refine ⟨path', S2 ++ (f.insts X).take m, h1, ?_, ?_, ?_⟩
      · rw [executed_next, h2]
        simp
      · intro i hi
        rcases List.mem_append.1 hi with hi | hi
        · exact h3 i hi
        · exact clean X hw.1 hXK i (List.mem_of_mem_take hi)
      · intro A i B hS
        have hget : (S2 ++ (f.insts X).take m)[A.length]? = some i := by rw [hS]; simp
        by_cases hlt : A.length < S2.length
        · rw [List.getElem?_append_left hlt] at hget
          obtain ⟨hl, he⟩ := List.getElem?_eq_some_iff.1 hget
          refine h4 (S2.take A.length) i (S2.drop (A.length + 1)) ?_
          rw [← he, ← List.drop_eq_getElem_cons hl, List.take_append_drop]
        · rw [List.getElem?_append_right (by omega), List.getElem?_take] at hget
          split at hget
          · refine ⟨path ++ [a], X, A.length - S2.length, .next hrun ha hsucc, hget, hw.1, ?_⟩
            intro h; exact absurd h hXK
          · cases hget

/-- An executed instruction has a position at which a shorter run arrives. -/
theorem executed_mem {f : MFun} : ∀ {path : List Nat} {X : Nat}, RunTo f path X → ∀ (m : Nat) (d : MInst),
    d ∈ executed f path X m → ∃ path2 Y n, RunTo f path2 Y ∧ (f.insts Y)[n]? = some d ∧
      (executed f path2 Y n).length < (executed f path X m).length := by
  have here : ∀ {path : List Nat} {X : Nat}, RunTo f path X → ∀ (m : Nat) (d : MInst),
      d ∈ (f.insts X).take m → ∃ path2 Y n, RunTo f path2 Y ∧ (f.insts Y)[n]? = some d ∧
      (executed f path2 Y n).length < (executed f path X m).length := by
    intro path X hrun m d hd
    obtain ⟨n, hn⟩ := List.mem_iff_getElem?.1 hd
    rw [List.getElem?_take] at hn
    split at hn
    · rename_i hlt
      refine ⟨path, X, n, hrun, hn, ?_⟩
      have := (List.getElem?_eq_some_iff.1 hn).1
      simp only [executed, List.length_append, List.length_take]
      omega
    · cases hn
  intro path X hrun
  induction hrun with
  | entry =>
    intro m d hd
    simp only [executed, List.flatMap_nil, List.nil_append] at hd
    exact here .entry m d hd
  | @next path a X hrun ha hsucc ih =>
    intro m d hd
    rw [executed_next] at hd
    rcases List.mem_append.1 hd with hd | hd
    · obtain ⟨p2, Y, n, h1, h2, h3⟩ := ih _ d hd
      refine ⟨p2, Y, n, h1, h2, ?_⟩
      rw [executed_next, List.length_append]
      omega
    · exact here (.next hrun ha hsucc) m d hd

/-- Nothing that the candidate uses is computed anew between the candidate and the load. -/
theorem no_redefinition {f : MFun} {args : List Nat} {ign : Nat → Bool} {p : MPtr} {b j : Nat} {v : MVal}
    {vis : List Nat} {K k : Nat} {C : MInst} (ssa : SSA f args) (cov : Covered f ign p b j v vis K k C)
    (htail : ∀ i ∈ (f.insts b).drop j, mayStoreTo i p = false) (hC : (f.insts K)[k]? = some C)
    {x : Nat} (hx : x ∈ usedBy C) {Y n : Nat} {D : MInst} (hD : (f.insts Y)[n]? = some D)
    (hdef : defines D = some x) (hw : Walkable b j vis K k Y n ∨ (Y = K ∧ n = k)) :
    ∀ {path : List Nat}, RunTo f path Y → False := by
  have main : ∀ (N : Nat) {path : List Nat}, RunTo f path Y → (executed f path Y n).length ≤ N → False := by
    intro N
    induction N with
    | zero =>
      intro path hrun hN
      rcases hw with hw | ⟨rfl, rfl⟩
      · obtain ⟨p', S2, _, h2, _⟩ := walk_back cov ssa.entry htail hrun n
          (Nat.le_of_lt (List.getElem?_eq_some_iff.1 hD).1) hw
        rw [h2] at hN
        simp at hN
      · rcases ssa.dom path Y n D hrun hD x (by rw [hD] at hC; cases hC; exact hx) with h | ⟨d, hd, _⟩
        · exact ssa.params Y n D x hD hdef h
        · have := List.length_pos_of_mem hd
          omega
    | succ N ih =>
      intro path hrun hN
      have key : ∃ pathK, RunTo f pathK K ∧
          (executed f pathK K k).length ≤ (executed f path Y n).length := by
        rcases hw with hw | ⟨rfl, rfl⟩
        · obtain ⟨p', S2, h1, h2, _⟩ := walk_back cov ssa.entry htail hrun n
            (Nat.le_of_lt (List.getElem?_eq_some_iff.1 hD).1) hw
          refine ⟨p', h1, ?_⟩
          rw [h2, List.length_append]
          omega
        · exact ⟨path, hrun, Nat.le_refl _⟩
      obtain ⟨pK, hpK, hle⟩ := key
      rcases ssa.dom pK K k C hpK hC x hx with h | ⟨d, hd, hdx⟩
      · exact ssa.params Y n D x hD hdef h
      · obtain ⟨p2, Y2, n2, h1, h2, h3⟩ := executed_mem hpK k d hd
        obtain ⟨e1, e2⟩ := ssa.once Y2 n2 Y n d D x h2 hD hdx hdef
        subst e1 e2
        exact ih h1 (by omega)
  intro path hrun
  exact main _ hrun (Nat.le_refl _)

/-! ### Memory -/

theorem env_step {M : MMach} {s : MSt} {i : MInst} {x : Nat} (h : defines i ≠ some x) :
    (stepM M s i).env x = s.env x := by
  cases i with
  | load id p w =>
    simp only [stepM]
    rw [if_neg]
    intro h'; exact h (by simp [defines, h'])
  | store id v p w => rfl
  | call id debug args =>
    simp only [stepM]
    split
    · rfl
    · rename_i hd
      simp only
      rw [if_neg]
      intro h'; exact h (by simp [defines, h', hd])
  | atomic id p w =>
    simp only [stepM]
    rw [if_neg]
    intro h'; exact h (by simp [defines, h'])
  | op id args =>
    simp only [stepM]
    rw [if_neg]
    intro h'; exact h (by simp [defines, h'])

theorem env_run {M : MMach} {x : Nat} : ∀ (is : List MInst) (s : MSt), (∀ i ∈ is, defines i ≠ some x) →
    (runM M s is).env x = s.env x := by
  intro is
  induction is with
  | nil => intro s _; rfl
  | cons i is ih =>
    intro s h
    simp only [runM, List.foldl_cons]
    have := ih (stepM M s i) fun j hj => h j (List.mem_cons_of_mem _ hj)
    rw [runM] at this
    rw [this]
    exact env_step (h i List.mem_cons_self)

theorem read_write_same (m : Mem) (a : MV) (l : List Nat) : readBytes (writeBytes m a l) a l.length = l := by
  apply List.ext_getElem
  · simp [readBytes]
  · intro n h1 h2
    have h3 : (a.2 + (n : Int) - a.2).toNat = n := by omega
    have h4 : a.2 ≤ a.2 + (n : Int) := by omega
    simp only [readBytes, List.getElem_map, List.getElem_range, writeBytes, h3, h4, and_self, if_true]
    simp [List.getElem?_eq_getElem h2]

theorem read_write_apart {m : Mem} {a b : MV} {l : List Nat} {w : Nat} (h : Apart a l.length b w) :
    readBytes (writeBytes m a l) b w = readBytes m b w := by
  apply List.map_congr_left
  intro n hn
  simp only [List.mem_range] at hn
  simp only [writeBytes]
  split
  · rename_i hc
    obtain ⟨h1, h2⟩ := hc
    rcases h with h | h | h
    · exact absurd h1.symm h
    · rw [List.getElem?_eq_none (by omega)]
      rfl
    · omega
  · rfl

end DK
