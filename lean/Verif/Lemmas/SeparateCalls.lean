import Verif.Spec.SeparateCalls

/-!
Lemmas: runs of functions whose calls were separated from casts.
-/

set_option autoImplicit false

namespace DK
open Spec

/-- A later state: added replacements are names between the next names. -/
def LaterSep (s t : SepSt) : Prop :=
  s.next ≤ t.next ∧ ∃ new, t.map = new ++ s.map ∧ ∀ x ∈ new, ∃ j ty, x.2 = BVal.ref j ty ∧ s.next ≤ j ∧ j < t.next

theorem later_refl (s : SepSt) : LaterSep s s := ⟨le_refl _, [], rfl, fun _ h => (nomatch h)⟩

theorem later_trans {s t u : SepSt} (h : LaterSep s t) (h' : LaterSep t u) : LaterSep s u := by
  obtain ⟨a, n, e, p⟩ := h
  obtain ⟨b, n', e', p'⟩ := h'
  refine ⟨le_trans a b, n' ++ n, by rw [e', e, List.append_assoc], fun x hx => ?_⟩
  rcases List.mem_append.mp hx with hx | hx
  · obtain ⟨j, ty, q, r, w⟩ := p' x hx
    exact ⟨j, ty, q, le_trans a r, w⟩
  · obtain ⟨j, ty, q, r, w⟩ := p x hx
    exact ⟨j, ty, q, r, lt_of_lt_of_le w b⟩

theorem sepArgs_next : ∀ (ps : List CTy) (as : List BVal) (n : Nat), n ≤ (sepArgs n ps as).2.2
  | [], _, n => by simp [sepArgs]
  | _ :: _, [], n => by simp [sepArgs]
  | p :: ps, a :: as, n => by
    simp only [sepArgs]
    split
    · exact sepArgs_next ps as n
    · exact le_trans (Nat.le_succ n) (sepArgs_next ps as (n + 1))

theorem sepRet_next (n : Nat) (ret ty : CTy) :
    n < (sepRet n ret ty).2.2 ∧ ∃ j t, (sepRet n ret ty).2.1 = BVal.ref j t ∧ n ≤ j ∧ j < (sepRet n ret ty).2.2 := by
  unfold sepRet
  split
  · exact ⟨by dsimp only; omega, _, _, rfl, by omega, by dsimp only; omega⟩
  · exact ⟨by dsimp only; omega, _, _, rfl, by omega, by dsimp only; omega⟩

theorem sepInst_later (sig : Nat → FnTy) (i : CIn) (st : SepSt) : LaterSep st (sepInst sig i st).2 := by
  unfold sepInst
  split
  · exact later_refl st
  · next id f args ty _ =>
    obtain ⟨h, j, t, e, h1, h2⟩ := sepRet_next (sepArgs st.next (sig f).params args).2.2 (sig f).ret ty
    have h0 := sepArgs_next (sig f).params args st.next
    refine ⟨by dsimp only; omega, [_], rfl, ?_⟩
    intro x hx
    rw [List.mem_singleton.mp hx]
    exact ⟨j, t, e, by omega, h2⟩

theorem sepCode_later (sig : Nat → FnTy) : ∀ (is : List CIn) (st : SepSt), LaterSep st (sepCode sig is st).2
  | [], st => later_refl st
  | i :: is, st => by
    simp only [sepCode]
    exact later_trans (sepInst_later sig i st) (sepCode_later sig is _)

theorem sepBlocks_later (sig : Nat → FnTy) : ∀ (Bs : List CBlock) (st : SepSt), LaterSep st (sepBlocks sig Bs st).2
  | [], st => later_refl st
  | B :: Bs, st => by
    simp only [sepBlocks]
    exact later_trans (sepCode_later sig B.code st) (sepBlocks_later sig Bs _)

/-- Values of the original function are those of the replacements. -/
def RelC (next : Nat) (m : List (Nat × BVal)) (e e' : CEnv) : Prop :=
  ∀ i t, i < next → evalC e' (sepVal m (.ref i t)) = e i

/-- Names of an operand are old. -/
def OldVal (next : Nat) (v : BVal) : Prop := ∀ a t, v = .ref a t → a < next

theorem relC_val {next : Nat} {m : List (Nat × BVal)} {e e' : CEnv} (h : RelC next m e e') {v : BVal}
    (hv : OldVal next v) : evalC e' (sepVal m v) = evalC e v := by
  cases v with
  | const v t => rfl
  | ref a t => exact h a t (hv a t rfl)

theorem relC_vals {next : Nat} {m : List (Nat × BVal)} {e e' : CEnv} (h : RelC next m e e') {vs : List BVal}
    (hv : ∀ v ∈ vs, OldVal next v) : (vs.map (sepVal m)).map (evalC e') = vs.map (evalC e) := by
  rw [List.map_map]
  exact List.map_congr_left fun v h' => relC_val h (hv v h')

/-- What is known about the final replacements. -/
structure FinalMap (next : Nat) (m : List (Nat × BVal)) : Prop where
  keys : (m.map Prod.fst).Nodup
  old : ∀ x ∈ m, x.1 < next
  refs : ∀ x ∈ m, ∃ j t, x.2 = BVal.ref j t ∧ next ≤ j

theorem lookup_keys {m : List (Nat × BVal)} (h : (m.map Prod.fst).Nodup) {i : Nat} {v : BVal} (hm : (i, v) ∈ m) :
    m.lookup i = some v := by
  induction m with
  | nil => cases hm
  | cons x m ih =>
    obtain ⟨k, w⟩ := x
    rw [List.map_cons, List.nodup_cons] at h
    rcases List.mem_cons.mp hm with e | hm
    · cases e; simp
    · have : i ≠ k := fun e => h.1 (List.mem_map.mpr ⟨_, hm, e⟩)
      rw [List.lookup_cons, beq_false_of_ne this]
      exact ih h.2 hm

theorem lookup_mem' {m : List (Nat × BVal)} {i : Nat} {v : BVal} (h : m.lookup i = some v) : (i, v) ∈ m := by
  induction m with
  | nil => cases h
  | cons x m ih =>
    obtain ⟨k, w⟩ := x
    rw [List.lookup_cons] at h
    by_cases e : i = k
    · subst e
      simp at h
      simp [h]
    · rw [beq_false_of_ne e] at h
      exact List.mem_cons_of_mem _ (ih h)

theorem sepVal_none {m : List (Nat × BVal)} {i : Nat} (h : m.lookup i = none) (t : CTy) :
    sepVal m (.ref i t) = .ref i t := by simp [sepVal, h]

theorem sepVal_some {m : List (Nat × BVal)} {i : Nat} {v : BVal} (h : m.lookup i = some v) (t : CTy) :
    sepVal m (.ref i t) = v := by simp [sepVal, h]

/-- A new name is not replaced. -/
theorem sepVal_new {next : Nat} {m : List (Nat × BVal)} (F : FinalMap next m) {n : Nat} (h : next ≤ n) (t : CTy) :
    sepVal m (.ref n t) = .ref n t := by
  cases hl : m.lookup n with
  | none => exact sepVal_none hl t
  | some v =>
    have := F.old _ (lookup_mem' hl)
    simp only at this
    omega

/-- A write to a name that replaces nothing keeps the relation. -/
theorem relC_fresh {next : Nat} {m : List (Nat × BVal)} {e e' : CEnv} (h : RelC next m e e') {n : Nat} (hn : next ≤ n)
    (hm : ∀ i t, (i, BVal.ref n t) ∉ m) (v : Int) : RelC next m e (e'.set n v) := by
  intro i t hi
  rw [← h i t hi]
  cases hl : m.lookup i with
  | none =>
    simp only [sepVal_none hl, evalC, CEnv.set]
    rw [if_neg (by omega)]
  | some w =>
    rw [sepVal_some hl]
    cases w with
    | const => rfl
    | ref j t' =>
      simp only [evalC, CEnv.set]
      rw [if_neg]
      rintro rfl
      exact hm i t' (lookup_mem' hl)

theorem args_run {Mem : Type} (M : CMach Mem) {next : Nat} {m : List (Nat × BVal)} (F : FinalMap next m)
    (e : CEnv) (mem : Mem) (rest : List CIn) : ∀ (ps : List CTy) (as : List BVal) (n : Nat) (e' : CEnv), next ≤ n →
    (∀ v ∈ as, OldVal next v) → (∀ i j t, (i, BVal.ref j t) ∈ m → j < n ∨ (sepArgs n ps as).2.2 ≤ j) → RelC next m e e' →
    ∃ e'', codeC M ((sepArgs n ps as).1.map (substIn m) ++ rest) e' mem = codeC M rest e'' mem ∧ RelC next m e e'' ∧
      ((sepArgs n ps as).2.1.map (sepVal m)).map (evalC e'') = as.map (evalC e) ∧ ∀ j, j < n → e'' j = e' j
  | [], as, n, e', _, ho, _, h => by
    refine ⟨e', ?_, h, ?_, fun _ _ => rfl⟩
    · simp [sepArgs]
    · simpa only [sepArgs] using relC_vals h ho
  | p :: ps, [], n, e', _, ho, _, h => by
    refine ⟨e', ?_, h, ?_, fun _ _ => rfl⟩
    · simp [sepArgs]
    · simp [sepArgs]
  | p :: ps, a :: as, n, e', hn, ho, hj, h => by
    by_cases ht : a.ty = p
    · simp only [sepArgs, if_pos ht] at hj ⊢
      obtain ⟨e'', h1, h2, h3, h4⟩ := args_run M F e mem rest ps as n e' hn (fun v hv => ho v (by simp [hv])) hj h
      refine ⟨e'', h1, h2, ?_, h4⟩
      simp only [List.map_cons, h3, relC_val h2 (ho a (by simp))]
    · simp only [sepArgs, if_neg ht] at hj ⊢
      have h5 := sepArgs_next ps as (n + 1)
      have h6 : RelC next m e (e'.set n (evalC e a)) := by
        refine relC_fresh h hn (fun i t hm => ?_) _
        rcases hj i n t hm with h | h <;> omega
      obtain ⟨e'', h1, h2, h3, h4⟩ := args_run M F e mem rest ps as (n + 1) _ (by omega)
        (fun v hv => ho v (by simp [hv])) (fun i j t hm => by rcases hj i j t hm with h | h <;> omega) h6
      refine ⟨e'', ?_, h2, ?_, ?_⟩
      · rw [← h1]
        simp only [List.map_cons, substIn, List.cons_append, codeC, stepC, relC_val h (ho a (by simp))]
      · simp only [List.map_cons, h3, sepVal_new F hn]
        congr 1
        rw [evalC, h4 n (by omega)]
        simp [CEnv.set]
      · intro j hj
        rw [h4 j (by omega)]
        simp only [CEnv.set]
        rw [if_neg (by omega)]

/-- Results of runs correspond. -/
def ResC {Mem : Type} (next : Nat) (m : List (Nat × BVal)) :
    Option (CEnv × Mem × CNext) → Option (CEnv × Mem × CNext) → Prop
  | none, none => True
  | some (e, x, c), some (e', x', c') => RelC next m e e' ∧ x = x' ∧ c = c'
  | _, _ => False

/-- A write to a value and to its replacement. -/
theorem relC_set {next : Nat} {m : List (Nat × BVal)} (F : FinalMap next m) {e e' : CEnv} (h : RelC next m e e')
    {i j : Nat} {t : CTy} (hm : (i, BVal.ref j t) ∈ m)
    (hu : ∀ k t', (k, BVal.ref j t') ∈ m → k = i) (v : Int) : RelC next m (e.set i v) (e'.set j v) := by
  intro k t' hk
  have hj : next ≤ j := by
    obtain ⟨j', t'', e1, h1⟩ := F.refs _ hm
    cases e1
    exact h1
  by_cases ek : k = i
  · subst ek
    rw [sepVal_some (lookup_keys F.keys hm)]
    simp [evalC, CEnv.set]
  · have h1 : (e.set i v) k = e k := by simp [CEnv.set, ek]
    rw [h1, ← h k t' hk]
    cases hl : m.lookup k with
    | none =>
      simp only [sepVal_none hl, evalC, CEnv.set]
      rw [if_neg (by omega)]
    | some w =>
      rw [sepVal_some hl]
      cases w with
      | const => rfl
      | ref j' t'' =>
        simp only [evalC, CEnv.set]
        rw [if_neg]
        rintro rfl
        exact ek (hu k t'' (lookup_mem' hl))

/-- A write to a value that is not replaced. -/
theorem relC_keep {next : Nat} {m : List (Nat × BVal)} (F : FinalMap next m) {e e' : CEnv} (h : RelC next m e e')
    {i : Nat} (hi : i < next) (hm : i ∉ m.map Prod.fst) (v : Int) : RelC next m (e.set i v) (e'.set i v) := by
  intro k t' hk
  by_cases ek : k = i
  · subst ek
    have : m.lookup k = none := by
      cases hl : m.lookup k with
      | none => rfl
      | some w => exact absurd (List.mem_map_of_mem (f := Prod.fst) (lookup_mem' hl)) hm
    rw [sepVal_none this]
    simp [evalC, CEnv.set]
  · have h1 : (e.set i v) k = e k := by simp [CEnv.set, ek]
    rw [h1, ← h k t' hk]
    cases hl : m.lookup k with
    | none =>
      simp only [sepVal_none hl, evalC, CEnv.set]
      rw [if_neg ek]
    | some w =>
      obtain ⟨j, t, e1, h1⟩ := F.refs _ (lookup_mem' hl)
      simp only at e1
      subst e1
      simp only [sepVal_some hl, evalC, CEnv.set]
      rw [if_neg (by omega)]

theorem step_keep {Mem : Type} (M : CMach Mem) {next : Nat} {m : List (Nat × BVal)} (F : FinalMap next m) {e e' : CEnv}
    (h : RelC next m e e') (mem : Mem) {i : CIn} (hi : i.id < next) (hm : i.id ∉ m.map Prod.fst)
    (ho : ∀ v ∈ operandsC i, OldVal next v) : ResC next m (stepC M e mem i) (stepC M e' mem (substIn m i)) := by
  cases i with
  | call i c args ty =>
    simp only [CIn.id] at hi hm
    cases c with
    | fn f =>
      simp only [stepC, substIn, sepCallee, relC_vals h (vs := args) ho]
      cases M.call f (args.map (evalC e)) mem with
      | none => trivial
      | some x => exact ⟨relC_keep F h hi hm _, rfl, rfl⟩
    | castFn f =>
      simp only [stepC, substIn, sepCallee, relC_vals h (vs := args) ho]
      cases M.call f (args.map (evalC e)) mem with
      | none => trivial
      | some x => exact ⟨relC_keep F h hi hm _, rfl, rfl⟩
    | other v =>
      have h1 := relC_val h (v := v) (ho v (by simp [operandsC]))
      have h2 := relC_vals h (vs := args) (fun w hw => ho w (by simp [operandsC, hw]))
      simp only [stepC, substIn, sepCallee, h1, h2]
      cases M.callPtr (evalC e v) (args.map (evalC e)) mem with
      | none => trivial
      | some x => exact ⟨relC_keep F h hi hm _, rfl, rfl⟩
  | cast i x ty =>
    simp only [stepC, substIn, relC_val h (v := x) (ho x (by simp [operandsC]))]
    exact ⟨relC_keep F h hi hm _, rfl, rfl⟩
  | other i k ops ty =>
    simp only [stepC, substIn, relC_vals h (vs := ops) ho]
    cases M.other k (ops.map (evalC e)) mem with
    | none => trivial
    | some x => exact ⟨relC_keep F h hi hm _, rfl, rfl⟩

theorem sepOk_some {sig : Nat → FnTy} {i : CIn} {id f : Nat} {args : List BVal} {ty : CTy}
    (h : sepOk sig i = some (id, f, args, ty)) : i = .call id (.castFn f) args ty ∧
      (sig f).params.length ≤ args.length ∧ ((sig f).ret = .void → ty = .void) := by
  unfold sepOk at h
  split at h
  · split at h
    · cases h
    · next h1 =>
      split at h
      · cases h
      · next h2 =>
        simp only [Option.some.injEq, Prod.mk.injEq] at h
        obtain ⟨rfl, rfl, rfl, rfl⟩ := h
        refine ⟨rfl, by omega, fun e => ?_⟩
        by_contra hne
        exact h2 ⟨e, hne⟩
  · cases h

/-- The replacement of a call runs like the call. -/
theorem step_sep {Mem : Type} (M : CMach Mem) {sig : Nat → FnTy} {next : Nat} {m : List (Nat × BVal)}
    (F : FinalMap next m) {e e' : CEnv} (h : RelC next m e e') (mem : Mem) (rest : List CIn) {i : CIn} {st : SepSt}
    {id f : Nat} {args : List BVal} {ty : CTy} (hs : sepOk sig i = some (id, f, args, ty)) (hn : next ≤ st.next)
    (ho : ∀ v ∈ operandsC i, OldVal next v)
    (hm : ∀ k j t, (k, BVal.ref j t) ∈ m → k = id ∨ j < st.next ∨ (sepInst sig i st).2.next ≤ j)
    (hmem : ∀ x ∈ (sepInst sig i st).2.map, x ∈ m) :
    (stepC M e mem i = none ∧ codeC M ((sepInst sig i st).1.map (substIn m) ++ rest) e' mem = none) ∨
    ∃ (x : Int × Mem) (e'' : CEnv), stepC M e mem i = some (e.set id x.1, x.2, .next) ∧
      codeC M ((sepInst sig i st).1.map (substIn m) ++ rest) e' mem = codeC M rest e'' x.2 ∧
      RelC next m (e.set id x.1) e'' := by
  obtain ⟨rfl, _, _⟩ := sepOk_some hs
  have hkey : ((id, (sepRet (sepArgs st.next (sig f).params args).2.2 (sig f).ret ty).2.1) : Nat × BVal) ∈ m := by
    apply hmem
    simp [sepInst, hs]
  have hnext : (sepInst sig (.call id (.castFn f) args ty) st).2.next =
      (sepRet (sepArgs st.next (sig f).params args).2.2 (sig f).ret ty).2.2 := by simp [sepInst, hs]
  have h0 := sepArgs_next (sig f).params args st.next
  obtain ⟨hr, j, t, ej, hj1, hj2⟩ := sepRet_next (sepArgs st.next (sig f).params args).2.2 (sig f).ret ty
  rw [ej] at hkey
  rw [hnext] at hm
  have huniq : ∀ j' t', (id, BVal.ref j' t') ∈ m → j' = j := by
    intro j' t' h'
    have a := lookup_keys F.keys h'
    rw [lookup_keys F.keys hkey] at a
    cases a
    rfl
  obtain ⟨e1, c1, r1, v1, o1⟩ := args_run M F e mem
    ((.call (sepArgs st.next (sig f).params args).2.2 (.fn f) ((sepArgs st.next (sig f).params args).2.1.map (sepVal m)) (sig f).ret ::
      (sepRet (sepArgs st.next (sig f).params args).2.2 (sig f).ret ty).1.map (substIn m)) ++ rest)
    (sig f).params args st.next e' hn ho (by
      intro k j' t' h'
      rcases hm k j' t' h' with rfl | h1 | h1
      · rw [huniq j' t' h']; omega
      · exact .inl h1
      · right; omega) h
  have hcode : (sepInst sig (.call id (.castFn f) args ty) st).1.map (substIn m) ++ rest =
      (sepArgs st.next (sig f).params args).1.map (substIn m) ++
      ((.call (sepArgs st.next (sig f).params args).2.2 (.fn f) ((sepArgs st.next (sig f).params args).2.1.map (sepVal m)) (sig f).ret ::
      (sepRet (sepArgs st.next (sig f).params args).2.2 (sig f).ret ty).1.map (substIn m)) ++ rest) := by
    simp [sepInst, hs, substIn, sepCallee]
  rw [hcode, c1]
  generalize (sepArgs st.next (sig f).params args).2.2 = k at *
  simp only [List.cons_append, codeC, stepC, v1]
  cases hc : M.call f (args.map (evalC e)) mem with
  | none => left; simp
  | some x =>
    right
    simp only [Option.map_some]
    have only : ∀ k' j' t', (k', BVal.ref j' t') ∈ m → k ≤ j' → j' < (sepRet k (sig f).ret ty).2.2 → k' = id := by
      intro k' j' t' h' h1 h2
      rcases hm k' j' t' h' with e | h3 | h3
      · exact e
      · omega
      · omega
    by_cases hcast : ty ≠ (sig f).ret ∧ (sig f).ret ≠ .void
    · have er : sepRet k (sig f).ret ty = ([.cast (k + 1) (.ref k (sig f).ret) ty], .ref (k + 1) ty, k + 2) := by
        simp only [sepRet, if_pos hcast]
      rw [er] at ej only ⊢
      cases ej
      refine ⟨x, (e1.set k x.1).set (k + 1) x.1, rfl, ?_, ?_⟩
      · simp only [List.map_cons, List.map_nil, substIn, List.cons_append, List.nil_append, codeC, stepC,
          sepVal_new F (show next ≤ k by omega), evalC]
        simp [CEnv.set]
      · refine relC_set F (relC_fresh r1 (by omega) ?_ _) hkey ?_ _
        · intro k' t' h'
          have := only k' k t' h' (le_refl _) (by dsimp only; omega)
          subst this
          have := huniq k t' h'
          omega
        · intro k' t' h'
          exact only k' _ t' h' (by omega) (by dsimp only; omega)
    · have er : sepRet k (sig f).ret ty = ([], .ref k (sig f).ret, k + 1) := by
        simp only [sepRet, if_neg hcast]
      rw [er] at ej only ⊢
      cases ej
      refine ⟨x, e1.set _ x.1, rfl, rfl, ?_⟩
      refine relC_set F r1 hkey ?_ _
      intro k' t' h'
      exact only k' _ t' h' (le_refl _) (by dsimp only; omega)

theorem code_sep {Mem : Type} (M : CMach Mem) {sig : Nat → FnTy} {next : Nat} {fin : SepSt}
    (F : FinalMap next fin.map) : ∀ (is : List CIn) (st : SepSt), LaterSep ⟨[], next⟩ st →
    LaterSep (sepCode sig is st).2 fin → (∀ i ∈ is, i.id < next) →
    (∀ i ∈ is, ∀ v ∈ operandsC i, OldVal next v) →
    (∀ i ∈ is, sepOk sig i = none → i.id ∉ fin.map.map Prod.fst) → ∀ (e e' : CEnv) (mem : Mem), RelC next fin.map e e' →
    ResC next fin.map (codeC M is e mem) (codeC M ((sepCode sig is st).1.map (substIn fin.map)) e' mem)
  | [], st, _, _, _, _, _, e, e', mem, h => by
    simp only [sepCode, List.map_nil, codeC]
    exact ⟨h, rfl, rfl⟩
  | i :: is, st, h1, h2, h3, h4, h5, e, e', mem, h => by
    have l1 := sepInst_later sig i st
    have l2 := sepCode_later sig is (sepInst sig i st).2
    have ih := code_sep M F is (sepInst sig i st).2 (later_trans h1 l1) h2 (fun j hj => h3 j (by simp [hj]))
      (fun j hj => h4 j (by simp [hj])) (fun j hj => h5 j (by simp [hj]))
    have hl : LaterSep (sepInst sig i st).2 fin := later_trans l2 h2
    simp only [sepCode, List.map_append]
    cases hs : sepOk sig i with
    | none =>
      have e1 : sepInst sig i st = ([i], st) := by simp [sepInst, hs]
      have hk := step_keep M F h mem (h3 i (by simp)) (h5 i (by simp) hs) (h4 i (by simp))
      rw [e1] at ih ⊢
      simp only [List.map_cons, List.map_nil, List.cons_append, List.nil_append, codeC]
      cases ha : stepC M e mem i with
      | none =>
        cases hb : stepC M e' mem (substIn fin.map i) with
        | none => trivial
        | some y => rw [ha, hb] at hk; exact hk.elim
      | some x =>
        cases hb : stepC M e' mem (substIn fin.map i) with
        | none => rw [ha, hb] at hk; exact hk.elim
        | some y =>
          rw [ha, hb] at hk
          obtain ⟨x1, x2, x3⟩ := x
          obtain ⟨y1, y2, y3⟩ := y
          obtain ⟨k1, rfl, rfl⟩ := hk
          cases x3 with
          | next => exact ih _ _ _ k1
          | goto b => exact ⟨k1, rfl, rfl⟩
          | ret v => exact ⟨k1, rfl, rfl⟩
    | some y =>
      obtain ⟨id, f, args, ty⟩ := y
      have hm : ∀ k j t, (k, BVal.ref j t) ∈ fin.map → k = id ∨ j < st.next ∨ (sepInst sig i st).2.next ≤ j := by
        intro k j t hk
        obtain ⟨_, n1, e1, p1⟩ := h1
        obtain ⟨_, n2, e2, p2⟩ := hl
        rw [e2] at hk
        rcases List.mem_append.mp hk with hk | hk
        · obtain ⟨j', t', q1, q2, _⟩ := p2 _ hk
          cases q1
          exact .inr (.inr q2)
        · simp only [sepInst, hs] at hk
          rcases List.mem_cons.mp hk with hk | hk
          · exact .inl (congrArg Prod.fst hk)
          · rw [e1, List.append_nil] at hk
            obtain ⟨j', t', q1, _, q2⟩ := p1 _ hk
            cases q1
            exact .inr (.inl q2)
      have hmem : ∀ x ∈ (sepInst sig i st).2.map, x ∈ fin.map := by
        intro x hx
        obtain ⟨_, n2, e2, _⟩ := hl
        rw [e2]
        exact List.mem_append_right _ hx
      rcases step_sep M F h mem ((sepCode sig is (sepInst sig i st).2).1.map (substIn fin.map)) hs h1.1
        (h4 i (by simp)) hm hmem with ⟨a, b⟩ | ⟨x, e'', a, b, c⟩
      · rw [codeC, a, b]
        trivial
      · rw [codeC, a, b]
        exact ih _ _ _ c

theorem phis_sep {next : Nat} {m : List (Nat × BVal)} (F : FinalMap next m) (from_ : Nat) {old old' : CEnv}
    (ho : RelC next m old old') : ∀ (ps : List CPhi), (∀ p ∈ ps, p.id < next ∧ p.id ∉ m.map Prod.fst) →
    (∀ p ∈ ps, ∀ x ∈ p.inc, OldVal next x.2) → ∀ e e', RelC next m e e' →
    RelC next m (phisC from_ old ps e) (phisC from_ old' (ps.map (substPhi m)) e')
  | [], _, _, _, _, h => h
  | p :: ps, h1, h2, e, e', h => by
    have key : ∀ l : List (Nat × BVal), (l.map fun x => (x.1, sepVal m x.2)).lookup from_ =
        (l.lookup from_).map (sepVal m) := by
      intro l
      induction l with
      | nil => rfl
      | cons x l ih =>
        obtain ⟨k, w⟩ := x
        by_cases hk : from_ = k
        · simp [hk]
        · simp only [List.map_cons, List.lookup_cons, beq_false_of_ne hk]
          exact ih
    simp only [phisC, List.map_cons, substPhi, key]
    refine phis_sep F from_ ho ps (fun q hq => h1 q (by simp [hq])) (fun q hq => h2 q (by simp [hq])) _ _ ?_
    cases hl : p.inc.lookup from_ with
    | none => exact h
    | some v =>
      have hv : OldVal next v := h2 p (by simp) (from_, v) (lookup_mem' hl)
      simp only [Option.map_some, relC_val ho hv]
      exact relC_keep F h (h1 p (by simp)).1 (h1 p (by simp)).2 _

theorem sepCode_keys (sig : Nat → FnTy) : ∀ (is : List CIn) (st : SepSt),
    (sepCode sig is st).2.map.map Prod.fst =
      ((is.filter fun i => (sepOk sig i).isSome).map CIn.id).reverse ++ st.map.map Prod.fst
  | [], st => rfl
  | i :: is, st => by
    simp only [sepCode]
    rw [sepCode_keys sig is]
    cases hs : sepOk sig i with
    | none => simp [sepInst, hs]
    | some y =>
      obtain ⟨id, f, args, ty⟩ := y
      have := (sepOk_some hs).1
      subst this
      simp [sepInst, hs, CIn.id]

/-- Names of replaced calls. -/
def sepIds (sig : Nat → FnTy) (Bs : List CBlock) : List Nat :=
  Bs.flatMap fun B => (B.code.filter fun i => (sepOk sig i).isSome).map CIn.id

theorem sepBlocks_keys (sig : Nat → FnTy) : ∀ (Bs : List CBlock) (st : SepSt),
    (sepBlocks sig Bs st).2.map.map Prod.fst = (sepIds sig Bs).reverse ++ st.map.map Prod.fst
  | [], st => rfl
  | B :: Bs, st => by
    simp only [sepBlocks]
    rw [sepBlocks_keys sig Bs, sepCode_keys]
    simp [sepIds]

/-- The blocks after the replacement. -/
theorem sepBlocks_get (sig : Nat → FnTy) : ∀ (Bs : List CBlock) (st : SepSt) (b : Nat),
    (Bs[b]? = none ∧ (sepBlocks sig Bs st).1[b]? = none) ∨
    ∃ B st', Bs[b]? = some B ∧ LaterSep st st' ∧ LaterSep (sepCode sig B.code st').2 (sepBlocks sig Bs st).2 ∧
      (sepBlocks sig Bs st).1[b]? = some ⟨B.phis, (sepCode sig B.code st').1⟩
  | [], st, b => .inl (by simp [sepBlocks])
  | B :: Bs, st, 0 => .inr ⟨B, st, rfl, later_refl st, sepBlocks_later sig Bs _, by simp [sepBlocks]⟩
  | B :: Bs, st, b + 1 => by
    simp only [sepBlocks, List.getElem?_cons_succ]
    rcases sepBlocks_get sig Bs (sepCode sig B.code st).2 b with h | ⟨C, st', h1, h2, h3, h4⟩
    · exact .inl h
    · exact .inr ⟨C, st', h1, later_trans (sepCode_later sig B.code st) h2, h3, h4⟩

/-! ### Names -/

/-- Code names of all blocks are different, and different from those of phis. -/
theorem code_names {f : CFun} (h : ((defsC f).map Prod.fst).Nodup) :
    ((f.blocks.flatMap CBlock.code).map CIn.id).Nodup ∧
    (∀ B ∈ f.blocks, ∀ p ∈ B.phis, p.id ∉ (f.blocks.flatMap CBlock.code).map CIn.id) ∧
    (∀ a ∈ f.args, a.1 ∉ (f.blocks.flatMap CBlock.code).map CIn.id) := by
  have e : (defsC f).map Prod.fst = f.args.map Prod.fst ++
      f.blocks.flatMap fun B => B.phis.map CPhi.id ++ B.code.map CIn.id := by
    simp [defsC, List.map_flatMap, Function.comp_def]
  rw [e] at h
  have e2 : (f.blocks.flatMap CBlock.code).map CIn.id = f.blocks.flatMap fun B => B.code.map CIn.id := by
    rw [List.map_flatMap]
  rw [e2]
  obtain ⟨_, h1, h2⟩ := List.nodup_append.mp h
  have hp := (List.flatMap_append_perm f.blocks (fun B => B.phis.map CPhi.id) (fun B => B.code.map CIn.id))
  have h3 := hp.nodup_iff.mpr h1
  obtain ⟨_, h4, h5⟩ := List.nodup_append.mp h3
  refine ⟨h4, ?_, ?_⟩
  · intro B hB p hpp hm
    exact h5 _ (List.mem_flatMap.mpr ⟨B, hB, List.mem_map_of_mem hpp⟩) _ hm rfl
  · intro a ha hm
    exact h2 _ (List.mem_map_of_mem ha) _ (hp.mem_iff.mp (List.mem_append_right _ hm)) rfl

theorem sepIds_sub (sig : Nat → FnTy) (Bs : List CBlock) :
    (sepIds sig Bs).Sublist ((Bs.flatMap CBlock.code).map CIn.id) := by
  induction Bs with
  | nil => exact List.Sublist.refl _
  | cons B Bs ih =>
    simp only [sepIds, List.flatMap_cons, List.map_append] at ih ⊢
    exact (List.Sublist.map _ List.filter_sublist).append ih

/-- An instruction that stays is not replaced. -/
theorem kept_id {sig : Nat → FnTy} {f : CFun} (h : ((defsC f).map Prod.fst).Nodup) {B : CBlock} (hB : B ∈ f.blocks)
    {i : CIn} (hi : i ∈ B.code) (hs : sepOk sig i = none) : i.id ∉ sepIds sig f.blocks := by
  intro hm
  obtain ⟨C, hC, hm⟩ := List.mem_flatMap.mp hm
  obtain ⟨j, hj, e⟩ := List.mem_map.mp hm
  have hj' := List.mem_filter.mp hj
  have := List.inj_on_of_nodup_map (code_names h).1 (List.mem_flatMap.mpr ⟨C, hC, hj'.1⟩)
    (List.mem_flatMap.mpr ⟨B, hB, hi⟩) e
  rw [this, hs] at hj'
  exact absurd hj'.2 (by simp)

theorem code_bound {f : CFun} {next : Nat} (hb : ∀ x ∈ defsC f, x.1 < next) {B : CBlock} (hB : B ∈ f.blocks) :
    (∀ i ∈ B.code, i.id < next) ∧ ∀ p ∈ B.phis, p.id < next := by
  constructor
  · intro i hi
    exact hb (i.id, i.ty) (List.mem_append_right _ (List.mem_flatMap.mpr ⟨B, hB,
      List.mem_append_right _ (List.mem_map.mpr ⟨i, hi, rfl⟩)⟩))
  · intro p hp
    exact hb (p.id, p.ty) (List.mem_append_right _ (List.mem_flatMap.mpr ⟨B, hB,
      List.mem_append_left _ (List.mem_map.mpr ⟨p, hp, rfl⟩)⟩))

theorem final_map {sig : Nat → FnTy} {f : CFun} {next : Nat} (h : ((defsC f).map Prod.fst).Nodup)
    (hb : ∀ x ∈ defsC f, x.1 < next) : FinalMap next (sepBlocks sig f.blocks ⟨[], next⟩).2.map := by
  have hk := sepBlocks_keys sig f.blocks ⟨[], next⟩
  have hs := sepIds_sub sig f.blocks
  simp only [List.map_nil, List.append_nil] at hk
  refine ⟨?_, ?_, ?_⟩
  · rw [hk, List.nodup_reverse]
    exact hs.nodup (code_names h).1
  · intro x hx
    have : x.1 ∈ (sepIds sig f.blocks).reverse := hk ▸ List.mem_map_of_mem hx
    have := hs.subset (List.mem_reverse.mp this)
    obtain ⟨i, hi, e⟩ := List.mem_map.mp this
    obtain ⟨B, hB, hi⟩ := List.mem_flatMap.mp hi
    rw [← e]
    exact (code_bound hb hB).1 i hi
  · intro x hx
    obtain ⟨_, new, e, p⟩ := sepBlocks_later sig f.blocks ⟨[], next⟩
    rw [e, List.append_nil] at hx
    obtain ⟨j, t, e1, e2, _⟩ := p x hx
    exact ⟨j, t, e1, e2⟩

theorem blocks_sep {Mem : Type} (M : CMach Mem) {sig : Nat → FnTy} {f : CFun} {next : Nat} (w : WellNamedC f)
    (hb : ∀ x ∈ defsC f, x.1 < next) : ∀ (n from_ b : Nat) (e e' : CEnv) (mem : Mem),
    RelC next (sepBlocks sig f.blocks ⟨[], next⟩).2.map e e' →
    blocksC M f n from_ b e mem = blocksC M (separateCalls sig next f) n from_ b e' mem
  | 0, _, _, _, _, _, _ => rfl
  | n + 1, from_, b, e, e', mem, h => by
    have F := final_map (sig := sig) w.unique hb
    have hk := sepBlocks_keys sig f.blocks ⟨[], next⟩
    simp only [List.map_nil, List.append_nil] at hk
    simp only [blocksC, separateCalls, List.getElem?_map]
    rcases sepBlocks_get sig f.blocks ⟨[], next⟩ b with ⟨h1, h2⟩ | ⟨B, st', h1, h2, h3, h4⟩
    · rw [h1, h2]
      rfl
    · rw [h1, h4]
      have hB : B ∈ f.blocks := List.mem_of_getElem? h1
      simp only [Option.map_some, substBlock]
      have hp := phis_sep F from_ h B.phis (fun p hp => ⟨(code_bound hb hB).2 p hp, fun hm => by
          rw [hk, List.mem_reverse] at hm
          exact (code_names w.unique).2.1 B hB p hp ((sepIds_sub sig f.blocks).subset hm)⟩)
        (fun p hp x hx a t ha => hb _ (w.phis B hB p hp x hx a t ha)) e e' h
      have hc := code_sep M F B.code st' h2 h3 (code_bound hb hB).1
        (fun i hi v hv a t ha => hb _ (w.code B hB i hi a t (ha ▸ hv)))
        (fun i hi hs hm => by
          rw [hk, List.mem_reverse] at hm
          exact kept_id w.unique hB hi hs hm) _ _ mem hp
      cases ha : codeC M B.code (phisC from_ e B.phis e) mem with
      | none =>
        rw [ha] at hc
        cases hd : codeC M ((sepCode sig B.code st').1.map (substIn (sepBlocks sig f.blocks ⟨[], next⟩).2.map))
            (phisC from_ e' (B.phis.map (substPhi (sepBlocks sig f.blocks ⟨[], next⟩).2.map)) e') mem with
        | none => rfl
        | some y => rw [hd] at hc; exact hc.elim
      | some x =>
        rw [ha] at hc
        cases hd : codeC M ((sepCode sig B.code st').1.map (substIn (sepBlocks sig f.blocks ⟨[], next⟩).2.map))
            (phisC from_ e' (B.phis.map (substPhi (sepBlocks sig f.blocks ⟨[], next⟩).2.map)) e') mem with
        | none => rw [hd] at hc; exact hc.elim
        | some y =>
          rw [hd] at hc
          obtain ⟨x1, x2, x3⟩ := x
          obtain ⟨y1, y2, y3⟩ := y
          obtain ⟨k1, rfl, rfl⟩ := hc
          cases x3 with
          | next => rfl
          | goto b' => exact blocks_sep M w hb n b b' _ _ _ k1
          | ret v => rfl

theorem argsC_other : ∀ (as : List (Nat × CTy)) (vs : List Int) (i : Nat), i ∉ as.map Prod.fst → argsC as vs i = 0
  | [], _, _, _ => by simp [argsC]
  | _ :: _, [], _, _ => by simp [argsC]
  | a :: as, v :: vs, i, h => by
    simp only [List.map_cons, List.mem_cons, not_or] at h
    simp only [argsC, CEnv.set, if_neg h.1]
    exact argsC_other as vs i h.2

theorem sepArgs_rel {sig : Nat → FnTy} {f : CFun} {next : Nat} (w : WellNamedC f) (hb : ∀ x ∈ defsC f, x.1 < next)
    (vals : List Int) : RelC next (sepBlocks sig f.blocks ⟨[], next⟩).2.map (argsC f.args vals) (argsC f.args vals) := by
  intro i t hi
  have F := final_map (sig := sig) w.unique hb
  cases hl : (sepBlocks sig f.blocks ⟨[], next⟩).2.map.lookup i with
  | none => rw [sepVal_none hl]; rfl
  | some v =>
    have hm := lookup_mem' hl
    obtain ⟨j, t', e, hj⟩ := F.refs _ hm
    simp only at e
    subst e
    rw [sepVal_some hl]
    have h1 : j ∉ f.args.map Prod.fst := by
      intro h
      obtain ⟨a, ha, e⟩ := List.mem_map.mp h
      have := hb a (List.mem_append_left _ ha)
      omega
    have h2 : i ∉ f.args.map Prod.fst := by
      intro h
      obtain ⟨a, ha, e⟩ := List.mem_map.mp h
      have hk := sepBlocks_keys sig f.blocks ⟨[], next⟩
      simp only [List.map_nil, List.append_nil] at hk
      have hm' := List.mem_map_of_mem (f := Prod.fst) hm
      rw [hk, List.mem_reverse] at hm'
      refine (code_names w.unique).2.2 a ha ?_
      rw [e]
      exact (sepIds_sub sig f.blocks).subset hm'
    simp only [evalC, argsC_other _ _ _ h1, argsC_other _ _ _ h2]

end DK
