import Verif.Lemmas.SeparateCalls

/-!
Properties of the separation of casts from calls (C168, C169).
-/

set_option autoImplicit false

namespace DK
open Spec

/-! ### C168 -/

/-- **C168**: separating casts from calls keeps what functions do. -/
theorem C168_same (sig : Nat → FnTy) (next : Nat) (f : CFun) (w : WellNamedC f) (hb : ∀ x ∈ defsC f, x.1 < next) :
    SameRuns f (separateCalls sig next f) := by
  intro Mem M vals mem res
  have h := fun n => blocks_sep M (sig := sig) w hb n 0 0 _ _ mem (sepArgs_rel w hb vals)
  constructor
  · rintro ⟨n, hn⟩
    exact ⟨n, (h n).symm.trans hn⟩
  · rintro ⟨n, hn⟩
    exact ⟨n, (h n).trans hn⟩

/-- `int *f5(char *); f6: int (int)`. -/
def sampleSig : Nat → FnTy
  | 5 => ⟨[.ptr 8], .ptr 32, false⟩
  | 6 => ⟨[.int 32], .int 32, false⟩
  | _ => ⟨[], .void, true⟩

/-- A function that calls function `k` through a cast, and uses the result in a phi of a loop. -/
def sampleCast (k : Nat) (args : List BVal) (ty : CTy) : CFun := ⟨[(0, .ptr 9), (1, .int 32)],
  [⟨[], [.other 2 0 [] .void]⟩,
   ⟨[⟨3, ty, [(0, .const 0 ty), (1, .ref 4 ty)]⟩],
    [.call 4 (.castFn k) args ty, .other 5 1 [.ref 4 ty, .ref 3 ty] (.int 1), .other 6 2 [.ref 5 (.int 1)] .void]⟩]⟩

def wellB (f : CFun) : Bool :=
  decide ((defsC f).map Prod.fst).Nodup &&
  (f.blocks.all fun B => B.code.all fun i => (operandsC i).all fun v =>
    match v with | .ref a t => decide ((a, t) ∈ defsC f) | _ => true) &&
  (f.blocks.all fun B => B.phis.all fun p => p.inc.all fun x =>
    match x.2 with | .ref a t => decide ((a, t) ∈ defsC f) | _ => true)

theorem wellB_ok {f : CFun} (h : wellB f = true) : WellNamedC f := by
  simp only [wellB, Bool.and_eq_true, List.all_eq_true, decide_eq_true_eq] at h
  refine ⟨h.1.1, ?_, ?_⟩
  · intro B hB i hi a t ha
    simpa using h.1.2 B hB i hi _ ha
  · intro B hB p hp x hx a t ha
    have := h.2 B hB p hp x hx
    rw [ha] at this
    simpa using this

/-- The call is replaced, with casts of the argument and of the result. -/
example : separateCalls sampleSig 10 (sampleCast 5 [.ref 0 (.ptr 9)] (.ptr 7)) =
    ⟨[(0, .ptr 9), (1, .int 32)],
      [⟨[], [.other 2 0 [] .void]⟩,
       ⟨[⟨3, .ptr 7, [(0, .const 0 (.ptr 7)), (1, .ref 12 (.ptr 7))]⟩],
        [.cast 10 (.ref 0 (.ptr 9)) (.ptr 8), .call 11 (.fn 5) [.ref 10 (.ptr 8)] (.ptr 32),
         .cast 12 (.ref 11 (.ptr 32)) (.ptr 7), .other 5 1 [.ref 12 (.ptr 7), .ref 3 (.ptr 7)] (.int 1),
         .other 6 2 [.ref 5 (.int 1)] .void]⟩]⟩ := by decide +kernel

/-- The theorem applies to it. -/
example : SameRuns (sampleCast 5 [.ref 0 (.ptr 9)] (.ptr 7))
    (separateCalls sampleSig 10 (sampleCast 5 [.ref 0 (.ptr 9)] (.ptr 7))) :=
  C168_same _ _ _ (wellB_ok (by decide +kernel)) (by decide +kernel)

/-! ### C169 -/

/-- **C169** (fails): separating casts from calls gives valid code. -/
def C169_statement : Prop :=
  ∀ (sig : Nat → FnTy) (next : Nat) (f : CFun), (∀ x ∈ defsC f, x.1 < next) → ValidC sig f →
    ValidC sig (separateCalls sig next f)

/-- A call whose result is ignored, of a function that returns a number: the result is cast to void. -/
theorem C169_fails : ¬ C169_statement := by
  intro h
  have := h sampleSig 10 ⟨[(0, .int 32)], [⟨[], [.call 1 (.castFn 6) [.ref 0 (.int 32)] .void]⟩]⟩ (by decide +kernel)
    ⟨wellB_ok (by decide +kernel), by
      intro B hB i hi
      simp only [List.mem_singleton] at hB
      subst hB
      simp only [List.mem_singleton] at hi
      subst hi
      exact trivial⟩
  have h2 := this.2 ⟨[], [.call 10 (.fn 6) [.ref 0 (.int 32)] (.int 32), .cast 11 (.ref 10 (.int 32)) .void]⟩
    (by decide +kernel) (.cast 11 (.ref 10 (.int 32)) .void) (by decide +kernel)
  exact h2

/-- The same for more arguments than parameters, and for arguments of another size. -/
theorem C169_fails_arguments : ¬ C169_statement := by
  intro h
  have := h sampleSig 10 ⟨[(0, .int 32)], [⟨[], [.call 1 (.castFn 6) [.ref 0 (.int 32), .ref 0 (.int 32)] (.int 32)]⟩]⟩
    (by decide +kernel)
    ⟨wellB_ok (by decide +kernel), by
      intro B hB i hi
      simp only [List.mem_singleton] at hB
      subst hB
      simp only [List.mem_singleton] at hi
      subst hi
      exact trivial⟩
  have h2 := this.2 ⟨[], [.call 10 (.fn 6) [.ref 0 (.int 32), .ref 0 (.int 32)] (.int 32)]⟩
    (by decide +kernel) (.call 10 (.fn 6) [.ref 0 (.int 32), .ref 0 (.int 32)] (.int 32)) (by decide +kernel)
  revert h2
  simp [ValidIn, CanPass, sampleSig, BVal.ty]

theorem C169_fails_size : ¬ C169_statement := by
  intro h
  have := h sampleSig 10 ⟨[(0, .int 64)], [⟨[], [.call 1 (.castFn 6) [.ref 0 (.int 64)] (.int 32)]⟩]⟩
    (by decide +kernel)
    ⟨wellB_ok (by decide +kernel), by
      intro B hB i hi
      simp only [List.mem_singleton] at hB
      subst hB
      simp only [List.mem_singleton] at hi
      subst hi
      exact trivial⟩
  have h2 := this.2 ⟨[], [.cast 10 (.ref 0 (.int 64)) (.int 32), .call 11 (.fn 6) [.ref 10 (.int 32)] (.int 32)]⟩
    (by decide +kernel) (.cast 10 (.ref 0 (.int 64)) (.int 32)) (by decide +kernel)
  revert h2
  simp [ValidIn, CanCast, BVal.ty]

/-! ### The part that holds -/

/-- Names and types of code. -/
def defsOf (is : List CIn) : List (Nat × CTy) := is.map fun i => (i.id, i.ty)

theorem sepArgs_names : ∀ (ps : List CTy) (as : List BVal) (n : Nat),
    (sepArgs n ps as).1.map CIn.id = List.range' n ((sepArgs n ps as).2.2 - n)
  | [], _, n => by simp [sepArgs]
  | _ :: _, [], n => by simp [sepArgs]
  | p :: ps, a :: as, n => by
    by_cases h : a.ty = p
    · simp only [sepArgs, if_pos h]
      exact sepArgs_names ps as n
    · have h1 := sepArgs_next ps as (n + 1)
      simp only [sepArgs, if_neg h, List.map_cons, CIn.id, sepArgs_names ps as (n + 1)]
      rw [show (sepArgs (n + 1) ps as).2.2 - n = ((sepArgs (n + 1) ps as).2.2 - (n + 1)) + 1 by omega,
        List.range'_succ]

theorem sepInst_names (sig : Nat → FnTy) (i : CIn) (st : SepSt) : (sepInst sig i st).1.map CIn.id =
    (if sepOk sig i = none then [i.id] else []) ++ List.range' st.next ((sepInst sig i st).2.next - st.next) := by
  unfold sepInst
  cases hs : sepOk sig i with
  | none => simp
  | some y =>
    obtain ⟨id, f, args, ty⟩ := y
    have h0 := sepArgs_next (sig f).params args st.next
    simp only [List.map_append, List.map_cons, sepArgs_names, CIn.id, reduceCtorEq, if_false, List.nil_append]
    generalize (sepArgs st.next (sig f).params args).2.2 = n at *
    unfold sepRet
    split
    · simp only [List.map_cons, List.map_nil, CIn.id]
      rw [show n + 2 - st.next = (n - st.next) + 2 by omega, ← List.range'_append_1,
        show st.next + (n - st.next) = n by omega]
      rfl
    · simp only [List.map_nil]
      rw [show n + 1 - st.next = (n - st.next) + 1 by omega, ← List.range'_append_1,
        show st.next + (n - st.next) = n by omega]
      rfl

/-- Instructions that stay. -/
def keptIds (sig : Nat → FnTy) (is : List CIn) : List Nat :=
  (is.filter fun i => decide (sepOk sig i = none)).map CIn.id

theorem sepCode_names (sig : Nat → FnTy) : ∀ (is : List CIn) (st : SepSt), ((sepCode sig is st).1.map CIn.id).Perm
    (keptIds sig is ++ List.range' st.next ((sepCode sig is st).2.next - st.next))
  | [], st => by simp [sepCode, keptIds]
  | i :: is, st => by
    have ih := sepCode_names sig is (sepInst sig i st).2
    have h1 := (sepInst_later sig i st).1
    have h2 := (sepCode_later sig is (sepInst sig i st).2).1
    simp only [sepCode, List.map_append, sepInst_names]
    have e : List.range' st.next ((sepCode sig is (sepInst sig i st).2).2.next - st.next) =
        List.range' st.next ((sepInst sig i st).2.next - st.next) ++
        List.range' (sepInst sig i st).2.next ((sepCode sig is (sepInst sig i st).2).2.next - (sepInst sig i st).2.next) := by
      conv_rhs => rw [show (sepInst sig i st).2.next = st.next + ((sepInst sig i st).2.next - st.next) by omega]
      rw [show st.next + ((sepInst sig i st).2.next - st.next) - st.next = (sepInst sig i st).2.next - st.next by omega,
        List.range'_append_1]
      congr 1
      omega
    have e2 : keptIds sig (i :: is) = (if sepOk sig i = none then [i.id] else []) ++ keptIds sig is := by
      unfold keptIds
      rw [List.filter_cons]
      by_cases h : sepOk sig i = none <;> simp [h]
    rw [e, e2]
    refine (List.Perm.append_left _ ih).trans ?_
    simp only [List.append_assoc]
    refine List.Perm.append_left _ ?_
    rw [← List.append_assoc, ← List.append_assoc]
    exact List.Perm.append_right _ List.perm_append_comm

theorem sepBlocks_names (sig : Nat → FnTy) : ∀ (Bs : List CBlock) (st : SepSt),
    ((sepBlocks sig Bs st).1.flatMap fun B => B.phis.map CPhi.id ++ B.code.map CIn.id).Perm
    ((Bs.flatMap fun B => B.phis.map CPhi.id ++ keptIds sig B.code) ++
      List.range' st.next ((sepBlocks sig Bs st).2.next - st.next))
  | [], st => by simp [sepBlocks]
  | B :: Bs, st => by
    have ih := sepBlocks_names sig Bs (sepCode sig B.code st).2
    have hc := sepCode_names sig B.code st
    have h1 := (sepCode_later sig B.code st).1
    have h2 := (sepBlocks_later sig Bs (sepCode sig B.code st).2).1
    simp only [sepBlocks, List.flatMap_cons]
    have e : List.range' st.next ((sepBlocks sig Bs (sepCode sig B.code st).2).2.next - st.next) =
        List.range' st.next ((sepCode sig B.code st).2.next - st.next) ++
        List.range' (sepCode sig B.code st).2.next
          ((sepBlocks sig Bs (sepCode sig B.code st).2).2.next - (sepCode sig B.code st).2.next) := by
      conv_rhs => rw [show (sepCode sig B.code st).2.next = st.next + ((sepCode sig B.code st).2.next - st.next) by omega]
      rw [show st.next + ((sepCode sig B.code st).2.next - st.next) - st.next = (sepCode sig B.code st).2.next - st.next
        by omega, List.range'_append_1]
      congr 1
      omega
    rw [e]
    refine ((List.Perm.append_left _ hc).append ih).trans ?_
    simp only [List.append_assoc]
    refine List.Perm.append_left _ (List.Perm.append_left _ ?_)
    rw [← List.append_assoc, ← List.append_assoc]
    exact List.Perm.append_right _ List.perm_append_comm

/-- Types of new arguments. -/
theorem sepArgs_types : ∀ (ps : List CTy) (as : List BVal) (n : Nat), ps.length ≤ as.length →
    (sepArgs n ps as).2.1.map BVal.ty = ps ++ (as.drop ps.length).map BVal.ty
  | [], as, n, _ => by simp [sepArgs]
  | _ :: _, [], n, h => by simp at h
  | p :: ps, a :: as, n, h => by
    have h' : ps.length ≤ as.length := by simpa using h
    by_cases ht : a.ty = p
    · simp [sepArgs, if_pos ht, sepArgs_types ps as n h', ht]
    · simp only [sepArgs, if_neg ht, List.map_cons, sepArgs_types ps as (n + 1) h', List.length_cons, List.drop_succ_cons,
        List.cons_append]
      rfl

/-- The casts of arguments. -/
theorem sepArgs_casts : ∀ (ps : List CTy) (as : List BVal) (n : Nat), ∀ i ∈ (sepArgs n ps as).1,
    ∃ k a p, i = .cast k a p ∧ a.ty ≠ p ∧ (p, a) ∈ ps.zip as
  | [], _, n, i, h => by simp [sepArgs] at h
  | _ :: _, [], n, i, h => by simp [sepArgs] at h
  | p :: ps, a :: as, n, i, h => by
    by_cases ht : a.ty = p
    · simp only [sepArgs, if_pos ht] at h
      obtain ⟨k, b, q, e, h1, h2⟩ := sepArgs_casts ps as n i h
      exact ⟨k, b, q, e, h1, by simp [h2]⟩
    · simp only [sepArgs, if_neg ht] at h
      rcases List.mem_cons.mp h with rfl | h
      · exact ⟨_, _, _, rfl, ht, by simp⟩
      · obtain ⟨k, b, q, e, h1, h2⟩ := sepArgs_casts ps as (n + 1) i h
        exact ⟨k, b, q, e, h1, by simp [h2]⟩

/-- New arguments are old ones or casts. -/
theorem sepArgs_new : ∀ (ps : List CTy) (as : List BVal) (n : Nat), ∀ v ∈ (sepArgs n ps as).2.1,
    v ∈ as ∨ ∃ k p, v = .ref k p ∧ n ≤ k ∧ (k, p) ∈ defsOf (sepArgs n ps as).1
  | [], _, n, v, h => by
    simp only [sepArgs] at h
    exact .inl h
  | _ :: _, [], n, v, h => by simp [sepArgs] at h
  | p :: ps, a :: as, n, v, h => by
    by_cases ht : a.ty = p
    · simp only [sepArgs, if_pos ht] at h ⊢
      rcases List.mem_cons.mp h with rfl | h
      · exact .inl (by simp)
      · rcases sepArgs_new ps as n v h with h | h
        · exact .inl (by simp [h])
        · exact .inr h
    · simp only [sepArgs, if_neg ht] at h ⊢
      rcases List.mem_cons.mp h with rfl | h
      · exact .inr ⟨n, p, rfl, le_refl _, by simp [defsOf, CIn.id, CIn.ty]⟩
      · rcases sepArgs_new ps as (n + 1) v h with h | ⟨k, q, e, h1, h2⟩
        · exact .inl (by simp [h])
        · exact .inr ⟨k, q, e, by omega, List.mem_cons_of_mem _ h2⟩

/-- Where an instruction of the result comes from. -/
inductive FromSep (sig : Nat → FnTy) (next : Nat) (i : CIn) (D : List (Nat × CTy)) : CIn → Prop where
  | kept (h : sepOk sig i = none) : FromSep sig next i D i
  | arg (id f : Nat) (args : List BVal) (ty : CTy) (h : sepOk sig i = some (id, f, args, ty)) (k : Nat) (a : BVal) (p : CTy)
      (hne : a.ty ≠ p) (hm : (p, a) ∈ (sig f).params.zip args) : FromSep sig next i D (.cast k a p)
  | call (id f : Nat) (args : List BVal) (ty : CTy) (h : sepOk sig i = some (id, f, args, ty)) (k : Nat) (args' : List BVal)
      (ht : args'.map BVal.ty = (sig f).params ++ (args.drop (sig f).params.length).map BVal.ty)
      (hv : ∀ v ∈ args', v ∈ args ∨ ∃ k p, v = .ref k p ∧ next ≤ k ∧ (k, p) ∈ D) :
      FromSep sig next i D (.call k (.fn f) args' (sig f).ret)
  | ret (id f : Nat) (args : List BVal) (ty : CTy) (h : sepOk sig i = some (id, f, args, ty)) (k : Nat) (k' : Nat)
      (h1 : ty ≠ (sig f).ret) (h2 : (sig f).ret ≠ .void) (h3 : next ≤ k) (h4 : (k, (sig f).ret) ∈ D) :
      FromSep sig next i D (.cast k' (.ref k (sig f).ret) ty)

theorem fromSep_mono {sig : Nat → FnTy} {next next' : Nat} {i j : CIn} {D D' : List (Nat × CTy)} (hn : next' ≤ next)
    (hD : ∀ x ∈ D, x ∈ D') (h : FromSep sig next i D j) : FromSep sig next' i D' j := by
  cases h with
  | kept h => exact .kept h
  | arg id f args ty h k a p hne hm => exact .arg id f args ty h k a p hne hm
  | call id f args ty h k args' ht hv =>
    refine .call id f args ty h k args' ht fun v h => ?_
    rcases hv v h with h | ⟨k, p, e, h1, h2⟩
    · exact .inl h
    · exact .inr ⟨k, p, e, by omega, hD _ h2⟩
  | ret id f args ty h k k' h1 h2 h3 h4 => exact .ret id f args ty h k k' h1 h2 (by omega) (hD _ h4)

theorem sepInst_from (sig : Nat → FnTy) (i : CIn) (st : SepSt) : ∀ j ∈ (sepInst sig i st).1,
    FromSep sig st.next i (defsOf (sepInst sig i st).1) j := by
  unfold sepInst
  cases hs : sepOk sig i with
  | none =>
    intro j hj
    rw [List.mem_singleton.mp hj]
    exact .kept hs
  | some y =>
    obtain ⟨id, f, args, ty⟩ := y
    have hl := (sepOk_some hs).2.1
    have hn := sepArgs_next (sig f).params args st.next
    intro j hj
    simp only at hj ⊢
    rcases List.mem_append.mp hj with hj | hj
    · obtain ⟨k, a, p, rfl, h1, h2⟩ := sepArgs_casts _ _ _ j hj
      exact .arg id f args ty hs k a p h1 h2
    · rcases List.mem_cons.mp hj with rfl | hj
      · refine .call id f args ty hs _ _ (sepArgs_types _ _ _ hl) fun v hv => ?_
        rcases sepArgs_new _ _ _ v hv with h | ⟨k, p, e, h1, h2⟩
        · exact .inl h
        · refine .inr ⟨k, p, e, h1, ?_⟩
          unfold defsOf at h2 ⊢
          rw [List.map_append]
          exact List.mem_append_left _ h2
      · by_cases hc : ty ≠ (sig f).ret ∧ (sig f).ret ≠ .void
        · simp only [sepRet, if_pos hc, List.mem_singleton] at hj
          subst hj
          refine .ret id f args ty hs _ _ hc.1 hc.2 hn ?_
          simp [defsOf, CIn.id, CIn.ty]
        · simp [sepRet, if_neg hc] at hj

theorem sepCode_from (sig : Nat → FnTy) : ∀ (is : List CIn) (st : SepSt), ∀ j ∈ (sepCode sig is st).1,
    ∃ i ∈ is, FromSep sig st.next i (defsOf (sepCode sig is st).1) j
  | [], st, j, h => by simp [sepCode] at h
  | i :: is, st, j, h => by
    simp only [sepCode] at h ⊢
    rcases List.mem_append.mp h with h | h
    · refine ⟨i, by simp, fromSep_mono (le_refl _) (fun x hx => ?_) (sepInst_from sig i st j h)⟩
      unfold defsOf at hx ⊢
      rw [List.map_append]
      exact List.mem_append_left _ hx
    · obtain ⟨k, hk, h1⟩ := sepCode_from sig is _ j h
      refine ⟨k, by simp [hk], fromSep_mono (sepInst_later sig i st).1 (fun x hx => ?_) h1⟩
      unfold defsOf at hx ⊢
      rw [List.map_append]
      exact List.mem_append_right _ hx

theorem sepCode_kept (sig : Nat → FnTy) : ∀ (is : List CIn) (st : SepSt), ∀ i ∈ is, sepOk sig i = none →
    i ∈ (sepCode sig is st).1
  | j :: is, st, i, hi, hs => by
    simp only [sepCode]
    rcases List.mem_cons.mp hi with rfl | hi
    · exact List.mem_append_left _ (by simp [sepInst, hs])
    · exact List.mem_append_right _ (sepCode_kept sig is _ i hi hs)

/-- The replacement of a call has its type, and is defined. -/
theorem sepCode_map (sig : Nat → FnTy) : ∀ (is : List CIn) (st : SepSt), ∀ x ∈ (sepCode sig is st).2.map,
    x ∈ st.map ∨ ∃ i ∈ is, i.id = x.1 ∧ ∃ j, x.2 = .ref j i.ty ∧ (j, i.ty) ∈ defsOf (sepCode sig is st).1
  | [], st, x, h => .inl h
  | i :: is, st, x, h => by
    simp only [sepCode] at h ⊢
    have up : ∀ y ∈ defsOf (sepCode sig is (sepInst sig i st).2).1,
        y ∈ defsOf ((sepInst sig i st).1 ++ (sepCode sig is (sepInst sig i st).2).1) := by
      intro y hy
      unfold defsOf at hy ⊢
      rw [List.map_append]
      exact List.mem_append_right _ hy
    rcases sepCode_map sig is _ x h with h | ⟨k, hk, e, j, e2, h2⟩
    · cases hs : sepOk sig i with
      | none =>
        simp only [sepInst, hs] at h
        exact .inl h
      | some y =>
        obtain ⟨id, f, args, ty⟩ := y
        obtain ⟨rfl, _, hv⟩ := sepOk_some hs
        simp only [sepInst, hs] at h
        rcases List.mem_cons.mp h with rfl | h
        · refine .inr ⟨.call id (.castFn f) args ty, by simp, rfl, ?_⟩
          by_cases hc : ty ≠ (sig f).ret ∧ (sig f).ret ≠ .void
          · refine ⟨(sepArgs st.next (sig f).params args).2.2 + 1, by simp only [sepRet, if_pos hc, CIn.ty], ?_⟩
            simp [defsOf, sepInst, hs, sepRet, if_pos hc, CIn.id, CIn.ty]
          · have ht : (sig f).ret = ty := by
              by_contra hne
              refine hc ⟨fun e => hne e.symm, fun e => ?_⟩
              exact hne (e.trans (hv e).symm)
            refine ⟨(sepArgs st.next (sig f).params args).2.2, by rw [sepRet, if_neg hc, ht]; rfl, ?_⟩
            simp [defsOf, sepInst, hs, CIn.id, CIn.ty, ht]
        · exact .inl h
    · exact .inr ⟨k, by simp [hk], e, j, e2, up _ h2⟩

/-- All names and types of code of blocks. -/
def defsBlocks (Bs : List CBlock) : List (Nat × CTy) := Bs.flatMap fun B => defsOf B.code

theorem sepBlocks_map (sig : Nat → FnTy) : ∀ (Bs : List CBlock) (st : SepSt), ∀ x ∈ (sepBlocks sig Bs st).2.map,
    x ∈ st.map ∨ ∃ B ∈ Bs, ∃ i ∈ B.code, i.id = x.1 ∧
      ∃ j, x.2 = .ref j i.ty ∧ (j, i.ty) ∈ defsBlocks (sepBlocks sig Bs st).1
  | [], st, x, h => .inl h
  | B :: Bs, st, x, h => by
    simp only [sepBlocks, defsBlocks, List.flatMap_cons] at h ⊢
    rcases sepBlocks_map sig Bs _ x h with h | ⟨C, hC, i, hi, e, j, e2, h2⟩
    · rcases sepCode_map sig B.code st x h with h | ⟨i, hi, e, j, e2, h2⟩
      · exact .inl h
      · exact .inr ⟨B, by simp, i, hi, e, j, e2, List.mem_append_left _ h2⟩
    · exact .inr ⟨C, by simp [hC], i, hi, e, j, e2, List.mem_append_right _ h2⟩

theorem sepBlocks_mem (sig : Nat → FnTy) : ∀ (Bs : List CBlock) (st : SepSt), ∀ C ∈ (sepBlocks sig Bs st).1,
    ∃ B ∈ Bs, ∃ st', st.next ≤ st'.next ∧ C = ⟨B.phis, (sepCode sig B.code st').1⟩
  | [], st, C, h => by simp [sepBlocks] at h
  | B :: Bs, st, C, h => by
    simp only [sepBlocks] at h
    rcases List.mem_cons.mp h with rfl | h
    · exact ⟨B, by simp, st, le_refl _, rfl⟩
    · obtain ⟨B', hB, st', h1, e⟩ := sepBlocks_mem sig Bs _ C h
      exact ⟨B', by simp [hB], st', le_trans (sepCode_later sig B.code st).1 h1, e⟩

theorem sepBlocks_kept (sig : Nat → FnTy) : ∀ (Bs : List CBlock) (st : SepSt), ∀ B ∈ Bs,
    ∃ C ∈ (sepBlocks sig Bs st).1, C.phis = B.phis ∧ ∀ i ∈ B.code, sepOk sig i = none → i ∈ C.code
  | B :: Bs, st, C, h => by
    simp only [sepBlocks]
    rcases List.mem_cons.mp h with rfl | h
    · exact ⟨⟨C.phis, (sepCode sig C.code st).1⟩, by simp, rfl, fun i hi hs => sepCode_kept sig _ st i hi hs⟩
    · obtain ⟨D, hD, h1⟩ := sepBlocks_kept sig Bs (sepCode sig B.code st).2 C h
      exact ⟨D, List.mem_cons_of_mem _ hD, h1⟩

theorem substIn_id (m : List (Nat × BVal)) (i : CIn) : (substIn m i).id = i.id ∧ (substIn m i).ty = i.ty := by
  cases i <;> exact ⟨rfl, rfl⟩

theorem operands_subst (m : List (Nat × BVal)) (i : CIn) : operandsC (substIn m i) = (operandsC i).map (sepVal m) := by
  cases i with
  | call i c args ty => cases c <;> rfl
  | cast i x ty => rfl
  | other i k ops ty => rfl

/-- Names and types after the replacement. -/
theorem defs_after (sig : Nat → FnTy) (next : Nat) (f : CFun) : defsC (separateCalls sig next f) =
    f.args ++ (sepBlocks sig f.blocks ⟨[], next⟩).1.flatMap
      fun B => (B.phis.map fun p => (p.id, p.ty)) ++ B.code.map fun i => (i.id, i.ty) := by
  simp only [defsC, separateCalls, List.flatMap_map, substBlock, List.map_map]
  congr 1
  congr 1
  funext B
  congr 1
  refine List.map_congr_left fun i _ => ?_
  have := substIn_id (sepBlocks sig f.blocks ⟨[], next⟩).2.map i
  simp [this.1, this.2]

/-- A typed value stays defined with its type. -/
theorem value_after {sig : Nat → FnTy} {f : CFun} {next : Nat} (w : WellNamedC f) (hb : ∀ x ∈ defsC f, x.1 < next)
    {a : Nat} {t : CTy} (h : (a, t) ∈ defsC f) :
    ∃ b, sepVal (sepBlocks sig f.blocks ⟨[], next⟩).2.map (.ref a t) = .ref b t ∧
      (b, t) ∈ defsC (separateCalls sig next f) := by
  rw [defs_after]
  cases hl : (sepBlocks sig f.blocks ⟨[], next⟩).2.map.lookup a with
  | some v =>
    rcases sepBlocks_map sig f.blocks ⟨[], next⟩ _ (lookup_mem' hl) with h' | ⟨B, hB, i, hi, e, j, e2, h2⟩
    · cases h'
    · simp only at e e2
      have h3 : (a, i.ty) ∈ defsC f := by
        rw [← e]
        exact List.mem_append_right _ (List.mem_flatMap.mpr ⟨B, hB,
          List.mem_append_right _ (List.mem_map.mpr ⟨i, hi, rfl⟩)⟩)
      have h4 : (a, t) = (a, i.ty) := List.inj_on_of_nodup_map w.unique h h3 rfl
      cases h4
      refine ⟨j, by rw [sepVal_some hl, e2], List.mem_append_right _ ?_⟩
      obtain ⟨C, hC, hm⟩ := List.mem_flatMap.mp h2
      exact List.mem_flatMap.mpr ⟨C, hC, List.mem_append_right _ hm⟩
  | none =>
    refine ⟨a, sepVal_none hl t, ?_⟩
    rcases List.mem_append.mp h with h | h
    · exact List.mem_append_left _ h
    · obtain ⟨B, hB, h⟩ := List.mem_flatMap.mp h
      obtain ⟨C, hC, h1, h2⟩ := sepBlocks_kept sig f.blocks ⟨[], next⟩ B hB
      refine List.mem_append_right _ (List.mem_flatMap.mpr ⟨C, hC, ?_⟩)
      rcases List.mem_append.mp h with h | h
      · rw [h1]
        exact List.mem_append_left _ h
      · obtain ⟨i, hi, e⟩ := List.mem_map.mp h
        refine List.mem_append_right _ (List.mem_map.mpr ⟨i, h2 i hi ?_, e⟩)
        cases hs : sepOk sig i with
        | none => rfl
        | some y =>
          exfalso
          have hk := sepBlocks_keys sig f.blocks ⟨[], next⟩
          simp only [List.map_nil, List.append_nil] at hk
          have : a ∈ (sepBlocks sig f.blocks ⟨[], next⟩).2.map.map Prod.fst := by
            rw [hk, List.mem_reverse]
            refine List.mem_flatMap.mpr ⟨B, hB, List.mem_map.mpr ⟨i, List.mem_filter.mpr ⟨hi, by simp [hs]⟩, ?_⟩⟩
            exact congrArg Prod.fst e
          obtain ⟨x, hx, e'⟩ := List.mem_map.mp this
          have F := final_map (sig := sig) w.unique hb
          have := lookup_keys F.keys (i := x.1) (v := x.2) hx
          rw [e', hl] at this
          cases this

theorem unique_after {sig : Nat → FnTy} {f : CFun} {next : Nat} (w : WellNamedC f) (hb : ∀ x ∈ defsC f, x.1 < next) :
    ((defsC (separateCalls sig next f)).map Prod.fst).Nodup := by
  rw [defs_after]
  have e : ∀ Bs : List CBlock, (f.args ++ Bs.flatMap
      fun B => (B.phis.map fun p => (p.id, p.ty)) ++ B.code.map fun i => (i.id, i.ty)).map Prod.fst =
      f.args.map Prod.fst ++ Bs.flatMap fun B => B.phis.map CPhi.id ++ B.code.map CIn.id := by
    intro Bs
    simp [List.map_flatMap, Function.comp_def]
  rw [e]
  have hp := List.Perm.append_left (f.args.map Prod.fst) (sepBlocks_names sig f.blocks ⟨[], next⟩)
  rw [hp.nodup_iff, ← List.append_assoc]
  have hsub : (f.args.map Prod.fst ++ f.blocks.flatMap fun B => B.phis.map CPhi.id ++ keptIds sig B.code).Sublist
      ((defsC f).map Prod.fst) := by
    unfold defsC
    rw [e]
    refine List.Sublist.append (List.Sublist.refl _) ?_
    induction f.blocks with
    | nil => exact List.Sublist.refl _
    | cons B Bs ih =>
      simp only [List.flatMap_cons]
      exact ((List.Sublist.refl _).append (List.Sublist.map _ List.filter_sublist)).append ih
  refine List.nodup_append.mpr ⟨hsub.nodup w.unique, List.nodup_range', ?_⟩
  intro a ha b hb' e
  subst e
  obtain ⟨x, hx, e⟩ := List.mem_map.mp (hsub.subset ha)
  have h1 := hb x hx
  have h2 := (List.mem_range'_1.mp hb').1
  simp only at h2
  omega

/-- **C169** (partial): it holds if, for calls through casts, arguments have the types of parameters or can be
bitcast to them, there are not too many of them, and the result has the type of the call or can be bitcast to
it. Missing: other calls through casts. -/
theorem C169_valid_partial (sig : Nat → FnTy) (next : Nat) (f : CFun) (hb : ∀ x ∈ defsC f, x.1 < next)
    (hv : ValidC sig f) (hf : CallsFit sig f) : ValidC sig (separateCalls sig next f) := by
  have w := hv.1
  have F := final_map (sig := sig) w.unique hb
  -- operands of an instruction of the result, before the replacement
  have uses : ∀ C ∈ (sepBlocks sig f.blocks ⟨[], next⟩).1, ∀ j ∈ C.code, ∀ v ∈ operandsC j,
      (∃ a t, v = .ref a t ∧ (a, t) ∈ defsC f) ∨
      (∃ a t, v = .ref a t ∧ next ≤ a ∧ (a, t) ∈ defsC (separateCalls sig next f)) ∨ ∃ c t, v = .const c t := by
    intro C hC j hj v hv'
    obtain ⟨B, hB, st', hst, rfl⟩ := sepBlocks_mem sig f.blocks _ C hC
    obtain ⟨i, hi, h⟩ := sepCode_from sig B.code st' j hj
    have old : ∀ v ∈ operandsC i, (∃ a t, v = .ref a t ∧ (a, t) ∈ defsC f) ∨
        (∃ a t, v = .ref a t ∧ next ≤ a ∧ (a, t) ∈ defsC (separateCalls sig next f)) ∨ ∃ c t, v = .const c t := by
      intro v hv
      cases v with
      | ref a t => exact .inl ⟨a, t, rfl, w.code B hB i hi a t hv⟩
      | const c t => exact .inr (.inr ⟨c, t, rfl⟩)
    have new : ∀ k t, (k, t) ∈ defsOf (sepCode sig B.code st').1 → (k, t) ∈ defsC (separateCalls sig next f) := by
      intro k t h
      rw [defs_after]
      exact List.mem_append_right _ (List.mem_flatMap.mpr ⟨_, hC, List.mem_append_right _ h⟩)
    cases h with
    | kept h => exact old v hv'
    | arg id g args ty h k a p hne hm =>
      obtain ⟨rfl, _, _⟩ := sepOk_some h
      simp only [operandsC, List.mem_singleton] at hv'
      subst hv'
      exact old _ (List.of_mem_zip hm).2
    | call id g args ty h k args' ht hv =>
      obtain ⟨rfl, _, _⟩ := sepOk_some h
      rcases hv v hv' with h | ⟨k, p, e, h1, h2⟩
      · exact old _ h
      · exact .inr (.inl ⟨k, p, e, le_trans hst h1, new _ _ h2⟩)
    | ret id g args ty h k k' h1 h2 h3 h4 =>
      simp only [operandsC, List.mem_singleton] at hv'
      exact .inr (.inl ⟨_, _, hv', le_trans hst h3, new _ _ h4⟩)
  -- types stay
  have types : ∀ C ∈ (sepBlocks sig f.blocks ⟨[], next⟩).1, ∀ j ∈ C.code, ∀ v ∈ operandsC j,
      (sepVal (sepBlocks sig f.blocks ⟨[], next⟩).2.map v).ty = v.ty := by
    intro C hC j hj v hv'
    rcases uses C hC j hj v hv' with ⟨a, t, rfl, h⟩ | ⟨a, t, rfl, h, _⟩ | ⟨c, t, rfl⟩
    · obtain ⟨b, e, _⟩ := value_after (sig := sig) w hb h
      rw [e]
      rfl
    · rw [sepVal_new F h]
    · rfl
  refine ⟨⟨unique_after w hb, ?_, ?_⟩, ?_⟩
  · intro D hD i hi a t ha
    obtain ⟨C, hC, rfl⟩ := List.mem_map.mp hD
    obtain ⟨j, hj, rfl⟩ := List.mem_map.mp hi
    rw [operands_subst] at ha
    obtain ⟨v, hv', e⟩ := List.mem_map.mp ha
    rcases uses C hC j hj v hv' with ⟨b, t', rfl, h⟩ | ⟨b, t', rfl, h, h'⟩ | ⟨c, t', rfl⟩
    · obtain ⟨d, e', h'⟩ := value_after (sig := sig) w hb h
      rw [e'] at e
      cases e
      exact h'
    · rw [sepVal_new F h] at e
      cases e
      exact h'
    · cases e
  · intro D hD p hp x hx a t ha
    obtain ⟨C, hC, rfl⟩ := List.mem_map.mp hD
    obtain ⟨q, hq, rfl⟩ := List.mem_map.mp hp
    obtain ⟨y, hy, rfl⟩ := List.mem_map.mp hx
    obtain ⟨B, hB, st', _, rfl⟩ := sepBlocks_mem sig f.blocks _ C hC
    obtain ⟨y1, y2⟩ := y
    cases y2 with
    | const c t => cases ha
    | ref b t' =>
      obtain ⟨d, e', h'⟩ := value_after (sig := sig) w hb (w.phis B hB q hq _ hy b t' rfl)
      simp only [e'] at ha
      cases ha
      exact h'
  · intro D hD i hi
    obtain ⟨C, hC, rfl⟩ := List.mem_map.mp hD
    obtain ⟨j, hj, rfl⟩ := List.mem_map.mp hi
    have ht := types C hC j hj
    obtain ⟨B, hB, st', hst, rfl⟩ := sepBlocks_mem sig f.blocks _ C hC
    obtain ⟨i, hi, h⟩ := sepCode_from sig B.code st' j hj
    have tys : ∀ {args : List BVal}, (∀ v ∈ args, v ∈ operandsC j) →
        (args.map (sepVal (sepBlocks sig f.blocks ⟨[], next⟩).2.map)).map BVal.ty = args.map BVal.ty := by
      intro args h
      rw [List.map_map]
      exact List.map_congr_left fun v hv => ht v (h v hv)
    cases h with
    | kept h =>
      have hval := hv.2 B hB _ hi
      cases j with
      | call k c args ty =>
        cases c with
        | fn g =>
          simp only [substIn, sepCallee, ValidIn] at hval ⊢
          rw [tys (args := args) (fun v hv => hv)]
          exact hval
        | castFn g => trivial
        | other v => trivial
      | cast k x ty =>
        simp only [substIn, ValidIn] at hval ⊢
        rw [ht x (by simp [operandsC])]
        exact hval
      | other k c ops ty => trivial
    | arg id g args ty h k a p hne hm =>
      obtain ⟨rfl, _, _⟩ := sepOk_some h
      simp only [substIn, ValidIn]
      rw [ht a (by simp [operandsC])]
      have hfit := (hf B hB id g args ty hi).1.1 (p, a.ty) (by
        rw [List.zip_map_right]
        exact List.mem_map.mpr ⟨_, hm, rfl⟩)
      rcases hfit with h | h
      · exact absurd h hne
      · exact h
    | call id g args ty h k args' hty _ =>
      obtain ⟨rfl, hl, _⟩ := sepOk_some h
      simp only [substIn, sepCallee, ValidIn]
      rw [tys (args := args') (fun v hv => hv), hty]
      refine ⟨?_, trivial⟩
      unfold CanPass
      split
      · exact List.prefix_append _ _
      · next hva =>
        have := (hf B hB id g args ty hi).1.2 (by simpa using hva)
        simp only [List.length_map] at this
        rw [List.drop_eq_nil_of_le this]
        simp
    | ret id g args ty h k k' h1 h2 h3 h4 =>
      obtain ⟨rfl, hl, _⟩ := sepOk_some h
      simp only [substIn, ValidIn]
      rw [ht _ (by simp [operandsC])]
      rcases (hf B hB id g args ty hi).2 with h | h | h
      · exact absurd h.symm h1
      · exact absurd h h2
      · exact h

/-- The theorem applies to a call with casts of the argument and of the result. -/
example : ValidC sampleSig (separateCalls sampleSig 10 (sampleCast 5 [.ref 0 (.ptr 9)] (.ptr 7))) :=
  C169_valid_partial _ _ _ (by decide +kernel)
    ⟨wellB_ok (by decide +kernel), by
      intro B hB i hi
      simp only [sampleCast, List.mem_cons, List.not_mem_nil, or_false] at hB
      rcases hB with rfl | rfl <;> simp only [List.mem_cons, List.not_mem_nil, or_false] at hi
      · subst hi; trivial
      · rcases hi with rfl | rfl | rfl <;> trivial⟩
    (by
      intro B hB i k args ty hi
      simp only [sampleCast, List.mem_cons, List.not_mem_nil, or_false] at hB
      rcases hB with rfl | rfl <;> simp only [List.mem_cons, List.not_mem_nil, or_false, reduceCtorEq] at hi
      cases hi
      refine ⟨⟨?_, fun _ => by simp [sampleSig]⟩, .inr (.inr trivial)⟩
      intro x hx
      simp only [sampleSig, List.map_cons, List.map_nil, BVal.ty, List.zip_cons_cons, List.zip_nil_right,
        List.mem_singleton] at hx
      subst hx
      exact .inr trivial)

end DK
