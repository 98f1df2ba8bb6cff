import Verif.Props.DiffCmp

/-!
Repeated comparisons of the same functions (C89).
-/

set_option autoImplicit false

namespace DK
open Spec

/-- **C89** (fails): comparing the same functions once more gives the same verdict. The result of a
comparison has the branches whose successors are exchanged afterwards. -/
def C89_statement : Prop :=
  ∀ (cfg : DCfg) (steps : Nat) (l r : DFun) (sw sw' : List Nat) (v v' : Bool), DWellFormed l → DWellFormed r →
    compareD cfg steps l r [] = some (v, sw) → compareD cfg steps l r sw = some (v', sw') → v = v'

/-- An inverted condition is found equal at first, and different when the functions are compared again. -/
theorem C89_fails : ¬ C89_statement := by
  intro h
  have := h cfgInverse 50 (invF .eq 2 1) (invF .ne 1 2) [5] [5, 5] true false (wfB_ok (by decide +kernel))
    (wfB_ok (by decide +kernel)) (by decide +kernel) (by decide +kernel)
  cases this

/-- Inverse conditions and swapped branches of two states are the same. -/
def Quiet (st st' : DSt) : Prop := st.inv = [] → st'.inv = [] ∧ st'.swapped = st.swapped

theorem Quiet.refl (st : DSt) : Quiet st st := fun h => ⟨h, rfl⟩

theorem Quiet.trans {a b c : DSt} (h : Quiet a b) (h' : Quiet b c) : Quiet a c := fun e =>
  ⟨(h' (h e).1).1, ((h' (h e).1).2).trans (h e).2⟩

theorem quiet_of {st st' : DSt} (h1 : st'.inv = st.inv) (h2 : st'.swapped = st.swapped) : Quiet st st' :=
  fun h => ⟨h1.trans h, h2⟩

theorem cmpRefs_quiet (P : DPair) (a b : DKey) (st : DSt) : Quiet st (cmpRefs P a b st).2 := by
  unfold cmpRefs
  simp only
  repeat' split
  all_goals exact quiet_of rfl rfl

theorem cmpPlain_quiet (P : DPair) (a b : DOp) (st : DSt) : Quiet st (cmpPlainD P a b st).2 := by
  unfold cmpPlainD
  split
  · exact cmpRefs_quiet _ _ _ _
  · exact .refl _
  · exact .refl _

theorem cmpVals_quiet (P : DPair) : ∀ (n : Nat) (a b : DOp) (st : DSt), Quiet st (cmpVals P n a b st).2
  | 0, a, b, st => by
    unfold cmpVals
    split
    · exact .refl _
    · split
      · exact .refl _
      · exact cmpPlain_quiet _ _ _ _
  | n + 1, a, b, st => by
    unfold cmpVals
    split
    · exact .refl _
    · split
      · exact cmpVals_quiet P n _ _ _
      · exact cmpPlain_quiet _ _ _ _

theorem cmpOpList_quiet (P : DPair) : ∀ (a b : List DOp) (st : DSt), Quiet st (cmpOpList P a b st).2
  | [], _, _ => .refl _
  | _ :: _, [], _ => .refl _
  | a :: as, b :: bs, st => by
    simp only [cmpOpList]
    split
    · exact (cmpVals_quiet _ _ _ _ _).trans (cmpOpList_quiet P as bs _)
    · exact cmpVals_quiet _ _ _ _ _

theorem inverseBranches_nil {l r : DInst} {st : DSt} (h : st.inv = []) : inverseBranches l r st = false := by
  unfold inverseBranches
  split
  · simp [h]
  · rfl

theorem cmpInsts_quiet {cfg : DCfg} (hc : cfg.inverse = false) (P : DPair) (l r : DInst) (st : DSt) :
    Quiet st (cmpInsts cfg P l r st).2 := by
  intro h
  unfold cmpInsts
  simp only
  split
  · exact ⟨h, rfl⟩
  · have q := cmpVals_quiet P P.depth (.ref l.id l.ty) (.ref r.id r.ty) st
    rw [inverseBranches_nil (q h).1, hc]
    simp only [Bool.false_and, if_false, Bool.false_eq_true]
    split
    · exact q.trans (cmpOpList_quiet _ _ _ _) h
    · exact q h

theorem undoLast_quiet (a b : Nat) (st : DSt) : Quiet st (undoLast a b st) := quiet_of rfl rfl

theorem maySkipL_quiet (cfg : DCfg) (P : DPair) (i : DInst) (st : DSt) : Quiet st (maySkipL cfg P i st).2 := by
  unfold maySkipL
  repeat' split
  all_goals exact quiet_of rfl rfl

theorem maySkipR_quiet (cfg : DCfg) (P : DPair) (i : DInst) (st : DSt) : Quiet st (maySkipR cfg P i st).2 := by
  unfold maySkipR
  repeat' split
  all_goals exact quiet_of rfl rfl

theorem searchR_quiet {cfg : DCfg} (hc : cfg.inverse = false) (P : DPair) (b : List DInst) (l : DInst) :
    ∀ (prev : Nat) (rs : List DInst) (st : DSt) {x : List DInst × DSt × Bool},
      searchR cfg P b l prev rs st = some x → Quiet st x.2.1
  | _, [], _, _, h => by cases h
  | prev, r :: rs, st, x, h => by
    have q := cmpInsts_quiet hc P l r st
    simp only [searchR] at h
    split at h
    · split at h
      · cases h; exact q
      · cases h; exact q.trans (quiet_of rfl rfl)
    · refine q.trans (Quiet.trans ?_ (searchR_quiet hc P b l _ rs _ h))
      exact quiet_of rfl rfl

theorem searchL_quiet {cfg : DCfg} (hc : cfg.inverse = false) (P : DPair) (b : List DInst) (r : DInst) :
    ∀ (prev : Nat) (ls : List DInst) (st : DSt) {x : List DInst × DSt × Bool},
      searchL cfg P b r prev ls st = some x → Quiet st x.2.1
  | _, [], _, _, h => by cases h
  | prev, l :: ls, st, x, h => by
    have q := cmpInsts_quiet hc P l r st
    simp only [searchL] at h
    split at h
    · split at h
      · cases h; exact q
      · cases h; exact q.trans (quiet_of rfl rfl)
    · refine q.trans (Quiet.trans ?_ (searchL_quiet hc P b r _ ls _ h))
      exact quiet_of rfl rfl

theorem fromL_quiet {cfg : DCfg} (hc : cfg.inverse = false) (P : DPair) (l : DInst) (ls iR : List DInst) (st : DSt)
    {x : List DInst × List DInst × DSt}
    (h : (match iR with
      | [] => none
      | r :: rs =>
        match searchL cfg P (l :: ls) r l.id ls (undoLast l.id r.id st) with
        | some (iL, st, true) => some (iL, r :: rs, st)
        | _ => none) = some x) : Quiet st x.2.2 := by
  cases iR with
  | nil => cases h
  | cons r rs =>
    simp only at h
    cases hs : searchL cfg P (l :: ls) r l.id ls (undoLast l.id r.id st) with
    | none => rw [hs] at h; cases h
    | some y =>
      obtain ⟨iL, st', res⟩ := y
      rw [hs] at h
      cases res with
      | false => cases h
      | true =>
        cases h
        exact (undoLast_quiet _ _ _).trans (searchL_quiet hc P _ _ _ _ _ hs)

theorem findReloc_quiet {cfg : DCfg} (hc : cfg.inverse = false) (P : DPair) (l : DInst) (ls : List DInst) (r : DInst)
    (rs : List DInst) (st : DSt) {x : List DInst × List DInst × DSt} (h : findReloc cfg P l ls r rs st = some x) :
    Quiet st x.2.2 := by
  unfold findReloc at h
  simp only at h
  cases hs : searchR cfg P (r :: rs) l r.id rs (undoLast l.id r.id st) with
  | none =>
    rw [hs] at h
    exact (undoLast_quiet _ _ _).trans (fromL_quiet hc P l ls (r :: rs) _ h)
  | some y =>
    obtain ⟨iR, st', res⟩ := y
    have q := (undoLast_quiet l.id r.id st).trans (searchR_quiet hc P _ _ _ _ _ hs)
    rw [hs] at h
    cases res with
    | true => cases h; exact q
    | false => exact q.trans (fromL_quiet hc P l ls iR st' h)

theorem afterDiff_quiet {cfg : DCfg} (hc : cfg.inverse = false) (P : DPair) (l : DInst) (ls : List DInst) (r : DInst)
    (rs : List DInst) (st : DSt) {x : List DInst × List DInst × DSt} (h : afterDiff cfg P l ls r rs st = some x) :
    Quiet st x.2.2 := by
  unfold afterDiff at h
  simp only [hc, Bool.false_and, Bool.false_eq_true, if_false] at h
  have q := (maySkipL_quiet cfg P l st).trans (maySkipR_quiet cfg P r (maySkipL cfg P l st).2)
  generalize (maySkipR cfg P r (maySkipL cfg P l st).2).2 = st1 at h q
  split at h
  · cases h; exact q.trans (undoLast_quiet _ _ _)
  · split at h
    · cases h; exact q
    · split at h
      · cases h; exact q.trans (quiet_of rfl rfl)
      · cases h; exact q.trans (quiet_of rfl rfl)
      · cases h
      · split at h
        · cases hf : findReloc cfg P l ls r rs st1 with
          | none => rw [hf] at h; cases h
          | some y => 
            rw [hf] at h
            cases h
            exact q.trans (findReloc_quiet (x := y) hc P l ls r rs st1 hf)
        · cases h

theorem afterEq_quiet (cfg : DCfg) (l : DInst) (ls : List DInst) (r : DInst) (rs : List DInst) (st : DSt)
    {x : List DInst × List DInst × DSt} (h : afterEq cfg l ls r rs st = some x) : Quiet st x.2.2 := by
  unfold afterEq at h
  repeat' split at h
  all_goals first | cases h; done | (cases h; exact quiet_of rfl rfl)

theorem cmpBlocks_quiet {cfg : DCfg} (hc : cfg.inverse = false) (P : DPair) : ∀ (n : Nat) (ls rs : List DInst) (st : DSt)
    {x : Bool × DSt}, cmpBlocks cfg P n ls rs st = some x → Quiet st x.2
  | n, [], [], st, x, h => by
    have h : some (true, st) = some x := by cases n <;> exact h
    cases h; exact .refl _
  | n, [], _ :: _, st, x, h => by
    have h : some (false, st) = some x := by cases n <;> exact h
    cases h; exact .refl _
  | n, _ :: _, [], st, x, h => by
    have h : some (false, st) = some x := by cases n <;> exact h
    cases h; exact .refl _
  | 0, _ :: _, _ :: _, _, _, h => by cases h
  | n + 1, l :: ls, r :: rs, st, x, h => by
    have q := cmpInsts_quiet hc P l r st
    simp only [cmpBlocks] at h
    split at h
    · next ls' rs' st' he =>
      refine q.trans (Quiet.trans ?_ (cmpBlocks_quiet hc P n ls' rs' st' h))
      split at he
      · exact afterEq_quiet cfg l ls r rs _ he
      · exact afterDiff_quiet hc P l ls r rs _ he
    · cases h; exact q

theorem cmpPairs_quiet {cfg : DCfg} (hc : cfg.inverse = false) (l r : DFun) (steps : Nat) : ∀ (n : Nat)
    (work : List (Nat × Nat)) (visited : List Nat) (st : DSt) {x : Bool × DSt},
    cmpPairs cfg l r steps n work visited st = some x → Quiet st x.2
  | n, [], _, st, x, h => by
    have h : some (true, st) = some x := by cases n <;> exact h
    cases h; exact .refl _
  | 0, _ :: _, _, _, _, h => by cases h
  | n + 1, (b, b') :: work, visited, st, x, h => by
    simp only [cmpPairs] at h
    split at h
    · next B B' _ _ =>
      have q := cmpVals_quiet ⟨l.all, r.all⟩ 0 (.blk b) (.blk b') st
      split at h
      · cases h
      · next st1 he =>
        cases h; exact q.trans (cmpBlocks_quiet hc _ steps _ _ _ he)
      · next st1 he =>
        exact q.trans ((cmpBlocks_quiet hc _ steps _ _ _ he).trans (cmpPairs_quiet hc l r steps n _ _ _ h))
    · cases h; exact .refl _

/-- **C89** (partial): without the pattern for inverse conditions a comparison, whatever its result,
leaves the functions as they were, so that further comparisons give the same verdict. Missing: with the
pattern branches remain swapped. -/
theorem C89_without_inverse_partial (cfg : DCfg) (hc : cfg.inverse = false) (steps : Nat) (l r : DFun)
    (sw sw' : List Nat) (v : Bool) (h : compareD cfg steps l r sw = some (v, sw')) :
    sw' = sw ∧ compareD cfg steps l r sw' = some (v, sw') := by
  have key : sw' = sw := by
    unfold compareD at h
    split at h
    · split at h
      · cases h; rfl
      · next B _ B' _ _ _ _ =>
        cases hp : cmpPairs cfg l r steps (l.blocks.length + 1) [(B.id, B'.id)] [B.id] (startSt l r sw) with
        | none => rw [hp] at h; cases h
        | some y =>
          rw [hp] at h
          simp only [Option.map_some, Option.some.injEq, Prod.mk.injEq] at h
          rw [← h.2]
          exact (cmpPairs_quiet hc l r steps _ _ _ _ hp rfl).2
    · cases h; rfl
  exact ⟨key, by rw [key] at h ⊢; exact h⟩

/-- A comparison of functions with a relocation and reordered operations. -/
example : compareD ⟨true, false, true, true⟩ 50 sumL sumR [7] = some (true, [7]) := by decide +kernel

end DK
