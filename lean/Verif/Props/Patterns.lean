import Verif.Props.DiffPhi
import Verif.Spec.Patterns

/-!
Properties of the comparison with phis and reordered operations (C166), and of patterns that are added
(C167).
-/

set_option autoImplicit false

namespace DK
open Spec

/-! ### C166 -/

/-- `p = c ? x : y; t = p + args[a]; s = g(); u = t + args[b]; h(u); return ret;` -/
def twoSums (a b ret : Nat) : DFun := ⟨[(0, 32), (1, 32), (2, 1)],
  [⟨0, [⟨10, .branch, 0, [r1 2, .blk 1, .blk 2], []⟩]⟩,
   ⟨1, [⟨11, .jump, 0, [.blk 3], []⟩]⟩, ⟨2, [⟨12, .jump, 0, [.blk 3], []⟩]⟩,
   ⟨3, [⟨3, .phi, 32, [r32 0, r32 1], [1, 2]⟩, ⟨4, .bin .add, 32, [r32 3, r32 a], []⟩, ⟨5, .call 9, 32, [], []⟩,
     ⟨6, .bin .add, 32, [r32 4, r32 b], []⟩, ⟨7, .call 8, 0, [r32 6], []⟩, ⟨8, .ret, 0, [r32 ret], []⟩]⟩]⟩

def noLoopsB (f : DFun) (rank : Nat → Nat) : Bool :=
  f.blocks.all fun B => B.code.all fun i => i.ops.all fun x =>
    match x with | .blk b => decide (rank B.id < rank b) | _ => true

theorem noLoopsB_ok {f : DFun} (rank : Nat → Nat) (h : noLoopsB f rank = true) : NoLoops f := by
  refine ⟨rank, fun B hB i hi b hb => ?_⟩
  have := List.all_eq_true.mp (List.all_eq_true.mp (List.all_eq_true.mp h B hB) i hi) _ hb
  simpa using this

/-- **C166** (fails): functions without loops, with the same control flow and without casts that are found
equal with the pattern for reordered binary operations return the same, with the same effects. -/
def C166_statement : Prop :=
  ∀ (l r : DFun) (φ : Nat → Nat) (steps : Nat) (sw : List Nat), DWellFormed l → DWellFormed r →
    Dominated l → Dominated r → NoConversions l → NoConversions r → EqualFlow l r φ → AllReached l → AllReached r →
    PhisOk l → PhisOk r → PhisUsed l → PhisUsed r → NoLoops l → NoLoops r → Folded l → Folded r →
    LocalTrees l → LocalTrees r → compareD cfgReorder steps l r [] = some (true, sw) → SameResults l r

/-- A function that returns the result of a call is found equal to one that returns the phi. -/
theorem C166_fails : ¬ C166_statement := by
  intro h
  have := h (twoSums 0 1 5) (twoSums 1 0 3) id 50 [] (wfB_ok (by decide +kernel))
    (wfB_ok (by decide +kernel)) (domB_ok (fun _ => []) (by decide +kernel)) (domB_ok (fun _ => []) (by decide +kernel))
    (noConversions_of (by decide +kernel)) (noConversions_of (by decide +kernel)) (equalFlowB_ok (by decide +kernel))
    (reached_ok (fun b => if b = 1 ∨ b = 2 then [0] else if b = 3 then [1, 0] else []) (by decide +kernel))
    (reached_ok (fun b => if b = 1 ∨ b = 2 then [0] else if b = 3 then [1, 0] else []) (by decide +kernel))
    (phisB_ok (by decide +kernel)) (phisB_ok (by decide +kernel)) (usedB_ok (by decide +kernel))
    (usedB_ok (by decide +kernel)) (noLoopsB_ok id (by decide +kernel)) (noLoopsB_ok id (by decide +kernel))
    (treesB_ok (by decide +kernel)).1 (treesB_ok (by decide +kernel)).1 (treesB_ok (by decide +kernel)).2
    (treesB_ok (by decide +kernel)).2 (by decide +kernel)
  exact not_same testMach (n := 9) (vals := [7, 8, -1]) (mem := []) (a := ([some (-1)], [(8, [some 23]), (9, [])]))
    (b := ([some 8], [(8, [some 23]), (9, [])])) (by decide +kernel) (by decide +kernel) (by decide) this

/-- The difference is found without the pattern, and when the sums are not exchanged. -/
example : compareD cfgNone 50 (twoSums 0 1 5) (twoSums 1 0 3) [] = some (false, []) := by decide +kernel
example : compareD cfgReorder 50 (twoSums 0 1 5) (twoSums 0 1 3) [] = some (false, []) := by decide +kernel

/-- **C166** (partial): it holds without phis and negations. Missing: functions with phis. -/
theorem C166_no_phis_partial (l r : DFun) (φ : Nat → Nat) (steps : Nat) (sw : List Nat) (wl : DWellFormed l)
    (wr : DWellFormed r) (dl : Dominated l) (dr : Dominated r) (pl : Plain l) (pr : Plain r) (fl : Folded l)
    (fr : Folded r) (tl : LocalTrees l) (tr : LocalTrees r) (hf : SameFlow l r φ)
    (h : compareD cfgReorder steps l r [] = some (true, sw)) : SameResults l r :=
  C41_reorder_partial cfgReorder rfl l r φ steps sw wl wr dl dr pl pr fl fr tl tr hf h

/-! ### C167 -/

/-- **C167** (fails): functions that are found equal are found equal with more patterns, too. -/
def C167_statement : Prop :=
  ∀ (c d : DCfg) (l r : DFun) (steps : Nat) (sw sw' : List Nat), MorePatterns c d →
    compareD c steps l r sw = some (true, sw') → compareD d steps l r sw = some (true, sw')

/-- `p = c ? x : y; return (p + x) + (x + y);`, with code after the phi. -/
def sumAfter (code : List DInst) : DFun := ⟨[(0, 32), (1, 32), (2, 1)],
  [⟨0, [⟨10, .branch, 0, [r1 2, .blk 1, .blk 2], []⟩]⟩,
   ⟨1, [⟨11, .jump, 0, [.blk 3], []⟩]⟩, ⟨2, [⟨12, .jump, 0, [.blk 3], []⟩]⟩,
   ⟨3, ⟨3, .phi, 32, [r32 0, r32 1], [1, 2]⟩ :: code ++ [⟨4, .bin .add, 32, [r32 3, r32 0], []⟩,
     ⟨5, .bin .add, 32, [r32 0, r32 1], []⟩, ⟨6, .bin .add, 32, [r32 4, r32 5], []⟩, ⟨8, .ret, 0, [r32 6], []⟩]⟩]⟩

/-- An added cast is accepted without patterns, and is a difference with the pattern for reordered
operations. -/
theorem C167_fails : ¬ C167_statement := by
  intro h
  have := h cfgNone cfgReorder (sumAfter [⟨9, .cast .sext, 64, [r32 0], []⟩]) (sumAfter []) 50 [] []
    (by unfold MorePatterns; decide) (by decide +kernel)
  revert this
  decide +kernel

theorem cmpInsts_more {c d : DCfg} (hm : MorePatterns c d) (P : DPair) (l r : DInst) (st : DSt)
    (h : (cmpInsts c P l r st).1 = true ∨ mayInvert P l r = false) : cmpInsts d P l r st = cmpInsts c P l r st := by
  unfold cmpInsts at h ⊢
  simp only at h ⊢
  split
  · rfl
  · next h0 =>
    rw [if_neg h0] at h
    split
    · rfl
    · next h1 =>
      rw [if_neg h1] at h
      split
      · rfl
      · next h2 =>
        rw [if_neg h2] at h
        cases hi : mayInvert P l r with
        | false => simp
        | true =>
          cases hc : c.inverse with
          | true => simp [hm.2.1 hc]
          | false => simp [hc, hi] at h

/-- Comparisons are neither skipped nor reordered. -/
theorem mayInvert_codes {P : DPair} {l r : DInst} (h : mayInvert P l r = true) :
    (∃ p, l.code = .cmp p) ∧ ∃ p, r.code = .cmp p := by
  unfold mayInvert at h
  split at h
  · next p q hl hr =>
    constructor
    · unfold predOf at hl
      split at hl
      · next e => exact ⟨_, e⟩
      · cases hl
    · unfold predOf at hr
      split at hr
      · next e => exact ⟨_, e⟩
      · cases hr
  · cases h

theorem maySkipL_cmp {c : DCfg} {P : DPair} {i : DInst} {p : Pred} (h : i.code = .cmp p) (st : DSt) :
    maySkipL c P i st = (false, st) := by
  simp [maySkipL, maySkipBin, binOf, maySkipCast, h]

theorem maySkipR_cmp {c : DCfg} {P : DPair} {i : DInst} {p : Pred} (h : i.code = .cmp p) (st : DSt) :
    maySkipR c P i st = (false, st) := by
  simp [maySkipR, maySkipBin, binOf, maySkipCast, h]

theorem afterDiff_cmp {c : DCfg} (hr : c.reloc = false) {P : DPair} {l r : DInst} (ls rs : List DInst) {p q : Pred}
    (hl : l.code = .cmp p) (hr' : r.code = .cmp q) {st : DSt} (hs : st.reloc = .none) :
    afterDiff c P l ls r rs st = none := by
  simp [afterDiff, maySkipL_cmp hl, maySkipR_cmp hr', reorderedEq, binOf, isNot, hl, hr', hs, hr]

/-- Patterns may be added: no reordering, or nothing is skipped. -/
def MayAdd (c d : DCfg) (P : DPair) : Prop :=
  d.reorder = c.reorder ∨ c.reorder = false ∧
    (∀ i ∈ P.allL ++ P.allR, ∀ k, i.code ≠ .cast k) ∧
    (c.inverse = true → ∀ i ∈ P.allL ++ P.allR, isNot i = false)

theorem maySkipCast_none {all : List DInst} {n : Nat} {i : DInst} (h : ∀ k, i.code ≠ .cast k) :
    maySkipCast all n i = none := by
  unfold maySkipCast
  split
  · next e _ => exact absurd e (h _)
  · rfl

theorem afterDiff_more {c d : DCfg} (hm : MorePatterns c d) (hr : c.reloc = false) {P : DPair} (ha : MayAdd c d P)
    {l r : DInst} (hl : l ∈ P.allL) (hr' : r ∈ P.allR) {ls rs : List DInst} {st : DSt} (hs : st.reloc = .none)
    {y : List DInst × List DInst × DSt} (h : afterDiff c P l ls r rs st = some y) :
    afterDiff d P l ls r rs st = some y ∧ y.2.2.reloc = .none := by
  rcases ha with ha | ⟨hc, h1, h2⟩
  · have eL : maySkipL d P l st = maySkipL c P l st := by unfold maySkipL; rw [ha]
    have eR : maySkipR d P r (maySkipL c P l st).2 = maySkipR c P r (maySkipL c P l st).2 := by
      unfold maySkipR; rw [ha]
    have sL : ∀ st, (maySkipL c P l st).2.reloc = st.reloc := by
      intro st; unfold maySkipL; repeat' split
      all_goals rfl
    have sR : ∀ st, (maySkipR c P r st).2.reloc = st.reloc := by
      intro st; unfold maySkipR; repeat' split
      all_goals rfl
    have sN : (maySkipR c P r (maySkipL c P l st).2).2.reloc = .none := by rw [sR, sL, hs]
    unfold afterDiff at h ⊢
    simp only [eL, eR, ha] at h ⊢
    generalize hx : maySkipL c P l st = x at *
    generalize hz : maySkipR c P r x.2 = z at *
    split at h
    · next h0 =>
      rw [if_pos h0]
      cases h
      exact ⟨rfl, sN⟩
    · next h0 =>
      rw [if_neg h0]
      split at h
      · next h3 =>
        rw [if_pos h3]
        cases h
        exact ⟨rfl, sN⟩
      · next h3 =>
        rw [if_neg h3]
        cases hi : c.inverse with
        | false => simp [hi, sN, hr] at h
        | true =>
          simp only [hi, hm.2.1 hi, Bool.true_and, sN, hr, Bool.false_eq_true, if_false] at h ⊢
          split at h
          · next h4 =>
            rw [if_pos h4]
            cases h
            refine ⟨rfl, ?_⟩
            unfold skipNotL toggleInv
            dsimp only
            split <;> exact sN
          · next h4 =>
            rw [if_neg h4]
            split at h
            · next h5 =>
              rw [if_pos h5]
              cases h
              refine ⟨rfl, ?_⟩
              unfold skipNotR toggleInv
              dsimp only
              split <;> exact sN
            · cases h
  · exfalso
    have eL : maySkipL c P l st = (false, st) := by
      simp [maySkipL, hc, maySkipCast_none (h1 l (by simp [hl]))]
    have eR : maySkipR c P r st = (false, st) := by
      simp [maySkipR, hc, maySkipCast_none (h1 r (by simp [hr']))]
    unfold afterDiff at h
    simp only [eL, eR, hc, hs, hr] at h
    cases hi : c.inverse with
    | false => simp [hi] at h
    | true => simp [hi, h2 hi l (by simp [hl]), h2 hi r (by simp [hr'])] at h

theorem afterDiff_sub {c : DCfg} (hr : c.reloc = false) {P : DPair} {l r : DInst} {ls rs : List DInst}
    (hl : ∀ i ∈ l :: ls, i ∈ P.allL) (hr' : ∀ i ∈ r :: rs, i ∈ P.allR) {st : DSt} (hs : st.reloc = .none)
    {y : List DInst × List DInst × DSt} (h : afterDiff c P l ls r rs st = some y) :
    (∀ i ∈ y.1, i ∈ P.allL) ∧ ∀ i ∈ y.2.1, i ∈ P.allR := by
  have hl' : ∀ i ∈ ls, i ∈ P.allL := fun i hi => hl i (List.mem_cons_of_mem _ hi)
  have hr'' : ∀ i ∈ rs, i ∈ P.allR := fun i hi => hr' i (List.mem_cons_of_mem _ hi)
  have sL : ∀ st, (maySkipL c P l st).2.reloc = st.reloc := by
    intro st; unfold maySkipL; repeat' split
    all_goals rfl
  have sR : ∀ st, (maySkipR c P r st).2.reloc = st.reloc := by
    intro st; unfold maySkipR; repeat' split
    all_goals rfl
  have sN : (maySkipR c P r (maySkipL c P l st).2).2.reloc = .none := by rw [sR, sL, hs]
  unfold afterDiff at h
  simp only [sN, hr, Bool.false_eq_true, if_false] at h
  split at h
  · cases h
    constructor
    · dsimp only
      split
      · exact hl'
      · exact hl
    · dsimp only
      split
      · exact hr''
      · exact hr'
  · split at h
    · cases h; exact ⟨hl', hr''⟩
    · split at h
      · cases h; exact ⟨hl', hr'⟩
      · split at h
        · cases h; exact ⟨hl, hr''⟩
        · cases h

theorem cmpBlocks_more {c d : DCfg} (hm : MorePatterns c d) (hr : c.reloc = false) {P : DPair} (ha : MayAdd c d P) :
    ∀ (n : Nat) (ls rs : List DInst), (∀ i ∈ ls, i ∈ P.allL) → (∀ i ∈ rs, i ∈ P.allR) → ∀ (st st' : DSt),
      st.reloc = .none → cmpBlocks c P n ls rs st = some (true, st') →
      cmpBlocks d P n ls rs st = some (true, st') ∧ st'.reloc = .none := by
  intro n
  induction n with
  | zero =>
    intro ls rs _ _ st st' hs h
    cases ls <;> cases rs <;> simp only [cmpBlocks] at h ⊢ <;> cases h
    exact ⟨rfl, hs⟩
  | succ n ih =>
    intro ls rs hl hr' st st' hs h
    cases ls with
    | nil =>
      cases rs with
      | nil => simp only [cmpBlocks] at h ⊢; cases h; exact ⟨rfl, hs⟩
      | cons => simp only [cmpBlocks] at h; cases h
    | cons l ls =>
      cases rs with
      | nil => simp only [cmpBlocks] at h; cases h
      | cons r rs =>
        have hl0 := hl l (by simp)
        have hr0 := hr' r (by simp)
        have hx := cmpInsts_reloc c P l r st
        rw [hs] at hx
        simp only [cmpBlocks] at h ⊢
        cases hc : (cmpInsts c P l r st).1 with
        | true =>
          rw [cmpInsts_more hm P l r st (.inl hc)]
          simp only [hc, if_true, afterEq, hx] at h ⊢
          exact ih ls rs (fun i hi => hl i (by simp [hi])) (fun i hi => hr' i (by simp [hi])) _ _ hx h
        | false =>
          simp only [hc, Bool.false_eq_true, if_false] at h
          cases hd : afterDiff c P l ls r rs (cmpInsts c P l r st).2 with
          | none => rw [hd] at h; cases h
          | some y =>
            rw [hd] at h
            have hi : mayInvert P l r = false := by
              by_contra hne
              obtain ⟨⟨p, hp⟩, q, hq⟩ := mayInvert_codes (P := P) (l := l) (r := r) (by simpa using hne)
              rw [afterDiff_cmp hr ls rs hp hq hx] at hd
              cases hd
            have hy := afterDiff_more hm hr ha hl0 hr0 hx hd
            rw [cmpInsts_more hm P l r st (.inr hi)]
            simp only [hc, Bool.false_eq_true, if_false, hy.1]
            have sub : (∀ i ∈ y.1, i ∈ P.allL) ∧ ∀ i ∈ y.2.1, i ∈ P.allR := by
              exact afterDiff_sub hr hl hr' hx hd
            exact ih _ _ sub.1 sub.2 _ _ hy.2 h

theorem cmpPairs_more {c d : DCfg} (hm : MorePatterns c d) (hr : c.reloc = false) {l r : DFun}
    (ha : MayAdd c d ⟨l.all, r.all⟩) (steps : Nat) :
    ∀ (n : Nat) (work : List (Nat × Nat)) (visited : List Nat) (st st' : DSt), st.reloc = .none →
      cmpPairs c l r steps n work visited st = some (true, st') →
      cmpPairs d l r steps n work visited st = some (true, st') := by
  intro n
  induction n with
  | zero =>
    intro work visited st st' _ h
    cases work with
    | nil => simpa only [cmpPairs] using h
    | cons => simp only [cmpPairs] at h; cases h
  | succ n ih =>
    intro work visited st st' hs h
    cases work with
    | nil => simpa only [cmpPairs] using h
    | cons p work =>
      obtain ⟨b, b'⟩ := p
      cases hB : l.find b with
      | none => simp [cmpPairs, hB] at h
      | some B =>
        cases hC : r.find b' with
        | none => simp [cmpPairs, hB, hC] at h
        | some C =>
          simp only [cmpPairs, hB, hC] at h ⊢
          have hv := cmpVals_reloc ⟨l.all, r.all⟩ 0 (.blk b) (.blk b') st
          rw [hs] at hv
          cases hk : cmpBlocks c ⟨l.all, r.all⟩ steps B.code C.code
              (cmpVals ⟨l.all, r.all⟩ 0 (.blk b) (.blk b') st).2 with
          | none => rw [hk] at h; cases h
          | some z =>
            obtain ⟨e, st1⟩ := z
            cases e with
            | false => rw [hk] at h; cases h
            | true =>
              have hB' : B ∈ l.blocks := List.mem_of_find?_eq_some hB
              have hC' : C ∈ r.blocks := List.mem_of_find?_eq_some hC
              have := cmpBlocks_more hm hr ha steps B.code C.code
                (fun i hi => List.mem_flatMap.mpr ⟨B, hB', hi⟩) (fun i hi => List.mem_flatMap.mpr ⟨C, hC', hi⟩)
                _ _ hv hk
              rw [hk] at h
              rw [this.1]
              exact ih _ _ _ _ this.2 h

/-- **C167** (partial): it holds if the first configuration has no pattern for relocated code and either the
pattern for reordered operations is not added, or there are no casts (and no negations, if there is the pattern
for inverse conditions). Missing: adding patterns to the one for relocated code, and adding the pattern for
reordered operations when instructions are skipped. -/
theorem C167_more_patterns_partial (c d : DCfg) (l r : DFun) (steps : Nat) (sw sw' : List Nat) (hm : MorePatterns c d)
    (hc : c.reloc = false)
    (ha : d.reorder = c.reorder ∨ c.reorder = false ∧ NoConversions l ∧ NoConversions r ∧
      (c.inverse = true → NoNegations l ∧ NoNegations r))
    (h : compareD c steps l r sw = some (true, sw')) : compareD d steps l r sw = some (true, sw') := by
  have ha' : MayAdd c d ⟨l.all, r.all⟩ := by
    rcases ha with ha | ⟨h1, h2, h3, h4⟩
    · exact .inl ha
    · refine .inr ⟨h1, ?_, ?_⟩
      · intro i hi
        rcases List.mem_append.mp hi with hi | hi
        · exact h2 i hi
        · exact h3 i hi
      · intro hv i hi
        rcases List.mem_append.mp hi with hi | hi
        · exact isNot_of (h4 hv).1 i hi
        · exact isNot_of (h4 hv).2 i hi
  unfold compareD at h ⊢
  split
  · next B Bs C Cs e e' =>
    simp only [e, e'] at h
    split
    · next hne => rw [if_pos hne] at h; cases h
    · next hne =>
      rw [if_neg hne] at h
      cases hk : cmpPairs c l r steps (B :: Bs).length.succ [(B.id, C.id)] [B.id] (startSt l r sw) with
      | none => rw [hk] at h; cases h
      | some z =>
        obtain ⟨t, st⟩ := z
        rw [hk] at h
        cases t with
        | false => simp at h
        | true =>
          have := cmpPairs_more hm hc ha' steps _ _ _ _ _ rfl hk
          simp only [e]
          rw [this]
          exact h
  · next hne =>
    split at h
    · next B Bs C Cs e e' => exact absurd e' (hne _ _ _ _ e)
    · exact h

/-- The theorem applies to functions where a condition was inverted, and the relocation of code is added. -/
example : compareD ⟨false, true, true, false⟩ 50 (loopStep 3) (loopInv' 3 .sge 11 12) [] = some (true, [54]) :=
  C167_more_patterns_partial cfgInverse _ _ _ _ _ _ (by unfold MorePatterns; decide) rfl (.inl rfl)
    (by decide +kernel)

/-- It applies to functions with casts if inverse conditions are added. -/
example : compareD cfgInverse 50 (sumAfter [⟨9, .cast .sext, 64, [r32 0], []⟩]) (sumAfter []) [] = some (true, []) :=
  C167_more_patterns_partial cfgNone _ _ _ _ _ _ (by unfold MorePatterns; decide) rfl (.inl rfl)
    (by decide +kernel)

/-- It applies to functions without casts if reordered operations are added. -/
example : compareD ⟨true, true, true, false⟩ 50 (loopStep 3) (loopStep' 3) [] = some (true, []) :=
  C167_more_patterns_partial cfgNone _ _ _ _ _ _ (by unfold MorePatterns; decide) rfl
    (.inr ⟨rfl, noConversions_of (by decide +kernel), noConversions_of (by decide +kernel), fun h => (nomatch h)⟩)
    (by decide +kernel)

end DK
