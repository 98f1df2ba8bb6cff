import Verif.Lemmas.DiffCmp

/-!
Lemmas: blocks and functions that the comparison with patterns finds equal are matched.
-/

set_option autoImplicit false

namespace DK
open Spec

theorem cmpRefs_reloc (P : DPair) (a b : DKey) (st : DSt) : (cmpRefs P a b st).2.reloc = st.reloc := by
  unfold cmpRefs
  simp only
  split
  · split
    · split <;> rfl
    · rfl
  · split
    · split <;> rfl
    · rfl

theorem cmpPlain_reloc (P : DPair) (a b : DOp) (st : DSt) : (cmpPlainD P a b st).2.reloc = st.reloc := by
  unfold cmpPlainD
  split
  · exact cmpRefs_reloc _ _ _ _
  · rfl
  · rfl

theorem cmpVals_reloc (P : DPair) : ∀ (n : Nat) (a b : DOp) (st : DSt),
    (cmpVals P n a b st).2.reloc = st.reloc
  | 0, a, b, st => by
    unfold cmpVals
    split
    · rfl
    · split
      · rfl
      · exact cmpPlain_reloc _ _ _ _
  | n + 1, a, b, st => by
    unfold cmpVals
    split
    · rfl
    · split
      · exact cmpVals_reloc P n _ _ _
      · exact cmpPlain_reloc _ _ _ _

theorem cmpOpList_reloc (P : DPair) : ∀ (a b : List DOp) (st : DSt), (cmpOpList P a b st).2.reloc = st.reloc
  | [], _, _ => rfl
  | _ :: _, [], _ => rfl
  | a :: as, b :: bs, st => by
    simp only [cmpOpList]
    split
    · rw [cmpOpList_reloc, cmpVals_reloc]
    · exact cmpVals_reloc _ _ _ _ _

theorem cmpInsts_reloc (cfg : DCfg) (P : DPair) (i j : DInst) (st : DSt) :
    (cmpInsts cfg P i j st).2.reloc = st.reloc := by
  unfold cmpInsts
  simp only
  repeat' split
  all_goals first
    | rfl
    | rw [cmpOpList_reloc]; exact cmpVals_reloc _ _ _ _ _
    | exact cmpVals_reloc _ _ _ _ _

/-- What is assumed about the functions. -/
structure Assumed (cfg : DCfg) (l r : DFun) (φ : Nat → Nat) : Prop where
  wl : DWellFormed l
  wr : DWellFormed r
  pl : Plain l
  pr : Plain r
  fl : cfg.reorder = true → Folded l
  fr : cfg.reorder = true → Folded r
  tl : cfg.reorder = true → LocalTrees l
  tr : cfg.reorder = true → LocalTrees r
  flow : SameFlow l r φ

/-- The place of a comparison: corresponding blocks. -/
structure Place (l r : DFun) (φ : Nat → Nat) (dL dR : List Nat) (B C : DBlock) : Prop where
  left : Site l dL B
  right : Site r dR C
  blocks : C.id = φ B.id

theorem nodup_code {f : DFun} (hf : DWellFormed f) {B : DBlock} (hB : B ∈ f.blocks) :
    (idsOf B.code).Nodup := by
  have h := (List.nodup_append.mp hf.ids).2.1
  have : idsOf f.all = f.blocks.flatMap fun B => idsOf B.code := by
    simp [idsOf, DFun.all, List.map_flatMap]
  rw [this] at h
  exact (List.nodup_flatMap.mp h).1 B hB

/-- An instruction that comes next was not compared yet. -/
theorem next_fresh {f : DFun} (hf : DWellFormed f) {d : List Nat} {B : DBlock} (S : Site f d B)
    {p ls : List DInst} {i : DInst} (h : B.code = p ++ i :: ls) :
    i.id ∉ d ++ idsOf p ∧ i.id ∉ f.args.map Prod.fst ∧ i ∈ f.all := by
  have hi : i ∈ B.code := by rw [h]; simp
  have hn := nodup_code hf S.mem
  rw [h] at hn
  simp only [idsOf, List.map_append, List.map_cons] at hn
  refine ⟨?_, fun h => (List.nodup_append.mp hf.ids).2.2 _ h i.id (List.mem_map_of_mem (S.all hi)) rfl, S.all hi⟩
  intro hm
  rcases List.mem_append.mp hm with hm | hm
  · exact S.fresh i.id (List.mem_map_of_mem hi) hm
  · exact (List.nodup_append.mp hn).2.2 _ hm i.id (by simp) rfl

theorem fresh_left {l r : DFun} {φ : Nat → Nat} {dL dR : List Nat} {ks : List (DKey × DKey)} {st : DSt}
    (G : GoodD l r φ dL dR ks st) {a : Nat} (ha : a ∉ dL) (ha' : a ∉ l.args.map Prod.fst) :
    DKey.val a ∉ ks.map Prod.fst ∧ a ∉ st.ignL := by
  refine ⟨fun h => ?_, fun h => ha (G.ignL a h).1⟩
  obtain ⟨k, hk⟩ := mem_fst h
  rcases G.kinds _ _ hk with ⟨c, d, e, e'⟩ | ⟨_, _, e, _⟩
  · cases e; subst e'
    rcases G.vals a d hk with ⟨_, h, _⟩ | ⟨h, _⟩
    · exact ha' (List.mem_of_getElem? h)
    · exact ha h
  · cases e

theorem fresh_right {l r : DFun} {φ : Nat → Nat} {dL dR : List Nat} {ks : List (DKey × DKey)} {st : DSt}
    (G : GoodD l r φ dL dR ks st) {b : Nat} (hb : b ∉ dR) (hb' : b ∉ r.args.map Prod.fst) :
    DKey.val b ∉ ks.map Prod.snd ∧ b ∉ st.ignR := by
  refine ⟨fun h => ?_, fun h => hb (G.ignR b h).1⟩
  obtain ⟨k, hk⟩ := mem_snd h
  rcases G.kinds _ _ hk with ⟨c, d, e, e'⟩ | ⟨_, _, _, e⟩
  · subst e; cases e'
    rcases G.vals c b hk with ⟨_, _, h⟩ | ⟨_, h⟩
    · exact hb' (List.mem_of_getElem? h)
    · exact hb h
  · cases e

theorem avail_left {l r : DFun} {φ : Nat → Nat} {dL dR : List Nat} {B : DBlock} (S : Site l dL B)
    {p ls : List DInst} {i : DInst} (h : B.code = p ++ i :: ls) {ks : List (DKey × DKey)} {st : DSt}
    (G : GoodD l r φ (dL ++ idsOf p) dR ks st) {x : DOp} (hx : x ∈ i.ops) (hb : ∀ b, x ≠ .blk b) (k k' : DKey) :
    Avail ((ks ++ [(k, k')]).map Prod.fst) st.ignL x := by
  refine ⟨hb, ?_⟩
  rintro a w rfl
  rw [keys_fst]
  have : DKey.val a ∈ ks.map Prod.fst ∨ a ∈ st.ignL := by
    rcases S.defs p i ls h a w hx with h | h | h
    · exact .inl (G.argsL a h)
    · exact G.covL a (by simp [h])
    · exact G.covL a (by simp [h.2])
  rcases this with h | h
  · exact .inl (by simp [h])
  · exact .inr h

theorem avail_right {l r : DFun} {φ : Nat → Nat} {dL dR : List Nat} {C : DBlock} (S : Site r dR C)
    {q rs : List DInst} {j : DInst} (h : C.code = q ++ j :: rs) {ks : List (DKey × DKey)} {st : DSt}
    (G : GoodD l r φ dL (dR ++ idsOf q) ks st) {x : DOp} (hx : x ∈ j.ops) (hb : ∀ b, x ≠ .blk b) (k k' : DKey) :
    Avail ((ks ++ [(k, k')]).map Prod.snd) st.ignR x := by
  refine ⟨hb, ?_⟩
  rintro a w rfl
  rw [keys_snd]
  have : DKey.val a ∈ ks.map Prod.snd ∨ a ∈ st.ignR := by
    rcases S.defs q j rs h a w hx with h | h | h
    · exact .inl (G.argsR a h)
    · exact G.covR a (by simp [h])
    · exact G.covR a (by simp [h.2])
  rcases this with h | h
  · exact .inl (by simp [h])
  · exact .inr h

/-- Instructions other than jumps and branches have no blocks as operands. -/
theorem no_blocks {i : DInst} (h : ShapeOk i) (hj : i.code ≠ .jump) (hb : i.code ≠ .branch) :
    ∀ x ∈ i.ops, ∀ b, x ≠ .blk b := by
  intro x hx b e
  subst e
  unfold ShapeOk at h
  split at h
  · next hc => exact hj hc
  · next hc => exact hb hc
  · obtain ⟨x, y, ho, _, _, hn⟩ := h
    rw [ho] at hx
    simp only [List.mem_cons, List.not_mem_nil, or_false] at hx
    rcases hx with e | e
    · exact (hn b).1 e.symm
    · exact (hn b).2 e.symm
  · obtain ⟨x, y, ho, _, _, hn⟩ := h
    rw [ho] at hx
    simp only [List.mem_cons, List.not_mem_nil, or_false] at hx
    rcases hx with e | e
    · exact (hn b).1 e.symm
    · exact (hn b).2 e.symm
  · exact h b hx

/-- The comparison of two instructions that were not compared yet, case by case. -/
theorem cmpInsts_eq {l r : DFun} {φ : Nat → Nat} {cfg : DCfg} (A : Assumed cfg l r φ) {dL dR : List Nat}
    {ks : List (DKey × DKey)} {st : DSt} (G : GoodD l r φ dL dR ks st) {i j : DInst} (hi : i ∈ l.all)
    (hk : DKey.val i.id ∉ ks.map Prod.fst) (hig : i.id ∉ st.ignL) (hk' : DKey.val j.id ∉ ks.map Prod.snd)
    (hig' : j.id ∉ st.ignR) :
    ∃ m, cmpInsts cfg ⟨l.all, r.all⟩ i j st =
      let st1 := withKeys st (ks ++ [(.val i.id, .val j.id)]) m
      if inverseBranches i j st then
        cmpOpList ⟨l.all, r.all⟩ i.ops (curOps (j.id :: st.swapped) j)
          { st1 with inv := st.inv, swapped := j.id :: st.swapped }
      else if sameHead i j then
        cmpOpList ⟨l.all, r.all⟩ i.ops (curOps st.swapped j) { st1 with inv := st.inv, swapped := st.swapped }
      else if cfg.inverse && mayInvert ⟨l.all, r.all⟩ i j then
        cmpOpList ⟨l.all, r.all⟩ i.ops j.ops
          { st1 with inv := (some (.val i.id), some (.val j.id)) :: st.inv, swapped := st.swapped }
      else (false, st1) := by
  obtain ⟨m, hm⟩ := cmpRefs_new G.toSync A.pl A.pr hk hk'
  refine ⟨m, ?_⟩
  have hv : cmpVals ⟨l.all, r.all⟩ (DPair.depth ⟨l.all, r.all⟩) (.ref i.id i.ty) (.ref j.id j.ty) st =
      (true, withKeys st (ks ++ [(.val i.id, .val j.id)]) m) := by
    rw [← hm]
    unfold cmpVals
    simp [ignoredOp, hig, hig', replacedOp, G.repL, G.repR, cmpPlainD, DOp.key]
  unfold cmpInsts
  rw [if_neg (fun h => (A.pl i hi).1 h.1), hv]
  simp only [Bool.true_and]
  rfl

theorem curOps_plain {j : DInst} (h : j.code ≠ .branch) (sw : List Nat) : curOps sw j = j.ops := by
  simp [curOps, h]

theorem curOps_fresh {j : DInst} {sw : List Nat} (h : j.id ∉ sw) : curOps sw j = j.ops := by
  simp [curOps, List.count_eq_zero_of_not_mem h]

/-- Code of a reorderable operation. -/
def IsBin (i : DInst) : Prop := ∃ o, i.code = .bin o

theorem inverseBranches_code {i j : DInst} {st : DSt} (h : inverseBranches i j st = true) :
    i.code = .branch ∧ j.code = .branch ∧ ∃ x y, branchCond i = some x ∧ branchCond j = some y ∧
      (some x, some y) ∈ st.inv := by
  unfold inverseBranches at h
  split at h
  · next x y h1 h2 =>
    refine ⟨?_, ?_, x, y, h1, h2, of_decide_eq_true h⟩
    · unfold branchCond at h1
      split at h1
      · next hc => exact hc
      · cases h1
    · unfold branchCond at h2
      split at h2
      · next hc => exact hc
      · cases h2
  · cases h

theorem mayInvert_code {P : DPair} {i j : DInst} (h : mayInvert P i j = true) :
    ∃ c, i.code = .cmp c.inverse ∧ j.code = .cmp c ∧ i.ops.map DOp.ty = j.ops.map DOp.ty ∧
      invUsersOk P.allL P.depth i.id = true := by
  unfold mayInvert at h
  split at h
  · next p q h1 h2 =>
    simp only [Bool.and_eq_true, decide_eq_true_eq] at h
    obtain ⟨⟨⟨ht, hp⟩, hu⟩, _⟩ := h
    refine ⟨q, ?_, ?_, ht, hu⟩
    · unfold predOf at h1
      split at h1
      · next hc => cases h1; rw [hc, hp]
      · cases h1
    · unfold predOf at h2
      split at h2
      · next hc => cases h2; exact hc
      · cases h2
  · cases h

theorem sync_st1 {ks : List (DKey × DKey)} {st : DSt} (S : Sync ks st) {k k' : DKey}
    (hk : k ∉ ks.map Prod.fst) (hk' : k' ∉ ks.map Prod.snd) (m : List (Nat × (DKey × DKey)))
    (inv : List (Option DKey × Option DKey)) (sw : List Nat) :
    Sync (ks ++ [(k, k')]) { withKeys st (ks ++ [(k, k')]) m with inv := inv, swapped := sw } :=
  sync_inv (sync_add S hk hk' m) inv sw

/-- A difference of instructions, one of which is a reorderable operation, changes only the numbers. -/
theorem cmpInsts_false {l r : DFun} {φ : Nat → Nat} {cfg : DCfg} (A : Assumed cfg l r φ) {dL dR : List Nat}
    {B C : DBlock} (W : Place l r φ dL dR B C) {p q ls rs : List DInst} {i j : DInst}
    (hB : B.code = p ++ i :: ls) (hC : C.code = q ++ j :: rs) {ks : List (DKey × DKey)} {st : DSt}
    (G : GoodD l r φ (dL ++ idsOf p) (dR ++ idsOf q) ks st) (hbin : IsBin i ∨ IsBin j) :
    ∃ m, (cmpInsts cfg ⟨l.all, r.all⟩ i j st).2 = withKeys st (ks ++ [(.val i.id, .val j.id)]) m := by
  obtain ⟨f1, f2, hi⟩ := next_fresh A.wl W.left hB
  obtain ⟨g1, g2, hj⟩ := next_fresh A.wr W.right hC
  obtain ⟨hk, hig⟩ := fresh_left G f1 f2
  obtain ⟨hk', hig'⟩ := fresh_right G g1 g2
  obtain ⟨m, hm⟩ := cmpInsts_eq A G hi hk hig hk' hig'
  refine ⟨m, ?_⟩
  rw [hm]
  simp only
  split
  · next h =>
    obtain ⟨h1, h2, _⟩ := inverseBranches_code h
    rcases hbin with ⟨o, e⟩ | ⟨o, e⟩
    · rw [h1] at e; cases e
    · rw [h2] at e; cases e
  · split
    · next h =>
      simp only [sameHead, Bool.and_eq_true, decide_eq_true_eq] at h
      have hci : IsBin i := by
        rcases hbin with h' | ⟨o, e⟩
        · exact h'
        · exact ⟨o, h.1.1.trans e⟩
      obtain ⟨o, hci⟩ := hci
      have hcj : j.code = .bin o := h.1.1.symm.trans hci
      rw [curOps_plain (by rw [hcj]; simp)]
      exact (cmpOpList_operands (sync_st1 G.toSync hk hk' m st.inv st.swapped) i.ops j.ops
        (fun x hx => avail_left W.left hB G hx
          (no_blocks (A.wl.shape i hi) (by rw [hci]; simp) (by rw [hci]; simp) x hx) _ _)
        (fun x hx => avail_right W.right hC G hx
          (no_blocks (A.wr.shape j hj) (by rw [hcj]; simp) (by rw [hcj]; simp) x hx) _ _)).1
    · split
      · next h =>
        simp only [Bool.and_eq_true] at h
        obtain ⟨c, h1, h2, _⟩ := mayInvert_code h.2
        rcases hbin with ⟨o, e⟩ | ⟨o, e⟩
        · rw [h1] at e; cases e
        · rw [h2] at e; cases e
      · rfl

theorem notNot {f : DFun} (h : Plain f) {i : DInst} (hi : i ∈ f.all) : isNot i = false := by
  cases hn : isNot i with
  | false => rfl
  | true =>
    exfalso
    simp only [isNot, Bool.and_eq_true, decide_eq_true_eq] at hn
    obtain ⟨⟨h1, h2⟩, h3⟩ := hn
    split at h3
    · next x w v ho =>
      have hv := of_decide_eq_true h3
      subst hv
      exact (h i hi).2.2 ⟨h1, h2, x, w, ho⟩
    · cases h3

theorem users_branch {f : DFun} (h : Plain f) {n a : Nat} (hu : invUsersOk f.all n a = true) :
    ∀ i ∈ f.all, ∀ w, DOp.ref a w ∈ i.ops → i.code = .branch := by
  intro i hi w hw
  cases n with
  | zero => cases hu
  | succ n =>
    simp only [invUsersOk, List.all_eq_true] at hu
    have := hu i (List.mem_filter.mpr ⟨hi, List.any_eq_true.mpr ⟨_, hw, by simp⟩⟩)
    rw [notNot h hi] at this
    simpa using this

theorem succsOf_nil {ops : List DOp} (h : ∀ x ∈ ops, ∀ b, x ≠ .blk b) : succsOf ops = [] := by
  unfold succsOf
  rw [List.reverse_eq_nil_iff, List.filterMap_eq_nil_iff]
  intro x hx
  cases x with
  | blk b => exact absurd rfl (h _ hx b)
  | _ => rfl

/-- A terminator is the last instruction, and another instruction is not. -/
theorem term_last {f : DFun} (hf : DWellFormed f) {B : DBlock} (hB : B ∈ f.blocks) {p ls : List DInst}
    {i : DInst} (h : B.code = p ++ i :: ls) : isTerm i = true ↔ ls = [] := by
  obtain ⟨body, t, hc, ht, hb⟩ := hf.ends B hB
  rw [hc] at h
  rcases List.eq_nil_or_concat ls with rfl | ⟨ls', z, rfl⟩
  · have := List.append_inj' h rfl
    simp only [List.cons.injEq, and_true] at this
    simp [← this.2, ht]
  · rw [List.concat_eq_append] at h ⊢
    have h' : body ++ [t] = (p ++ i :: ls') ++ [z] := by simpa using h
    have := (List.append_inj' h' rfl).1
    have hi := hb i (by rw [this]; simp)
    simp [hi]

/-- What is known after instructions were found equal. -/
structure Found (l r : DFun) (φ : Nat → Nat) (dL dR : List Nat) (p q : List DInst) (i j : DInst)
    (ls rs : List DInst) (ks : List (DKey × DKey)) (st : DSt) (ks' : List (DKey × DKey)) (st' : DSt) :
    Prop where
  sub : ∀ x ∈ ks, x ∈ ks'
  good : GoodD l r φ (dL ++ [i.id]) (dR ++ [j.id]) ks' st'
  ignL : st'.ignL = st.ignL
  ignR : st'.ignR = st.ignR
  step : (isTerm i = false ∧ isTerm j = false ∧ ∀ ks2 ig ig', (∀ x ∈ ks', x ∈ ks2) →
      Match l r φ ks2 ig ig' (p ++ [i]) (q ++ [j]) ls rs → Match l r φ ks2 ig ig' p q (i :: ls) (j :: rs)) ∨
    (isTerm i = true ∧ isTerm j = true ∧ (∀ ks2 ig ig', (∀ x ∈ ks', x ∈ ks2) →
      Match l r φ ks2 ig ig' p q (i :: ls) (j :: rs)) ∧
      succsOf (curOps st'.swapped j) = (succsOf i.ops).map φ)

theorem block_of_target {f : DFun} (hf : DWellFormed f) {i : DInst} (hi : i ∈ f.all) {b : Nat}
    (hb : DOp.blk b ∈ i.ops) : ∃ B ∈ f.blocks, B.id = b := by
  refine hf.targets i hi b ?_
  unfold targets
  exact List.mem_filterMap.mpr ⟨_, hb, rfl⟩

theorem opEq_forall_mono {ks ks' : List (DKey × DKey)} (h : ∀ p ∈ ks, p ∈ ks') {a b : List DOp}
    (e : List.Forall₂ (OpEq ks) a b) : List.Forall₂ (OpEq ks') a b :=
  e.imp fun _ _ e => e.mono h

theorem withKeys_withKeys (st : DSt) (ks ks' : List (DKey × DKey)) (m m' : List (Nat × (DKey × DKey))) :
    withKeys (withKeys st ks m) ks' m' = withKeys st ks' m' := rfl

/-- Operands of branches to corresponding blocks. -/
theorem branch_ops {l r : DFun} {φ : Nat → Nat} {cfg : DCfg} (A : Assumed cfg l r φ) {dL dR : List Nat}
    {ks : List (DKey × DKey)} {st : DSt} (G : GoodD l r φ dL dR ks st) {c d : DOp}
    (hc : Avail (ks.map Prod.fst) st.ignL c) (hd : Avail (ks.map Prod.snd) st.ignR d) (hty : c.ty = d.ty)
    {x y : Nat} (hx : ∃ B ∈ l.blocks, B.id = x) (hy : ∃ B ∈ l.blocks, B.id = y)
    (h : (cmpOpList ⟨l.all, r.all⟩ [c, .blk x, .blk y] [d, .blk (φ x), .blk (φ y)] st).1 = true) :
    OpEq ks c d ∧ ∃ ks' m, (∀ p ∈ ks, p ∈ ks') ∧
      (cmpOpList ⟨l.all, r.all⟩ [c, .blk x, .blk y] [d, .blk (φ x), .blk (φ y)] st).2 = withKeys st ks' m ∧
      GoodD l r φ dL dR ks' (withKeys st ks' m) := by
  obtain ⟨X, hX, rfl⟩ := hx
  obtain ⟨Y, hY, rfl⟩ := hy
  have h0 := cmpVals_operand (l := l) (r := r) G.toSync (DPair.depth ⟨l.all, r.all⟩) hc hd
  obtain ⟨k1, m1, s1, e1, G1⟩ := good_block G A.pl A.pr A.flow.2.1 hX (DPair.depth ⟨l.all, r.all⟩)
  obtain ⟨k2, m2, s2, e2, G2⟩ := good_block G1 A.pl A.pr A.flow.2.1 hY (DPair.depth ⟨l.all, r.all⟩)
  simp only [cmpOpList, h0.1, e1, e2, if_true] at h ⊢
  split at h
  · next ht =>
    rw [if_pos ht]
    exact ⟨h0.2 ht hty, k2, m2, fun p hp => s2 p (s1 p hp), rfl, G2⟩
  · cases h

theorem targets_branch {i : DInst} {c : DOp} {x y : Nat} (h : i.ops = [c, .blk x, .blk y])
    (hc : ∀ b, c ≠ .blk b) : targets i = [x, y] := by
  unfold targets
  rw [h]
  cases c with
  | blk b => exact absurd rfl (hc b)
  | _ => rfl

theorem succsOf_branch {c : DOp} {x y : Nat} (hc : ∀ b, c ≠ .blk b) :
    succsOf [c, .blk x, .blk y] = [y, x] := by
  unfold succsOf
  cases c with
  | blk b => exact absurd rfl (hc b)
  | _ => rfl

theorem cmpInsts_true {l r : DFun} {φ : Nat → Nat} {cfg : DCfg} (A : Assumed cfg l r φ) {dL dR : List Nat}
    {B C : DBlock} (W : Place l r φ dL dR B C) {p q ls rs : List DInst} {i j : DInst}
    (hB : B.code = p ++ i :: ls) (hC : C.code = q ++ j :: rs) {ks : List (DKey × DKey)} {st : DSt}
    (G : GoodD l r φ (dL ++ idsOf p) (dR ++ idsOf q) ks st)
    (ht : (cmpInsts cfg ⟨l.all, r.all⟩ i j st).1 = true) :
    ∃ ks', Found l r φ (dL ++ idsOf p) (dR ++ idsOf q) p q i j ls rs ks st ks'
      (cmpInsts cfg ⟨l.all, r.all⟩ i j st).2 := by
  obtain ⟨f1, f2, hi⟩ := next_fresh A.wl W.left hB
  obtain ⟨g1, g2, hj⟩ := next_fresh A.wr W.right hC
  obtain ⟨hk, hig⟩ := fresh_left G f1 f2
  obtain ⟨hk', hig'⟩ := fresh_right G g1 g2
  obtain ⟨m, hm⟩ := cmpInsts_eq A G hi hk hig hk' hig'
  have nl := (List.nodup_append.mp A.wl.ids).2.1
  have nr := (List.nodup_append.mp A.wr.ids).2.1
  have hsw : j.id ∉ st.swapped := fun h => g1 (G.swapped _ h)
  have htyp : i.ty = j.ty → ∀ w w', TyOf l i.id w → TyOf r j.id w' → w = w' := by
    intro e w w' h h'
    rw [tyOf_unique A.wl h (.inr ⟨i, hi, rfl, rfl⟩), tyOf_unique A.wr h' (.inr ⟨j, hj, rfl, rfl⟩), e]
  have av := fun x hx hb => avail_left (x := x) W.left hB G hx hb (.val i.id) (.val j.id)
  have av' := fun x hx hb => avail_right (x := x) W.right hC G hx hb (.val i.id) (.val j.id)
  have hsub : ∀ x ∈ ks, x ∈ ks ++ [(DKey.val i.id, DKey.val j.id)] := fun x hx => by simp [hx]
  -- flow of the terminators
  have hflow : i.code = .branch ∨ i.code = .jump → i.code = j.code →
      (targets i).map φ = if oppositeBranches l r i j then (targets j).reverse else targets j := by
    intro hc hcc
    have ti : isTerm i = true := by unfold isTerm; rcases hc with h | h <;> rw [h]
    have tj : isTerm j = true := by unfold isTerm at ti ⊢; rw [← hcc]; exact ti
    have e1 := (term_last A.wl W.left.mem hB).mp ti
    have e2 := (term_last A.wr W.right.mem hC).mp tj
    subst e1 e2
    obtain ⟨C', hC', hid, hfl⟩ := A.flow.2.2 B W.left.mem
    have : C' = C := by
      have hn := A.wr.blocks
      exact List.inj_on_of_nodup_map hn hC' W.right.mem (hid.trans W.blocks.symm)
    subst this
    exact hfl i j (by rw [hB]; simp) (by rw [hC]; simp)
  rw [hm] at ht ⊢
  simp only at ht ⊢
  split at ht
  · -- branches on inverse conditions
    next hinv =>
    rw [if_pos hinv]
    obtain ⟨ci, cj, x, y, hx, hy, hmem⟩ := inverseBranches_code hinv
    obtain ⟨c, bx, bY, hoi, hti, hc1, hcb⟩ : ∃ c x y, i.ops = [c, .blk x, .blk y] ∧ i.ty = 0 ∧ c.ty = 1 ∧ ∀ b, c ≠ .blk b := by
      have := A.wl.shape i hi; unfold ShapeOk at this; rw [ci] at this; exact this
    obtain ⟨d, bx', bY', hoj, htj, hd1, hdb⟩ : ∃ c x y, j.ops = [c, .blk x, .blk y] ∧ j.ty = 0 ∧ c.ty = 1 ∧ ∀ b, c ≠ .blk b := by
      have := A.wr.shape j hj; unfold ShapeOk at this; rw [cj] at this; exact this
    obtain ⟨a, b, rfl, rfl, hopp, _⟩ := G.inv1 x y hmem
    have hca : ∃ w, c = .ref a w := by
      simp only [branchCond, ci, hoi, List.head?_cons, Option.bind_some] at hx
      cases c with
      | ref a' w => simp only [DOp.key, Option.some.injEq, DKey.val.injEq] at hx; exact ⟨w, by rw [hx]⟩
      | const w v => simp [DOp.key] at hx
      | blk b => exact absurd rfl (hcb b)
    have hdb' : ∃ w, d = .ref b w := by
      simp only [branchCond, cj, hoj, List.head?_cons, Option.bind_some] at hy
      cases d with
      | ref a' w => simp only [DOp.key, Option.some.injEq, DKey.val.injEq] at hy; exact ⟨w, by rw [hy]⟩
      | const w v => simp [DOp.key] at hy
      | blk b => exact absurd rfl (hdb b)
    obtain ⟨w, rfl⟩ := hca
    obtain ⟨w', rfl⟩ := hdb'
    have hob : oppositeBranches l r i j = true := by
      simp only [oppositeBranches, ci, hoi, hoj]; exact hopp
    have hfl := hflow (.inl ci) (ci.trans cj.symm)
    rw [hob, if_pos rfl] at hfl
    simp only [targets, hoi, hoj, List.filterMap_cons, List.filterMap_nil, List.map_cons, List.map_nil,
      List.reverse_cons, List.reverse_nil, List.nil_append, List.cons_append, List.cons.injEq, and_true] at hfl
    obtain ⟨rfl, rfl⟩ := hfl
    have hcur : curOps (j.id :: st.swapped) j = [.ref b w', .blk (φ bx), .blk (φ bY)] := by
      simp [curOps, cj, List.count_eq_zero_of_not_mem hsw, hoj, swapOps]
    have G1 := good_add (inv' := st.inv) (sw' := j.id :: st.swapped) G hk hk' hig hig' (htyp (hti.trans htj.symm))
      (.inl ⟨rfl, opposite_same nl nr hi hj (ci.trans cj.symm)⟩)
      (fun x hx => by
        rcases List.mem_cons.mp hx with h | h
        · exact .inr h
        · exact .inl (G.swapped x h)) m
    rw [hoi, hcur] at ht
    obtain ⟨heq, ks', m', hs, he, G2⟩ := branch_ops A G1 (av _ (by simp [hoi]) (fun b h => by cases h))
      (av' _ (by simp [hoj]) (fun b h => by cases h)) (hc1.trans hd1.symm)
      (block_of_target A.wl hi (by simp [hoi])) (block_of_target A.wl hi (by simp [hoi])) ht
    rw [hoi, hcur, he]
    refine ⟨ks', fun x hx => hs x (hsub x hx), G2, rfl, rfl, .inr ⟨by simp [isTerm, ci], by simp [isTerm, cj], ?_, ?_⟩⟩
    · intro ks2 ig ig' h2
      refine .branch p q i j ls rs _ _ _ _ _ _ ci cj hoi hoj (heq.mono fun x hx => h2 x (hs x hx)) ?_
      rw [hob, if_pos rfl]
      exact ⟨rfl, rfl⟩
    · show succsOf (curOps (j.id :: st.swapped) j) = _
      rw [hcur]
      simp [succsOf, hoi]
  · next hninv =>
    rw [if_neg hninv]
    split at ht
    · -- the same operation
      next hsame =>
      rw [if_pos hsame]
      simp only [sameHead, Bool.and_eq_true, decide_eq_true_eq] at hsame
      obtain ⟨⟨hcode, hty⟩, htys⟩ := hsame
      rw [curOps_fresh hsw] at ht ⊢
      have G1 := good_add (inv' := st.inv) (sw' := st.swapped) G hk hk' hig hig' (htyp hty)
        (.inl ⟨rfl, opposite_same nl nr hi hj hcode⟩) (fun x hx => .inl (G.swapped x hx)) m
      by_cases hb : i.code = .branch
      · have cj : j.code = .branch := hcode ▸ hb
        obtain ⟨c, bx, bY, hoi, hti, hc1, hcb⟩ : ∃ c x y, i.ops = [c, .blk x, .blk y] ∧ i.ty = 0 ∧ c.ty = 1 ∧ ∀ b, c ≠ .blk b := by
          have := A.wl.shape i hi; unfold ShapeOk at this; rw [hb] at this; exact this
        obtain ⟨d, bx', bY', hoj, htj, hd1, hdb⟩ : ∃ c x y, j.ops = [c, .blk x, .blk y] ∧ j.ty = 0 ∧ c.ty = 1 ∧ ∀ b, c ≠ .blk b := by
          have := A.wr.shape j hj; unfold ShapeOk at this; rw [cj] at this; exact this
        have h0 := cmpVals_operand (l := l) (r := r) G1.toSync (DPair.depth ⟨l.all, r.all⟩)
          (av c (by simp [hoi]) hcb) (av' d (by simp [hoj]) hdb)
        have heq : OpEq (ks ++ [(DKey.val i.id, DKey.val j.id)]) c d := by
          rw [hoi, hoj] at ht
          simp only [cmpOpList] at ht
          split at ht
          · next h1 => exact h0.2 h1 (hc1.trans hd1.symm)
          · cases ht
        have hob : oppositeBranches l r i j = false := by
          simp only [oppositeBranches, hb, hoi, hoj]
          cases heq with
          | const w v => rfl
          | ref a b w hab =>
            show opposite l r a b = false
            cases ho : opposite l r a b with
            | false => rfl
            | true =>
              exfalso
              have := G1.inv2 a b hab ho
              apply hninv
              simp only [inverseBranches, branchCond, hb, cj, hoi, hoj, List.head?_cons, Option.bind_some, DOp.key]
              exact decide_eq_true this
        have hfl := hflow (.inl hb) hcode
        rw [hob, if_neg (by simp)] at hfl
        rw [targets_branch hoi hcb, targets_branch hoj hdb] at hfl
        simp only [List.map_cons, List.map_nil, List.cons.injEq, and_true] at hfl
        obtain ⟨rfl, rfl⟩ := hfl
        rw [hoi, hoj] at ht
        obtain ⟨_, ks', m', hs, he, G2⟩ := branch_ops A G1 (av _ (by simp [hoi]) hcb)
          (av' _ (by simp [hoj]) hdb) (hc1.trans hd1.symm)
          (block_of_target A.wl hi (by simp [hoi])) (block_of_target A.wl hi (by simp [hoi])) ht
        rw [hoi, hoj, he]
        refine ⟨ks', fun x hx => hs x (hsub x hx), G2, rfl, rfl, .inr ⟨by simp [isTerm, hb], by simp [isTerm, cj], ?_, ?_⟩⟩
        · intro ks2 ig ig' h2
          refine .branch p q i j ls rs _ _ _ _ _ _ hb cj hoi hoj (heq.mono fun x hx => h2 x (hs x hx)) ?_
          rw [hob, if_neg (by simp)]
          exact ⟨rfl, rfl⟩
        · show succsOf (curOps st.swapped j) = _
          rw [curOps_fresh hsw, hoj, hoi, succsOf_branch hcb, succsOf_branch hdb]
          rfl
      · by_cases hjmp : i.code = .jump
        · have cj : j.code = .jump := hcode ▸ hjmp
          obtain ⟨b, hoi⟩ : ∃ b, i.ops = [.blk b] := by
            have := A.wl.shape i hi; unfold ShapeOk at this; rw [hjmp] at this; exact this
          obtain ⟨b', hoj⟩ : ∃ b, j.ops = [.blk b] := by
            have := A.wr.shape j hj; unfold ShapeOk at this; rw [cj] at this; exact this
          have hfl := hflow (.inr hjmp) hcode
          rw [show oppositeBranches l r i j = false by simp [oppositeBranches, hjmp], if_neg (by simp)] at hfl
          simp only [targets, hoi, hoj, List.filterMap_cons, List.filterMap_nil, List.map_cons, List.map_nil,
            List.cons.injEq, and_true] at hfl
          subst hfl
          obtain ⟨X, hX, rfl⟩ := block_of_target A.wl hi (b := b) (by simp [hoi])
          obtain ⟨ks', m', hs, he, G2⟩ := good_block G1 A.pl A.pr A.flow.2.1 hX (DPair.depth ⟨l.all, r.all⟩)
          rw [hoi, hoj]
          simp only [cmpOpList, he, if_true]
          refine ⟨ks', fun x hx => hs x (hsub x hx), G2, rfl, rfl,
            .inr ⟨by simp [isTerm, hjmp], by simp [isTerm, cj], ?_, ?_⟩⟩
          · intro ks2 ig ig' h2
            exact .jump p q i j ls rs _ hjmp cj hoi hoj
          · show succsOf (curOps st.swapped j) = _
            rw [curOps_fresh hsw, hoj]
            simp [succsOf, hoi]
        · have nb := no_blocks (A.wl.shape i hi) hjmp hb
          have nb' := no_blocks (A.wr.shape j hj) (by rw [← hcode]; exact hjmp) (by rw [← hcode]; exact hb)
          have h0 := cmpOpList_operands (l := l) (r := r) G1.toSync i.ops j.ops
            (fun x hx => av x hx (nb x hx)) (fun x hx => av' x hx (nb' x hx))
          have heq := h0.2 ht htys
          rw [h0.1]
          refine ⟨_, hsub, G1, rfl, rfl, ?_⟩
          by_cases hret : i.code = .ret
          · refine .inr ⟨by simp [isTerm, hret], by simp [isTerm, ← hcode, hret], ?_, ?_⟩
            · intro ks2 ig ig' h2
              exact .ret p q i j ls rs hret (hcode ▸ hret) (opEq_forall_mono h2 heq)
            · show succsOf (curOps st.swapped j) = _
              rw [curOps_fresh hsw, succsOf_nil nb, succsOf_nil nb']
              rfl
          · have hnt : isTerm i = false := by
              unfold isTerm
              split
              · next h => exact absurd h hret
              · next h => exact absurd h hjmp
              · next h => exact absurd h hb
              · rfl
            refine .inl ⟨hnt, by unfold isTerm at hnt ⊢; rw [← hcode]; exact hnt, ?_⟩
            intro ks2 ig ig' h2 hm2
            exact .same p q i j ls rs hcode hty hnt (A.pl i hi).1 (opEq_forall_mono h2 heq)
              (h2 _ (by simp)) hm2
    · next hns =>
      rw [if_neg hns]
      split at ht
      · -- opposite comparisons
        next hmi =>
        rw [if_pos hmi]
        simp only [Bool.and_eq_true] at hmi
        obtain ⟨c, ci, cj, htys, hus⟩ := mayInvert_code hmi.2
        have ti : i.ty = 1 := by
          have := A.wl.shape i hi; unfold ShapeOk at this; rw [ci] at this; exact this.choose_spec.choose_spec.2.1
        have tj : j.ty = 1 := by
          have := A.wr.shape j hj; unfold ShapeOk at this; rw [cj] at this; exact this.choose_spec.choose_spec.2.1
        have G1 := good_add (inv' := (some (.val i.id), some (.val j.id)) :: st.inv) (sw' := st.swapped) G hk hk'
          hig hig' (htyp (ti.trans tj.symm))
          (.inr ⟨rfl, opposite_inverse nl nr hi hj ci cj, users_branch A.pl hus⟩)
          (fun x hx => .inl (G.swapped x hx)) m
        have nb := no_blocks (A.wl.shape i hi) (by rw [ci]; simp) (by rw [ci]; simp)
        have nb' := no_blocks (A.wr.shape j hj) (by rw [cj]; simp) (by rw [cj]; simp)
        have h0 := cmpOpList_operands (l := l) (r := r) G1.toSync i.ops j.ops
          (fun x hx => av x hx (nb x hx)) (fun x hx => av' x hx (nb' x hx))
        rw [h0.1]
        refine ⟨_, hsub, G1, rfl, rfl, .inl ⟨by simp [isTerm, ci], by simp [isTerm, cj], ?_⟩⟩
        intro ks2 ig ig' h2 hm2
        exact .inverse p q i j ls rs c ci cj (opEq_forall_mono h2 (h0.2 ht htys)) (h2 _ (by simp)) hm2
      · cases ht

/-! ### Instructions that differ -/

theorem good_skipL {l r : DFun} {φ : Nat → Nat} {dL dR : List Nat} {ks : List (DKey × DKey)} {st : DSt}
    (G : GoodD l r φ dL dR ks st) {a : Nat} (ha : DKey.val a ∉ ks.map Prod.fst) :
    GoodD l r φ (dL ++ [a]) dR ks { st with ignL := a :: st.ignL } where
  toSync := ⟨G.snL, G.snR, G.repL, G.repR, G.left, G.right⟩
  reloc := G.reloc
  vals := by
    intro c d h
    rcases G.vals c d h with h | ⟨h1, h2⟩
    · exact .inl h
    · exact .inr ⟨by simp [h1], h2⟩
  kinds := G.kinds
  typed := G.typed
  argsL := G.argsL
  argsR := G.argsR
  covL := by
    intro c hc
    rcases List.mem_append.mp hc with hc | hc
    · rcases G.covL c hc with h | h
      · exact .inl h
      · exact .inr (by simp [h])
    · exact .inr (by simp [List.mem_singleton.mp hc])
  covR := G.covR
  ignL := by
    intro c hc
    rcases List.mem_cons.mp hc with rfl | hc
    · exact ⟨by simp, ha⟩
    · exact ⟨by simp [(G.ignL c hc).1], (G.ignL c hc).2⟩
  ignR := G.ignR
  inv1 := G.inv1
  inv2 := G.inv2
  swapped := G.swapped

theorem good_skipR {l r : DFun} {φ : Nat → Nat} {dL dR : List Nat} {ks : List (DKey × DKey)} {st : DSt}
    (G : GoodD l r φ dL dR ks st) {b : Nat} (hb : DKey.val b ∉ ks.map Prod.snd) :
    GoodD l r φ dL (dR ++ [b]) ks { st with ignR := b :: st.ignR } where
  toSync := ⟨G.snL, G.snR, G.repL, G.repR, G.left, G.right⟩
  reloc := G.reloc
  vals := by
    intro c d h
    rcases G.vals c d h with h | ⟨h1, h2⟩
    · exact .inl h
    · exact .inr ⟨h1, by simp [h2]⟩
  kinds := G.kinds
  typed := G.typed
  argsL := G.argsL
  argsR := G.argsR
  covL := G.covL
  covR := by
    intro c hc
    rcases List.mem_append.mp hc with hc | hc
    · rcases G.covR c hc with h | h
      · exact .inl h
      · exact .inr (by simp [h])
    · exact .inr (by simp [List.mem_singleton.mp hc])
  ignL := G.ignL
  ignR := by
    intro c hc
    rcases List.mem_cons.mp hc with rfl | hc
    · exact ⟨by simp, hb⟩
    · exact ⟨by simp [(G.ignR c hc).1], (G.ignR c hc).2⟩
  inv1 := G.inv1
  inv2 := G.inv2
  swapped := fun x hx => by simp [G.swapped x hx]

theorem good_undo {l r : DFun} {φ : Nat → Nat} {dL dR : List Nat} {ks : List (DKey × DKey)} {st : DSt}
    (G : GoodD l r φ dL dR ks st) {a b : Nat} (ha : DKey.val a ∉ ks.map Prod.fst)
    (hb : DKey.val b ∉ ks.map Prod.snd) (m : List (Nat × (DKey × DKey))) :
    ∃ m', undoLast a b (withKeys st (ks ++ [(.val a, .val b)]) m) = withKeys st ks m' ∧
      GoodD l r φ dL dR ks (withKeys st ks m') := by
  refine ⟨m.filter fun x => x.1 != (numbered (ks.map Prod.fst)).length, ?_, ?_⟩
  · simp only [undoLast, withKeys, keys_fst, keys_snd, erase_last ha, erase_last hb]
  · exact { G with
      toSync := ⟨rfl, rfl, G.repL, G.repR, G.left, G.right⟩ }

/-- A step of the comparison of blocks that is no terminator. -/
structure Step (l r : DFun) (φ : Nat → Nat) (dL dR : List Nat) (B C : DBlock) (p q ls rs : List DInst)
    (ks : List (DKey × DKey)) (st : DSt) (ls' rs' : List DInst) (st' : DSt) (p' q' : List DInst)
    (ks' : List (DKey × DKey)) : Prop where
  codeL : B.code = p' ++ ls'
  codeR : C.code = q' ++ rs'
  good : GoodD l r φ (dL ++ idsOf p') (dR ++ idsOf q') ks' st'
  sub : ∀ x ∈ ks, x ∈ ks'
  ignL : ∀ x ∈ st.ignL, x ∈ st'.ignL
  ignR : ∀ x ∈ st.ignR, x ∈ st'.ignR
  more : ls' ≠ []
  back : ∀ ks2 ig ig', (∀ x ∈ ks', x ∈ ks2) → (∀ x ∈ st'.ignL, x ∈ ig) → (∀ x ∈ st'.ignR, x ∈ ig') →
    Match l r φ ks2 ig ig' p' q' ls' rs' → Match l r φ ks2 ig ig' p q ls rs

theorem idsOf_snoc (p : List DInst) (i : DInst) : idsOf (p ++ [i]) = idsOf p ++ [i.id] := by simp [idsOf]

theorem maySkipBin_bin {all : List DInst} {i : DInst} (h : maySkipBin all i = true) : IsBin i := by
  unfold maySkipBin at h
  split at h
  · next o ho =>
    unfold binOf at ho
    split at ho
    · next o' hc => exact ⟨o', hc⟩
    · cases ho
  · cases h

theorem maySkipL_plain {f : DFun} (h : Plain f) {g : List DInst} {i : DInst} (hi : i ∈ f.all) (cfg : DCfg) (st : DSt) :
    maySkipL cfg ⟨f.all, g⟩ i st = if cfg.reorder && maySkipBin f.all i
      then (true, { st with ignL := i.id :: st.ignL }) else (false, st) := by
  unfold maySkipL
  have : maySkipCast f.all (DPair.depth ⟨f.all, g⟩) i = none := by
    unfold maySkipCast
    split
    · next k o hc _ => exact absurd hc ((h i hi).2.1 k)
    · rfl
  simp only [this]

theorem maySkipR_plain {f : DFun} (h : Plain f) {g : List DInst} {i : DInst} (hi : i ∈ f.all) (cfg : DCfg) (st : DSt) :
    maySkipR cfg ⟨g, f.all⟩ i st = if cfg.reorder && maySkipBin f.all i
      then (true, { st with ignR := i.id :: st.ignR }) else (false, st) := by
  unfold maySkipR
  have : maySkipCast f.all (DPair.depth ⟨g, f.all⟩) i = none := by
    unfold maySkipCast
    split
    · next k o hc _ => exact absurd hc ((h i hi).2.1 k)
    · rfl
  simp only [this]

theorem bin_notTerm {i : DInst} (h : IsBin i) : isTerm i = false := by
  obtain ⟨o, h⟩ := h
  simp [isTerm, h]

theorem diff_step {l r : DFun} {φ : Nat → Nat} {cfg : DCfg} (A : Assumed cfg l r φ) (hr : cfg.reloc = false)
    {dL dR : List Nat} {B C : DBlock} (W : Place l r φ dL dR B C) {p q ls rs : List DInst} {i j : DInst}
    (hB : B.code = p ++ i :: ls) (hC : C.code = q ++ j :: rs) {ks : List (DKey × DKey)} {st : DSt}
    (G : GoodD l r φ (dL ++ idsOf p) (dR ++ idsOf q) ks st) {ls' rs' : List DInst} {st' : DSt}
    (ht : afterDiff cfg ⟨l.all, r.all⟩ i ls j rs (cmpInsts cfg ⟨l.all, r.all⟩ i j st).2 = some (ls', rs', st')) :
    ∃ p' q' ks', Step l r φ dL dR B C p q (i :: ls) (j :: rs) ks st ls' rs' st' p' q' ks' := by
  obtain ⟨f1, f2, hi⟩ := next_fresh A.wl W.left hB
  obtain ⟨g1, g2, hj⟩ := next_fresh A.wr W.right hC
  obtain ⟨hk, hig⟩ := fresh_left G f1 f2
  obtain ⟨hk', hig'⟩ := fresh_right G g1 g2
  have nl := (List.nodup_append.mp A.wl.ids).2.1
  have nr := (List.nodup_append.mp A.wr.ids).2.1
  have hls : IsBin i → ls ≠ [] := fun h e =>
    absurd ((term_last A.wl W.left.mem hB).mpr e) (by rw [bin_notTerm h]; simp)
  have fals := cmpInsts_false A W hB hC G
  have hrel := cmpInsts_reloc cfg ⟨l.all, r.all⟩ i j st
  rw [G.reloc] at hrel
  generalize (cmpInsts cfg ⟨l.all, r.all⟩ i j st).2 = s1 at ht fals hrel
  unfold afterDiff at ht
  simp only [maySkipL_plain A.pl hi, maySkipR_plain A.pr hj, notNot A.pl hi, notNot A.pr hj] at ht
  by_cases ha : (cfg.reorder && maySkipBin l.all i) = true
  · have bi : IsBin i := by simp only [Bool.and_eq_true] at ha; exact maySkipBin_bin ha.2
    obtain ⟨o, co⟩ := bi
    obtain ⟨m, rfl⟩ := fals (.inl ⟨o, co⟩)
    obtain ⟨m', hu, G0⟩ := good_undo G hk hk' m
    by_cases hb : (cfg.reorder && maySkipBin r.all j) = true
    · have bj : IsBin j := by simp only [Bool.and_eq_true] at hb; exact maySkipBin_bin hb.2
      obtain ⟨o', co'⟩ := bj
      simp only [ha, hb, if_true, Bool.or_self, Option.some.injEq, Prod.mk.injEq] at ht
      obtain ⟨rfl, rfl, rfl⟩ := ht
      refine ⟨p ++ [i], q ++ [j], ks, by simp [hB], by simp [hC], ?_, fun x hx => hx, ?_, ?_, hls ⟨o, co⟩, ?_⟩
      · rw [idsOf_snoc, idsOf_snoc, ← List.append_assoc, ← List.append_assoc]
        have := good_skipR (good_skipL G0 hk) hk'
        rw [← hu] at this
        exact this
      · intro x hx; exact List.mem_cons_of_mem _ hx
      · intro x hx; exact List.mem_cons_of_mem _ hx
      · intro ks2 ig ig' _ h2 h3 hm
        exact .skipL p q i ls _ o co (h2 _ (by simp [undoLast])) (.skipR _ q j ls rs o' co' (h3 _ (by simp [undoLast])) hm)
    · simp only [ha, hb, if_true, Bool.true_or, Option.some.injEq, Prod.mk.injEq, if_false, Bool.false_eq_true] at ht
      obtain ⟨rfl, rfl, rfl⟩ := ht
      refine ⟨p ++ [i], q, ks, by simp [hB], by simp [hC], ?_, fun x hx => hx, ?_, ?_, hls ⟨o, co⟩, ?_⟩
      · rw [idsOf_snoc, ← List.append_assoc]
        have := good_skipL G0 hk
        rw [← hu] at this
        exact this
      · intro x hx; exact List.mem_cons_of_mem _ hx
      · intro x hx; exact hx
      · intro ks2 ig ig' _ h2 h3 hm
        exact .skipL p q i ls _ o co (h2 _ (by simp [undoLast])) hm
  · by_cases hb : (cfg.reorder && maySkipBin r.all j) = true
    · have bj : IsBin j := by simp only [Bool.and_eq_true] at hb; exact maySkipBin_bin hb.2
      obtain ⟨o', co'⟩ := bj
      obtain ⟨m, rfl⟩ := fals (.inr ⟨o', co'⟩)
      obtain ⟨m', hu, G0⟩ := good_undo G hk hk' m
      simp only [ha, hb, if_true, Bool.or_true, Option.some.injEq, Prod.mk.injEq, if_false, Bool.false_eq_true] at ht
      obtain ⟨rfl, rfl, rfl⟩ := ht
      refine ⟨p, q ++ [j], ks, by simp [hB], by simp [hC], ?_, fun x hx => hx, ?_, ?_, by simp, ?_⟩
      · rw [idsOf_snoc, ← List.append_assoc]
        have := good_skipR G0 hk'
        rw [← hu] at this
        exact this
      · intro x hx; exact hx
      · intro x hx; exact List.mem_cons_of_mem _ hx
      · intro ks2 ig ig' _ h2 h3 hm
        exact .skipR p q j _ rs o' co' (h3 _ (by simp [undoLast])) hm
    · simp only [ha, hb, if_false, Bool.or_self, Bool.false_eq_true, Bool.and_false, Bool.false_and, hrel, hr] at ht
      split at ht
      · next hre =>
        simp only [Option.some.injEq, Prod.mk.injEq] at ht
        obtain ⟨rfl, rfl, rfl⟩ := ht
        simp only [Bool.and_eq_true] at hre
        have bi : IsBin i := by
          have := hre.2
          unfold reorderedEq at this
          split at this
          · next o _ ho _ =>
            unfold binOf at ho
            split at ho
            · next o' hc => exact ⟨o', hc⟩
            · cases ho
          · cases this
        obtain ⟨m, rfl⟩ := fals (.inl bi)
        obtain ⟨o, x, y, x', y', s, t, s', t', u, h1, h2, h3, h4, h5, h6, h7, h8, h9, h10, h11, h12, h13, h14, h15⟩ :=
          reordered_trees A.wl A.wr (A.fl hre.1) (A.fr hre.1) (A.tl hre.1) (A.tr hre.1) W.left W.right hB hC (sync_add G.toSync hk hk' m) G.typed hre.2
        have hsub : ∀ x ∈ ks, x ∈ ks ++ [(DKey.val i.id, DKey.val j.id)] := fun x hx => by simp [hx]
        refine ⟨p ++ [i], q ++ [j], _, by simp [hB], by simp [hC], ?_, hsub, fun x hx => hx, fun x hx => hx,
          hls bi, ?_⟩
        · rw [idsOf_snoc, idsOf_snoc, ← List.append_assoc, ← List.append_assoc]
          refine good_add (inv' := st.inv) (sw' := st.swapped) G hk hk' hig hig' ?_
            (.inl ⟨rfl, opposite_same nl nr hi hj (h1.trans h2.symm)⟩) (fun x hx => .inl (G.swapped x hx)) m
          intro w w' hw hw'
          rw [tyOf_unique A.wl hw (.inr ⟨i, hi, rfl, rfl⟩), tyOf_unique A.wr hw' (.inr ⟨j, hj, rfl, rfl⟩), h3]
        · intro ks2 ig ig' hk2 _ _ hm
          exact .reorder p q i j ls rs o x y x' y' s t s' t' u h1 h2 h3 h4 h5 h6 h7 h8 h9 h10 h11 h12 h13 h14
            (opEq_forall_mono (fun x hx => hk2 x (hsub x hx)) h15) (hk2 _ (by simp)) hm
      · cases ht

theorem blocks_match {l r : DFun} {φ : Nat → Nat} {cfg : DCfg} (A : Assumed cfg l r φ) (hr : cfg.reloc = false)
    {dL dR : List Nat} {B C : DBlock} (W : Place l r φ dL dR B C) :
    ∀ (n : Nat) (p q ls rs : List DInst) (ks : List (DKey × DKey)) (st st' : DSt),
      B.code = p ++ ls → C.code = q ++ rs → GoodD l r φ (dL ++ idsOf p) (dR ++ idsOf q) ks st →
      cmpBlocks cfg ⟨l.all, r.all⟩ n ls rs st = some (true, st') →
      ∃ ks', (∀ x ∈ ks, x ∈ ks') ∧ (∀ x ∈ st.ignL, x ∈ st'.ignL) ∧ (∀ x ∈ st.ignR, x ∈ st'.ignR) ∧
        GoodD l r φ (dL ++ idsOf B.code) (dR ++ idsOf C.code) ks' st' ∧
        (∀ ks2 ig ig', (∀ x ∈ ks', x ∈ ks2) → (∀ x ∈ st'.ignL, x ∈ ig) → (∀ x ∈ st'.ignR, x ∈ ig') →
          Match l r φ ks2 ig ig' p q ls rs) ∧
        (ls ≠ [] → C.succs st'.swapped = (B.succs []).map φ) := by
  intro n
  induction n with
  | zero =>
    intro p q ls rs ks st st' hB hC G h
    cases ls with
    | nil =>
      cases rs with
      | nil =>
        simp only [cmpBlocks, Option.some.injEq, Prod.mk.injEq, true_and] at h
        subst h
        simp only [List.append_nil] at hB hC
        exact ⟨ks, fun _ h => h, fun _ h => h, fun _ h => h, by rw [hB, hC]; exact G,
          fun _ _ _ _ _ _ => .nil p q, fun h => absurd rfl h⟩
      | cons j rs => simp [cmpBlocks] at h
    | cons i ls =>
      cases rs with
      | nil => simp [cmpBlocks] at h
      | cons j rs => simp [cmpBlocks] at h
  | succ n ih =>
    intro p q ls rs ks st st' hB hC G h
    cases ls with
    | nil =>
      cases rs with
      | nil =>
        simp only [cmpBlocks, Option.some.injEq, Prod.mk.injEq, true_and] at h
        subst h
        simp only [List.append_nil] at hB hC
        exact ⟨ks, fun _ h => h, fun _ h => h, fun _ h => h, by rw [hB, hC]; exact G,
          fun _ _ _ _ _ _ => .nil p q, fun h => absurd rfl h⟩
      | cons j rs => simp [cmpBlocks] at h
    | cons i ls =>
      cases rs with
      | nil => simp [cmpBlocks] at h
      | cons j rs =>
        simp only [cmpBlocks] at h
        have hstep : ∀ {ls' rs' st1 p' q' ks1}, Step l r φ dL dR B C p q (i :: ls) (j :: rs) ks st ls' rs' st1 p' q' ks1 →
            cmpBlocks cfg ⟨l.all, r.all⟩ n ls' rs' st1 = some (true, st') →
            ∃ ks', (∀ x ∈ ks, x ∈ ks') ∧ (∀ x ∈ st.ignL, x ∈ st'.ignL) ∧ (∀ x ∈ st.ignR, x ∈ st'.ignR) ∧
              GoodD l r φ (dL ++ idsOf B.code) (dR ++ idsOf C.code) ks' st' ∧
              (∀ ks2 ig ig', (∀ x ∈ ks', x ∈ ks2) → (∀ x ∈ st'.ignL, x ∈ ig) → (∀ x ∈ st'.ignR, x ∈ ig') →
                Match l r φ ks2 ig ig' p q (i :: ls) (j :: rs)) ∧
              (i :: ls ≠ [] → C.succs st'.swapped = (B.succs []).map φ) := by
          intro ls' rs' st1 p' q' ks1 S h
          obtain ⟨ks', h1, h2, h3, h4, h5, h6⟩ := ih p' q' ls' rs' ks1 st1 st' S.codeL S.codeR S.good h
          exact ⟨ks', fun x hx => h1 x (S.sub x hx), fun x hx => h2 x (S.ignL x hx), fun x hx => h3 x (S.ignR x hx),
            h4, fun ks2 ig ig' a b c => S.back ks2 ig ig' (fun x hx => a x (h1 x hx)) (fun x hx => b x (h2 x hx))
              (fun x hx => c x (h3 x hx)) (h5 ks2 ig ig' a b c), fun _ => h6 S.more⟩
        cases hx : (cmpInsts cfg ⟨l.all, r.all⟩ i j st).1 with
        | true =>
          obtain ⟨ks1, F⟩ := cmpInsts_true A W hB hC G hx
          generalize cmpInsts cfg ⟨l.all, r.all⟩ i j st = X at h hx F
          simp only [hx, if_true, afterEq, F.good.reloc] at h
          rcases F.step with ⟨ti, tj, hm⟩ | ⟨ti, tj, hm, hs⟩
          · refine hstep (p' := p ++ [i]) (q' := q ++ [j]) (ks1 := ks1) ⟨by simp [hB], by simp [hC], ?_, F.sub, ?_, ?_, ?_, ?_⟩ h
            · rw [idsOf_snoc, idsOf_snoc, ← List.append_assoc, ← List.append_assoc]; exact F.good
            · rw [F.ignL]; exact fun _ h => h
            · rw [F.ignR]; exact fun _ h => h
            · intro e
              rw [(term_last A.wl W.left.mem hB).mpr e] at ti
              cases ti
            · intro ks2 ig ig' a _ _ hm'
              exact hm ks2 ig ig' a hm'
          · have e1 := (term_last A.wl W.left.mem hB).mp ti
            have e2 := (term_last A.wr W.right.mem hC).mp tj
            subst e1 e2
            rw [show cmpBlocks cfg ⟨l.all, r.all⟩ n [] [] X.2 = some (true, X.2) by cases n <;> rfl] at h
            simp only [Option.some.injEq, Prod.mk.injEq, true_and] at h
            subst h
            refine ⟨ks1, F.sub, by rw [F.ignL]; exact fun _ h => h, by rw [F.ignR]; exact fun _ h => h, ?_,
              fun ks2 ig ig' a _ _ => hm ks2 ig ig' a, fun _ => ?_⟩
            · rw [hB, hC, idsOf_snoc, idsOf_snoc, ← List.append_assoc, ← List.append_assoc]; exact F.good
            · have : curOps [] i = i.ops := by simp [curOps]
              simp only [DBlock.succs, hB, hC, List.getLast?_append, List.getLast?_singleton, Option.or_some,
                Option.some_or, this, hs]
        | false =>
          simp only [hx, if_false, Bool.false_eq_true] at h
          cases hd : afterDiff cfg ⟨l.all, r.all⟩ i ls j rs (cmpInsts cfg ⟨l.all, r.all⟩ i j st).2 with
          | none => rw [hd] at h; simp at h
          | some y =>
            obtain ⟨ls', rs', st1⟩ := y
            rw [hd] at h
            obtain ⟨p', q', ks1, S⟩ := diff_step A hr W hB hC G hd
            exact hstep S h

end DK
