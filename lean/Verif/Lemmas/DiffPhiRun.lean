import Verif.Lemmas.DiffPhi

/-!
Lemmas: the comparison of functions with phis, without patterns and with the pattern for inverse
conditions.
-/

set_option autoImplicit false

namespace DK
open Spec

/-- What is assumed about both functions; `v`: are inverse conditions compared? -/
structure PAssumed (l r : DFun) (φ : Nat → Nat) (v : Bool) : Prop where
  wl : DWellFormed l
  wr : DWellFormed r
  dl : Dominated l
  dr : Dominated r
  cl : NoConversions l
  cr : NoConversions r
  nl : v = true → ∀ i ∈ l.all, isNot i = false
  nr : v = true → ∀ i ∈ r.all, isNot i = false
  entry : ∀ B Bs C Cs, l.blocks = B :: Bs → r.blocks = C :: Cs → C.id = φ B.id
  inj : ∀ B ∈ l.blocks, ∀ C ∈ l.blocks, φ B.id = φ C.id → B.id = C.id
  flow : ∀ B ∈ l.blocks, ∃ C ∈ r.blocks, C.id = φ B.id ∧
    ∀ t u, B.code.getLast? = some t → C.code.getLast? = some u →
      (targets t).map φ = if (v && oppositeBranches l r t u) = true then (targets u).reverse else targets u
  al : AllReached l
  ar : AllReached r
  pl : PhisOk l
  pr : PhisOk r

/-- The configuration: only inverse conditions. -/
abbrev cfgInv (v : Bool) : DCfg := ⟨false, v, false, false⟩

theorem op_step {l r : DFun} {φ : Nat → Nat} {v : Bool} (A : PAssumed l r φ v) {ks : List (DKey × DKey)} {st st' : DSt}
    (S : PState l r φ ks st) {x y : DOp} (hp : OpPre l r φ x y) {n : Nat}
    (h : cmpVals ⟨l.all, r.all⟩ n x y st = (true, st')) :
    ∃ ks', (∀ x ∈ ks, x ∈ ks') ∧ (∀ z ∈ ks', z ∈ ks ∨ (x.key = some z.1 ∧ y.key = some z.2)) ∧
      PState l r φ ks' st' ∧ OpRel l φ ks' x y := by
  rw [cmpVals_plain S] at h
  cases x with
  | const w v =>
    cases y with
    | const w' v' =>
      simp only [cmpPlainD, DOp.key, Prod.mk.injEq, decide_eq_true_eq] at h
      obtain ⟨e, rfl⟩ := h
      rw [← e]
      exact ⟨ks, fun _ h => h, fun _ h => .inl h, S, .const w v⟩
    | ref b w' => simp [cmpPlainD, DOp.key] at h
    | blk b => simp [cmpPlainD, DOp.key] at h
  | ref a w =>
    cases y with
    | const w' v' => simp [cmpPlainD, DOp.key] at h
    | ref b w' =>
      simp only [cmpPlainD, DOp.key] at h
      rcases hp with ⟨B, _, e, _⟩ | ⟨_, _, hu⟩
      · cases e
      · obtain ⟨ks', h1, hn, h2, h3⟩ := refs_step A.wl A.wr A.inj S
          (.inr ⟨a, b, rfl, rfl, hu a b w w' rfl rfl⟩) h
        refine ⟨ks', h1, fun z hz => ?_, h2, .ref a b w w' h3⟩
        rcases hn z hz with h | rfl
        · exact .inl h
        · exact .inr ⟨rfl, rfl⟩
    | blk b =>
      rcases hp with ⟨B, _, e, _⟩ | ⟨_, hu, _⟩
      · cases e
      · exact absurd rfl (hu b)
  | blk b =>
    rcases hp with ⟨B, hB, e, rfl⟩ | ⟨hu, _, _⟩
    · cases e
      simp only [cmpPlainD, DOp.key] at h
      obtain ⟨ks', h1, hn, h2, h3⟩ := refs_step A.wl A.wr A.inj S (.inl ⟨B, hB, rfl, rfl⟩) h
      refine ⟨ks', h1, fun z hz => ?_, h2, .blk B hB⟩
      rcases hn z hz with h | rfl
      · exact .inl h
      · exact .inr ⟨rfl, rfl⟩
    · exact absurd rfl (hu b)

theorem ops_step {l r : DFun} {φ : Nat → Nat} {v : Bool} (A : PAssumed l r φ v) {xs ys : List DOp}
    (hp : List.Forall₂ (OpPre l r φ) xs ys) : ∀ {ks : List (DKey × DKey)} {st st' : DSt}, PState l r φ ks st →
    cmpOpList ⟨l.all, r.all⟩ xs ys st = (true, st') →
    ∃ ks', (∀ x ∈ ks, x ∈ ks') ∧ (∀ z ∈ ks', z ∈ ks ∨ ∃ x ∈ xs, x.key = some z.1) ∧
      PState l r φ ks' st' ∧ List.Forall₂ (OpRel l φ ks') xs ys := by
  induction hp with
  | nil =>
    intro ks st st' S h
    simp only [cmpOpList, Prod.mk.injEq, true_and] at h
    subst h
    exact ⟨ks, fun _ h => h, fun _ h => .inl h, S, .nil⟩
  | @cons x y xs ys hxy _ ih =>
    intro ks st st' S h
    simp only [cmpOpList] at h
    split at h
    · next hx =>
      obtain ⟨ks1, s1, n1, S1, o1⟩ := op_step A S hxy (n := DPair.depth ⟨l.all, r.all⟩)
        (st' := (cmpVals ⟨l.all, r.all⟩ (DPair.depth ⟨l.all, r.all⟩) x y st).2) (Prod.ext hx rfl)
      obtain ⟨ks2, s2, n2, S2, o2⟩ := ih S1 h
      refine ⟨ks2, fun z hz => s2 z (s1 z hz), fun z hz => ?_, S2, .cons (o1.mono s2) o2⟩
      rcases n2 z hz with hz | ⟨x', hx', e⟩
      · rcases n1 z hz with hz | ⟨e, _⟩
        · exact .inl hz
        · exact .inr ⟨x, by simp, e⟩
      · exact .inr ⟨x', by simp [hx'], e⟩
    · simp at h

/-- Are two values opposite? -/
abbrev opp (l r : DFun) (v : Bool) (a b : Nat) : Bool := v && opposite l r a b

/-- Corresponding instructions: phis, instructions that are the same, opposite comparisons, and branches on
opposite comparisons. -/
def PInstRel (l r : DFun) (φ : Nat → Nat) (v : Bool) (ks : List (DKey × DKey)) (i j : DInst) : Prop :=
  (i.code = .phi ∧ j.code = .phi) ∨
    (i.code ≠ .phi ∧ j.code ≠ .phi ∧ (DKey.val i.id, DKey.val j.id) ∈ ks ∧
      ((j.code = i.code ∧ j.ty = i.ty ∧ i.ops.map DOp.ty = j.ops.map DOp.ty ∧
          List.Forall₂ (OpRel l φ ks) i.ops j.ops ∧ (v && oppositeBranches l r i j) = false) ∨
        (∃ p : Pred, i.code = .cmp p.inverse ∧ j.code = .cmp p ∧ v = true ∧
          i.ops.map DOp.ty = j.ops.map DOp.ty ∧ List.Forall₂ (OpRel l φ ks) i.ops j.ops) ∨
        (i.code = .branch ∧ j.code = .branch ∧ (v && oppositeBranches l r i j) = true ∧
          List.Forall₂ (OpRel l φ ks) i.ops (swapOps j.ops))))

theorem PInstRel.mono {l r : DFun} {φ : Nat → Nat} {v : Bool} {ks ks' : List (DKey × DKey)} (h : ∀ x ∈ ks, x ∈ ks')
    {i j : DInst} (e : PInstRel l r φ v ks i j) : PInstRel l r φ v ks' i j := by
  have hf : ∀ {xs ys}, List.Forall₂ (OpRel l φ ks) xs ys → List.Forall₂ (OpRel l φ ks') xs ys :=
    fun o => forall2_imp o fun _ _ _ _ o => o.mono h
  rcases e with e | ⟨h1, h2, h3, h4⟩
  · exact .inl e
  · refine .inr ⟨h1, h2, h _ h3, ?_⟩
    rcases h4 with ⟨a, b, c, d, e⟩ | ⟨p, a, b, c, d, e⟩ | ⟨a, b, c, d⟩
    · exact .inl ⟨a, b, c, hf d, e⟩
    · exact .inr (.inl ⟨p, a, b, c, d, hf e⟩)
    · exact .inr (.inr ⟨a, b, c, hf d⟩)

theorem not_opposite {l r : DFun} {i j : DInst} (h : i.code ≠ .branch) : oppositeBranches l r i j = false := by
  unfold oppositeBranches
  split
  · next hc _ _ => exact absurd hc h
  · rfl

/-- Targets of terminators of corresponding blocks. -/
theorem term_targets {l r : DFun} {φ : Nat → Nat} {v : Bool} (A : PAssumed l r φ v) {B C : DBlock} (hB : B ∈ l.blocks)
    (hC : C ∈ r.blocks) (hid : C.id = φ B.id) {i j : DInst} (hi : i ∈ B.code) (hj : j ∈ C.code)
    (h : isTerm i = true) (h' : isTerm j = true) :
    (targets i).map φ = if (v && oppositeBranches l r i j) = true then (targets j).reverse else targets j := by
  obtain ⟨C', hC', idC', hf⟩ := A.flow B hB
  have e : C' = C := by
    have h1 := find_block A.wr hC'
    have h2 := find_block A.wr hC
    rw [idC', ← hid, h2] at h1
    exact (Option.some.inj h1).symm
  subst e
  obtain ⟨p1, s1, e1⟩ := split_mem hi
  obtain ⟨p2, s2, e2⟩ := split_mem hj
  have t1 := (term_last A.wl hB e1).mp h
  have t2 := (term_last A.wr hC e2).mp h'
  subst t1 t2
  exact hf i j (by rw [e1]; simp) (by rw [e2]; simp)

theorem used_pre {l r : DFun} {φ : Nat → Nat} {B C : DBlock} (hB : B ∈ l.blocks)
    (hC : C ∈ r.blocks) (hid : C.id = φ B.id) {i j : DInst} (hi : i ∈ B.code) (hj : j ∈ C.code)
    (hn : i.code ≠ .phi) (hn' : j.code ≠ .phi) {x y : DOp} (hx : x ∈ i.ops) (hy : y ∈ j.ops)
    (h1 : ∀ b, x ≠ .blk b) (h2 : ∀ b, y ≠ .blk b) : OpPre l r φ x y := by
  refine .inr ⟨h1, h2, ?_⟩
  rintro a b w w' rfl rfl _ _
  exact ⟨B, hB, C, hC, hid, i, hi, j, hj, hn, hn', ⟨w, hx⟩, w', hy⟩

/-- Operands of instructions that are no branches, in corresponding blocks. -/
theorem ops_pre {l r : DFun} {φ : Nat → Nat} {v : Bool} (A : PAssumed l r φ v) {B C : DBlock} (hB : B ∈ l.blocks)
    (hC : C ∈ r.blocks) (hid : C.id = φ B.id) {i j : DInst} (hi : i ∈ B.code) (hj : j ∈ C.code)
    (hc : (i.code = .jump ∧ j.code = .jump) ∨ (i.code ≠ .jump ∧ j.code ≠ .jump))
    (hbr : i.code ≠ .branch) (hbr' : j.code ≠ .branch)
    (hn : i.code ≠ .phi) (hn' : j.code ≠ .phi) (ht : i.ops.map DOp.ty = j.ops.map DOp.ty) :
    List.Forall₂ (OpPre l r φ) i.ops j.ops := by
  have hil : i ∈ l.all := List.mem_flatMap.mpr ⟨B, hB, hi⟩
  have hjr : j ∈ r.all := List.mem_flatMap.mpr ⟨C, hC, hj⟩
  have si := A.wl.shape i hil
  have sj := A.wr.shape j hjr
  rcases hc with ⟨c1, c2⟩ | ⟨c1, c2⟩
  · unfold ShapeOk at si sj
    rw [c1] at si
    rw [c2] at sj
    obtain ⟨b, eb⟩ := si
    obtain ⟨c, ec⟩ := sj
    have tm := term_targets A hB hC hid hi hj (by simp [isTerm, c1]) (by simp [isTerm, c2])
    rw [not_opposite hbr] at tm
    simp only [targets, eb, ec, List.filterMap_cons, List.filterMap_nil, List.map_cons, List.map_nil,
      Bool.and_false, Bool.false_eq_true, if_false, List.cons.injEq, and_true] at tm
    obtain ⟨D, hD, rfl⟩ := A.wl.targets i hil b (by simp [targets, eb])
    rw [eb, ec, ← tm]
    exact .cons (.inl ⟨D, hD, rfl, rfl⟩) .nil
  · have nb1 : ∀ b, DOp.blk b ∉ i.ops := fun b h => no_blocks si c1 hbr _ h b rfl
    have nb2 : ∀ b, DOp.blk b ∉ j.ops := fun b h => no_blocks sj c2 hbr' _ h b rfl
    have hlen : i.ops.length = j.ops.length := by simpa using congrArg List.length ht
    rw [List.forall₂_iff_zip]
    refine ⟨hlen, fun {x y} hxy => ?_⟩
    have hx := (List.of_mem_zip hxy).1
    have hy := (List.of_mem_zip hxy).2
    exact used_pre hB hC hid hi hj hn hn' hx hy (fun b e => nb1 b (e ▸ hx)) (fun b e => nb2 b (e ▸ hy))

theorem targets_pbranch {i : DInst} {c : DOp} {x y : Nat} (e : i.ops = [c, .blk x, .blk y]) (h : ∀ b, c ≠ .blk b) :
    targets i = [x, y] := by
  unfold targets
  rw [e]
  cases c with
  | blk b => exact absurd rfl (h b)
  | const _ _ => rfl
  | ref _ _ => rfl

/-- Operands of branches in corresponding blocks. -/
theorem branch_pre {l r : DFun} {φ : Nat → Nat} {v : Bool} (A : PAssumed l r φ v) {B C : DBlock} (hB : B ∈ l.blocks)
    (hC : C ∈ r.blocks) (hid : C.id = φ B.id) {i j : DInst} (hi : i ∈ B.code) (hj : j ∈ C.code)
    (c1 : i.code = .branch) (c2 : j.code = .branch) :
    ∃ c x y c' x' y', i.ops = [c, .blk x, .blk y] ∧ j.ops = [c', .blk x', .blk y'] ∧ OpPre l r φ c c' ∧
      (∀ b, c ≠ .blk b) ∧
      ((v && oppositeBranches l r i j) = false →
        List.Forall₂ (OpPre l r φ) [.blk x, .blk y] [.blk x', .blk y']) ∧
      ((v && oppositeBranches l r i j) = true →
        List.Forall₂ (OpPre l r φ) [.blk x, .blk y] [.blk y', .blk x']) := by
  have hil : i ∈ l.all := List.mem_flatMap.mpr ⟨B, hB, hi⟩
  have hjr : j ∈ r.all := List.mem_flatMap.mpr ⟨C, hC, hj⟩
  have si := A.wl.shape i hil
  have sj := A.wr.shape j hjr
  unfold ShapeOk at si sj
  rw [c1] at si
  rw [c2] at sj
  obtain ⟨c, x, y, eb, _, _, hcb⟩ := si
  obtain ⟨c', x', y', ec, _, _, hcb'⟩ := sj
  have t1 := targets_pbranch eb hcb
  have t2 := targets_pbranch ec hcb'
  have tm := term_targets A hB hC hid hi hj (by simp [isTerm, c1]) (by simp [isTerm, c2])
  rw [t1, t2] at tm
  obtain ⟨D, hD, rfl⟩ := A.wl.targets i hil x (by simp [t1])
  obtain ⟨E, hE, rfl⟩ := A.wl.targets i hil y (by simp [t1])
  have u := used_pre hB hC hid hi hj (by rw [c1]; simp) (by rw [c2]; simp) (x := c) (y := c') (by simp [eb])
    (by simp [ec]) hcb hcb'
  refine ⟨c, D.id, E.id, c', x', y', eb, ec, u, hcb, fun h => ?_, fun h => ?_⟩
  · rw [h] at tm
    simp only [Bool.false_eq_true, if_false, List.map_cons, List.map_nil, List.cons.injEq, and_true] at tm
    rw [← tm.1, ← tm.2]
    exact .cons (.inl ⟨D, hD, rfl, rfl⟩) (.cons (.inl ⟨E, hE, rfl, rfl⟩) .nil)
  · rw [h] at tm
    simp only [if_true, List.map_cons, List.map_nil, List.reverse_cons, List.reverse_nil, List.nil_append,
      List.cons_append, List.cons.injEq, and_true] at tm
    rw [← tm.1, ← tm.2]
    exact .cons (.inl ⟨D, hD, rfl, rfl⟩) (.cons (.inl ⟨E, hE, rfl, rfl⟩) .nil)

theorem not_phi {f : DFun} (hf : DWellFormed f) {i : DInst} (hi : i ∈ f.all) (h : i.code ≠ .phi) : ¬ IsPhi f i.id := by
  rintro ⟨j, hj, e, hc⟩
  exact h (id_unique hf hj hi e ▸ hc)

/-- A value is used only by branches. -/
def BranchOnly (f : DFun) (a : Nat) : Prop := ∀ u ∈ f.all, ∀ w, DOp.ref a w ∈ u.ops → u.code = .branch

theorem users_pbranch {f : DFun} (hn : ∀ i ∈ f.all, isNot i = false) {n a : Nat} (h : invUsersOk f.all n a = true) :
    BranchOnly f a := by
  cases n with
  | zero => cases h
  | succ n =>
    simp only [invUsersOk, List.all_eq_true] at h
    intro u hu w hw
    have := h u (List.mem_filter.mpr ⟨hu, List.any_eq_true.mpr ⟨_, hw, by simp⟩⟩)
    rw [hn u hu] at this
    simpa using this

/-- Inverse conditions and swapped branches in states of the comparison. -/
structure PInvs (l r : DFun) (v : Bool) (ks : List (DKey × DKey)) (st : DSt) : Prop where
  inv : ∀ p ∈ st.inv, ∃ a b, p = (some (DKey.val a), some (DKey.val b)) ∧ opp l r v a b = true
  rec_ : ∀ a b, (DKey.val a, DKey.val b) ∈ ks → opp l r v a b = true →
    (some (DKey.val a), some (DKey.val b)) ∈ st.inv ∧ BranchOnly l a ∧ BranchOnly r b
  sw : ∀ s ∈ st.swapped, DKey.val s ∈ ks.map Prod.snd

theorem pred_phi {f : DFun} (hf : DWellFormed f) {a : Nat} (h : IsPhi f a) : predAt f a = none := by
  obtain ⟨i, hi, rfl, hc⟩ := h
  rw [predAt_eq (List.nodup_append.mp hf.ids).2.1 hi, hc]

theorem opp_phi {l r : DFun} (hl : DWellFormed l) {v : Bool} {a b : Nat} (h : IsPhi l a) : opp l r v a b = false := by
  simp [opp, opposite, pred_phi hl h]

/-- The numbers that come from operands. -/
def NewOps (l r : DFun) (ks ks' : List (DKey × DKey)) : Prop :=
  ∀ z ∈ ks', z ∈ ks ∨ (∃ a b, z = (DKey.val a, DKey.val b) ∧ IsPhi l a ∧ IsPhi r b) ∨ ∃ b c, z = (DKey.blk b, DKey.blk c)

theorem NewOps.trans {l r : DFun} {k1 k2 k3 : List (DKey × DKey)} (h1 : NewOps l r k1 k2) (h2 : NewOps l r k2 k3) :
    NewOps l r k1 k3 := by
  intro z hz
  rcases h2 z hz with hz | hz
  · exact h1 z hz
  · exact .inr hz

theorem new_ops {l r : DFun} {φ : Nat → Nat} {ks ks' : List (DKey × DKey)} {st' : DSt} (hs : ∀ x ∈ ks, x ∈ ks')
    (S : PState l r φ ks' st') {xs : List DOp} (hn : ∀ z ∈ ks', z ∈ ks ∨ ∃ x ∈ xs, x.key = some z.1)
    (ho : ∀ a w, DOp.ref a w ∈ xs → IsPhi l a ∨ DKey.val a ∈ ks.map Prod.fst) : NewOps l r ks ks' := by
  rintro ⟨k, k'⟩ hz
  rcases hn _ hz with h | ⟨x, hx, e⟩
  · exact .inl h
  · rcases S.kinds _ _ hz with ⟨a, b, rfl, rfl⟩ | ⟨B, _, rfl, rfl⟩
    · cases x with
      | const w v => cases e
      | blk b => cases e
      | ref c w =>
        cases e
        rcases ho a w hx with h | h
        · rcases S.phis a b hz with ⟨h', _⟩ | ⟨h1, h2, _⟩
          · exact absurd h h'
          · exact .inr (.inl ⟨a, b, rfl, h1, h2⟩)
        · obtain ⟨k2, hk⟩ := mem_fst h
          rw [key_left S.left hz (hs _ hk)]
          exact .inl hk
    · exact .inr (.inr ⟨_, _, rfl⟩)

theorem pinv_ops {l r : DFun} (hl : DWellFormed l) {v : Bool} {ks ks' : List (DKey × DKey)} {st st' : DSt}
    (Q : PInvs l r v ks st) (hs : ∀ x ∈ ks, x ∈ ks') (hn : NewOps l r ks ks') (e1 : st'.inv = st.inv)
    (e2 : st'.swapped = st.swapped) : PInvs l r v ks' st' where
  inv := by rw [e1]; exact Q.inv
  rec_ := by
    intro a b hab ho
    rw [e1]
    rcases hn _ hab with h | ⟨a', b', e, h, _⟩ | ⟨_, _, e⟩
    · exact Q.rec_ a b h ho
    · cases e
      rw [opp_phi hl h] at ho
      cases ho
    · cases e
  sw := by
    intro s h
    rw [e2] at h
    obtain ⟨k, hk⟩ := mem_snd (Q.sw s h)
    exact List.mem_map_of_mem (f := Prod.snd) (hs _ hk)

/-- The new numbers after two instructions were compared. -/
def NewInst (l r : DFun) (ks ks' : List (DKey × DKey)) (i j : DInst) : Prop :=
  ∀ z ∈ ks', z ∈ ks ∨ z = (DKey.val i.id, DKey.val j.id) ∨ (∃ a b, z = (DKey.val a, DKey.val b) ∧ IsPhi l a ∧ IsPhi r b) ∨
    ∃ b c, z = (DKey.blk b, DKey.blk c)

theorem new_inst {l r : DFun} {k1 k2 k3 : List (DKey × DKey)} {i j : DInst}
    (h1 : ∀ z ∈ k2, z ∈ k1 ∨ z = (DKey.val i.id, DKey.val j.id)) (h2 : NewOps l r k2 k3) : NewInst l r k1 k3 i j := by
  intro z hz
  rcases h2 z hz with hz | hz
  · rcases h1 z hz with h | h
    · exact .inl h
    · exact .inr (.inl h)
  · exact .inr (.inr hz)

theorem insts_frame {v : Bool} {P : DPair} {i j : DInst} {st : DSt} :
    (cmpInsts (cfgInv v) P i j st).2.reloc = st.reloc := by
  have hv := cmpVals_frame P P.depth (.ref i.id i.ty) (.ref j.id j.ty) st
  unfold cmpInsts
  dsimp only
  split
  · rfl
  · split
    · exact (cmpOpList_frame P _ _ _).2.2.trans hv.2.2
    · split
      · exact (cmpOpList_frame P _ _ _).2.2.trans hv.2.2
      · split
        · exact (cmpOpList_frame P _ _ _).2.2.trans hv.2.2
        · exact hv.2.2

theorem inst_step {l r : DFun} {φ : Nat → Nat} {v : Bool} (A : PAssumed l r φ v) {B C : DBlock} (hB : B ∈ l.blocks)
    (hC : C ∈ r.blocks) (hid : C.id = φ B.id) {i j : DInst} (hi : i ∈ B.code) (hj : j ∈ C.code)
    {ks : List (DKey × DKey)} {st st' : DSt} (S : PState l r φ ks st) (Q : PInvs l r v ks st)
    (fl : i.code ≠ .phi → DKey.val i.id ∉ ks.map Prod.fst) (fr : j.code ≠ .phi → DKey.val j.id ∉ ks.map Prod.snd)
    (ho : i.code ≠ .phi → ∀ a w, DOp.ref a w ∈ i.ops → IsPhi l a ∨ DKey.val a ∈ ks.map Prod.fst)
    (h : cmpInsts (cfgInv v) ⟨l.all, r.all⟩ i j st = (true, st')) :
    ∃ ks', (∀ x ∈ ks, x ∈ ks') ∧ NewInst l r ks ks' i j ∧ PState l r φ ks' st' ∧ PInvs l r v ks' st' ∧
      PInstRel l r φ v ks' i j ∧
      curOps st'.swapped j = if (v && oppositeBranches l r i j) = true then swapOps j.ops else j.ops := by
  have hil : i ∈ l.all := List.mem_flatMap.mpr ⟨B, hB, hi⟩
  have hjr : j ∈ r.all := List.mem_flatMap.mpr ⟨C, hC, hj⟩
  have nl := (List.nodup_append.mp A.wl.ids).2.1
  have nr := (List.nodup_append.mp A.wr.ids).2.1
  unfold cmpInsts at h
  dsimp only at h
  split at h
  · next hp =>
    simp only [Prod.mk.injEq, true_and] at h
    subst h
    refine ⟨ks, fun _ h => h, fun _ h => .inl h, S, Q, .inl hp, ?_⟩
    rw [not_opposite (by rw [hp.1]; simp)]
    simp [curOps, hp.2]
  · next hp =>
    have hv := cmpVals_frame ⟨l.all, r.all⟩ (DPair.depth ⟨l.all, r.all⟩) (.ref i.id i.ty) (.ref j.id j.ty) st
    have hval : cmpVals ⟨l.all, r.all⟩ (DPair.depth ⟨l.all, r.all⟩) (.ref i.id i.ty) (.ref j.id j.ty) st =
        cmpRefs ⟨l.all, r.all⟩ (.val i.id) (.val j.id) st := cmpVals_plain S _ _ _ _
    generalize cmpVals ⟨l.all, r.all⟩ (DPair.depth ⟨l.all, r.all⟩) (.ref i.id i.ty) (.ref j.id j.ty) st = x at h hv hval
    have first : i.code ≠ .phi → j.code ≠ .phi → ∃ ks1, (∀ z ∈ ks, z ∈ ks1) ∧
        (∀ z ∈ ks1, z ∈ ks ∨ z = (DKey.val i.id, DKey.val j.id)) ∧ PState l r φ ks1 x.2 ∧
        (DKey.val i.id, DKey.val j.id) ∈ ks1 := by
      intro hni hnj
      have pi := not_phi A.wl hil hni
      have pj := not_phi A.wr hjr hnj
      have ht := refs_new A.wl A.wr S (fl hni) (fr hnj) pi pj
      rw [← hval] at ht
      exact refs_step A.wl A.wr A.inj S (.inr ⟨i.id, j.id, rfl, rfl, fun h => absurd h pi⟩)
        (hval.symm.trans (Prod.ext ht rfl))
    have fresh : j.code ≠ .phi → j.id ∉ x.2.swapped := by
      intro hnj hm
      rw [hv.2.1] at hm
      exact fr hnj (Q.sw _ hm)
    -- the state with the new pair
    have second : ∀ ks1 : List (DKey × DKey), (∀ z ∈ ks, z ∈ ks1) → (∀ z ∈ ks1, z ∈ ks ∨ z = (DKey.val i.id, DKey.val j.id)) →
        opp l r v i.id j.id = false → PInvs l r v ks1 x.2 := by
      intro ks1 hs hn hop
      refine ⟨by rw [hv.1]; exact Q.inv, ?_, ?_⟩
      · intro a b hab hab2
        rw [hv.1]
        rcases hn _ hab with h | e
        · exact Q.rec_ a b h hab2
        · cases e
          rw [hop] at hab2
          cases hab2
      · intro s hs'
        rw [hv.2.1] at hs'
        obtain ⟨k, hk⟩ := mem_snd (Q.sw s hs')
        exact List.mem_map_of_mem (f := Prod.snd) (hs _ hk)
    have ho1 : i.code ≠ .phi → ∀ ks1 : List (DKey × DKey), (∀ z ∈ ks, z ∈ ks1) →
        ∀ a w, DOp.ref a w ∈ i.ops → IsPhi l a ∨ DKey.val a ∈ ks1.map Prod.fst := by
      intro hni ks1 hs a w ha
      rcases ho hni a w ha with h | h
      · exact .inl h
      · obtain ⟨k, hk⟩ := mem_fst h
        exact .inr (List.mem_map_of_mem (f := Prod.fst) (hs _ hk))
    split at h
    · -- branches on inverse conditions
      next hib =>
      obtain ⟨c1, c2, kx, ky, b1, b2, hm⟩ := inverseBranches_code hib
      have hni : i.code ≠ .phi := by rw [c1]; simp
      have hnj : j.code ≠ .phi := by rw [c2]; simp
      obtain ⟨ks1, s1, n1, S1, m1⟩ := first hni hnj
      have hop : opp l r v i.id j.id = false := by
        simp [opp, opposite, predAt_eq nl hil, c1]
      have Q1 := second ks1 s1 n1 hop
      obtain ⟨c, tx, ty, c', tx', ty', eb, ec, hpre, hcb, _, hcross⟩ := branch_pre A hB hC hid hi hj c1 c2
      obtain ⟨a, b, e, hab⟩ := Q1.inv _ hm
      have hopp : (v && oppositeBranches l r i j) = true := by
        simp only [branchCond, c1, eb, c2, ec, List.head?_cons, Option.bind_some] at b1 b2
        simp only [Prod.mk.injEq, Option.some.injEq] at e
        obtain ⟨rfl, rfl⟩ := e
        cases c with
        | const _ _ => cases b1
        | blk _ => cases b1
        | ref a' w =>
          cases c' with
          | const _ _ => cases b2
          | blk _ => cases b2
          | ref b' w' =>
            cases b1
            cases b2
            simp only [oppositeBranches, c1, eb, ec]
            exact hab
      have hcur : curOps (j.id :: x.2.swapped) j = swapOps j.ops := by
        have := List.count_eq_zero_of_not_mem (fresh hnj)
        simp [curOps, c2, this]
      rw [hcur] at h
      have hops : List.Forall₂ (OpPre l r φ) i.ops (swapOps j.ops) := by
        rw [eb, ec]
        exact .cons hpre (hcross hopp)
      have S1' : PState l r φ ks1 { x.2 with swapped := j.id :: x.2.swapped } :=
        { toSync := ⟨S1.snL, S1.snR, S1.repL, S1.repR, S1.left, S1.right⟩, ignL := S1.ignL, ignR := S1.ignR,
          reloc := S1.reloc, kinds := S1.kinds, phis := S1.phis, conv := S1.conv }
      have Q1' : PInvs l r v ks1 { x.2 with swapped := j.id :: x.2.swapped } :=
        ⟨Q1.inv, Q1.rec_, fun s hs => by
          rcases List.mem_cons.mp hs with rfl | hs
          · exact List.mem_map_of_mem (f := Prod.snd) m1
          · exact Q1.sw s hs⟩
      have fr2 := cmpOpList_frame ⟨l.all, r.all⟩ i.ops (swapOps j.ops) { x.2 with swapped := j.id :: x.2.swapped }
      rw [h] at fr2
      obtain ⟨ks2, s2, n2, S2, o2⟩ := ops_step A hops S1' h
      have N2 := new_ops s2 S2 n2 (ho1 hni ks1 s1)
      refine ⟨ks2, fun z hz => s2 z (s1 z hz), new_inst n1 N2, S2, pinv_ops A.wl Q1' s2 N2 fr2.1 fr2.2.1,
        .inr ⟨hni, hnj, s2 _ m1, .inr (.inr ⟨c1, c2, hopp, o2⟩)⟩, ?_⟩
      rw [hopp, if_pos rfl, fr2.2.1]
      exact hcur
    · next hib =>
      split at h
      · -- the same instruction
        next hx =>
        simp only [Bool.and_eq_true] at hx
        obtain ⟨hx, hh⟩ := hx
        simp only [sameHead, Bool.and_eq_true, decide_eq_true_eq] at hh
        obtain ⟨⟨hc, hty⟩, hops⟩ := hh
        have hni : i.code ≠ .phi := fun e => hp ⟨e, hc ▸ e⟩
        have hnj : j.code ≠ .phi := hc ▸ hni
        obtain ⟨ks1, s1, n1, S1, m1⟩ := first hni hnj
        have Q1 := second ks1 s1 n1 (by simp [opp, opposite_same nl nr hil hjr hc])
        have hcur : curOps x.2.swapped j = j.ops := curOps_fresh (fresh hnj)
        rw [hcur] at h
        have fr2 := cmpOpList_frame ⟨l.all, r.all⟩ i.ops j.ops x.2
        rw [h] at fr2
        have fin : (v && oppositeBranches l r i j) = false → List.Forall₂ (OpPre l r φ) i.ops j.ops → 
            ∃ ks', (∀ x ∈ ks, x ∈ ks') ∧ NewInst l r ks ks' i j ∧ PState l r φ ks' st' ∧ PInvs l r v ks' st' ∧
              PInstRel l r φ v ks' i j ∧
              curOps st'.swapped j = if (v && oppositeBranches l r i j) = true then swapOps j.ops else j.ops := by
          intro hopp hpre
          obtain ⟨ks2, s2, n2, S2, o2⟩ := ops_step A hpre S1 h
          have N2 := new_ops s2 S2 n2 (ho1 hni ks1 s1)
          refine ⟨ks2, fun z hz => s2 z (s1 z hz), new_inst n1 N2, S2, pinv_ops A.wl Q1 s2 N2 fr2.1 fr2.2.1,
            .inr ⟨hni, hnj, s2 _ m1, .inl ⟨hc.symm, hty.symm, hops, o2, hopp⟩⟩, ?_⟩
          rw [hopp, fr2.2.1]
          exact hcur
        by_cases hbr : i.code = .branch
        · obtain ⟨c, tx, ty, c', tx', ty', eb, ec, hpre, hcb, hstr, _⟩ := branch_pre A hB hC hid hi hj hbr (hc ▸ hbr)
          have hopp : (v && oppositeBranches l r i j) = false := by
            rw [eb, ec] at h
            simp only [cmpOpList] at h
            split at h
            · next hx2 =>
              obtain ⟨ks2, s2, n2, S2, o2⟩ := op_step A S1 hpre (n := DPair.depth ⟨l.all, r.all⟩)
                (st' := (cmpVals ⟨l.all, r.all⟩ (DPair.depth ⟨l.all, r.all⟩) c c' x.2).2) (Prod.ext hx2 rfl)
              have N2 := new_ops s2 S2 (xs := i.ops) (fun z hz => by
                rcases n2 z hz with h | ⟨h, _⟩
                · exact .inl h
                · exact .inr ⟨c, by simp [eb], h⟩) (ho1 hni ks1 s1)
              have fr3 := cmpVals_frame ⟨l.all, r.all⟩ (DPair.depth ⟨l.all, r.all⟩) c c' x.2
              have Q2 := pinv_ops A.wl Q1 s2 N2 fr3.1 fr3.2.1
              cases o2 with
              | const w v => simp [oppositeBranches, hbr, eb]
              | blk B _ => exact absurd rfl (hcb _)
              | ref a b w w' hm =>
                by_contra hne
                have hne : (v && oppositeBranches l r i j) = true := by simpa using hne
                simp only [oppositeBranches, hbr, eb, ec] at hne
                have hmem := (Q2.rec_ a b hm hne).1
                rw [fr3.1] at hmem
                refine hib ?_
                simp only [inverseBranches, branchCond, hbr, ← hc, eb, ec, List.head?_cons, Option.bind_some, DOp.key]
                exact decide_eq_true hmem
            · simp at h
          refine fin hopp ?_
          rw [eb, ec]
          exact .cons hpre (hstr hopp)
        · refine fin (by rw [not_opposite hbr]; simp) (ops_pre A hB hC hid hi hj ?_ hbr (hc ▸ hbr) hni hnj hops)
          by_cases hjmp : i.code = .jump
          · exact .inl ⟨hjmp, hc ▸ hjmp⟩
          · exact .inr ⟨hjmp, hc ▸ hjmp⟩
      · split at h
        · -- inverse comparisons
          next hinv =>
          simp only [Bool.and_eq_true] at hinv
          obtain ⟨hvt, hmi⟩ := hinv
          have hvt : v = true := hvt
          unfold mayInvert at hmi
          split at hmi
          · next p q e1 e2 =>
            simp only [Bool.and_eq_true, decide_eq_true_eq] at hmi
            obtain ⟨⟨⟨hops, rfl⟩, u1⟩, u2⟩ := hmi
            have c1 : i.code = .cmp q.inverse := by
              unfold predOf at e1
              split at e1
              · next p' hc => cases e1; exact hc
              · cases e1
            have c2 : j.code = .cmp q := by
              unfold predOf at e2
              split at e2
              · next p' hc => cases e2; exact hc
              · cases e2
            have hni : i.code ≠ .phi := by rw [c1]; simp
            have hnj : j.code ≠ .phi := by rw [c2]; simp
            obtain ⟨ks1, s1, n1, S1, m1⟩ := first hni hnj
            have hop : opp l r v i.id j.id = true := by
              simp only [opp, hvt, Bool.true_and]
              exact opposite_inverse nl nr hil hjr c1 c2
            have S1' : PState l r φ ks1 { x.2 with inv := (some (.val i.id), some (.val j.id)) :: x.2.inv } :=
              { toSync := ⟨S1.snL, S1.snR, S1.repL, S1.repR, S1.left, S1.right⟩, ignL := S1.ignL, ignR := S1.ignR,
                reloc := S1.reloc, kinds := S1.kinds, phis := S1.phis, conv := S1.conv }
            have Q1' : PInvs l r v ks1 { x.2 with inv := (some (.val i.id), some (.val j.id)) :: x.2.inv } := by
              refine ⟨?_, ?_, ?_⟩
              · intro p hp
                rcases List.mem_cons.mp hp with rfl | hp
                · exact ⟨_, _, rfl, hop⟩
                · rw [hv.1] at hp
                  exact Q.inv p hp
              · intro a b hab hab2
                rcases n1 _ hab with h | e
                · obtain ⟨h1, h2⟩ := Q.rec_ a b h hab2
                  refine ⟨List.mem_cons_of_mem _ ?_, h2⟩
                  rw [hv.1]
                  exact h1
                · cases e
                  exact ⟨by simp, users_pbranch (A.nl hvt) u1, users_pbranch (A.nr hvt) u2⟩
              · intro s hs
                have hs : s ∈ x.2.swapped := hs
                rw [hv.2.1] at hs
                obtain ⟨k, hk⟩ := mem_snd (Q.sw s hs)
                exact List.mem_map_of_mem (f := Prod.snd) (s1 _ hk)
            have hbr : i.code ≠ .branch := by rw [c1]; simp
            have hpre := ops_pre A hB hC hid hi hj (.inr ⟨by rw [c1]; simp, by rw [c2]; simp⟩) hbr
              (by rw [c2]; simp) hni hnj hops
            have fr2 := cmpOpList_frame ⟨l.all, r.all⟩ i.ops j.ops
              { x.2 with inv := (some (.val i.id), some (.val j.id)) :: x.2.inv }
            rw [h] at fr2
            obtain ⟨ks2, s2, n2, S2, o2⟩ := ops_step A hpre S1' h
            have N2 := new_ops s2 S2 n2 (ho1 hni ks1 s1)
            refine ⟨ks2, fun z hz => s2 z (s1 z hz), new_inst n1 N2, S2, pinv_ops A.wl Q1' s2 N2 fr2.1 fr2.2.1,
              .inr ⟨hni, hnj, s2 _ m1, .inr (.inl ⟨q, c1, c2, hvt, hops, o2⟩)⟩, ?_⟩
            rw [not_opposite hbr]
            simp [curOps, c2]
          · cases hmi
        · simp at h

theorem no_skip {all : List DInst} {n : Nat} {i : DInst} (h : ∀ k, i.code ≠ .cast k) : maySkipCast all n i = none := by
  unfold maySkipCast
  split
  · next k o hk _ => exact absurd hk (h k)
  · rfl

theorem after_diff {l r : DFun} {φ : Nat → Nat} {v : Bool} (A : PAssumed l r φ v) {i j : DInst} (hi : i ∈ l.all)
    (hj : j ∈ r.all) (ls rs : List DInst) {st : DSt} (h : st.reloc = .none) :
    afterDiff (cfgInv v) ⟨l.all, r.all⟩ i ls j rs st = none := by
  have h1 : (v && isNot i) = false := by
    cases v with
    | false => rfl
    | true => rw [A.nl rfl i hi]; rfl
  have h2 : (v && isNot j) = false := by
    cases v with
    | false => rfl
    | true => rw [A.nr rfl j hj]; rfl
  simp only [afterDiff, maySkipL, maySkipR, no_skip (A.cl i hi), no_skip (A.cr j hj), Bool.false_and,
    Bool.or_self, Bool.false_eq_true, if_false, h, h1, h2]

/-- The state in the middle of a block: `pre` and `preR` were compared, and the blocks `done`. -/
structure PCtx (l r : DFun) (φ : Nat → Nat) (v : Bool) (done : List Nat) (pre preR : List DInst)
    (ks : List (DKey × DKey)) (st : DSt) : Prop where
  good : PState l r φ ks st
  inv : PInvs l r v ks st
  keysL : ∀ a, DKey.val a ∈ ks.map Prod.fst → a ∈ l.args.map Prod.fst ∨ IsPhi l a ∨
    (∃ b ∈ done, ∃ D, l.find b = some D ∧ a ∈ idsOf D.code) ∨ a ∈ idsOf pre
  keysR : ∀ a, DKey.val a ∈ ks.map Prod.snd → a ∈ r.args.map Prod.fst ∨ IsPhi r a ∨
    (∃ b ∈ done, ∃ D, r.find (φ b) = some D ∧ a ∈ idsOf D.code) ∨ a ∈ idsOf preR
  args : ∀ a ∈ l.args.map Prod.fst, DKey.val a ∈ ks.map Prod.fst
  fin : ∀ b ∈ done, ∃ D E, l.find b = some D ∧ r.find (φ b) = some E ∧
    List.Forall₂ (PInstRel l r φ v ks) D.code E.code
  cur : List.Forall₂ (PInstRel l r φ v ks) pre preR

theorem ids_snoc {pre : List DInst} {i : DInst} {a : Nat} (h : a ∈ idsOf pre) : a ∈ idsOf (pre ++ [i]) := by
  simp only [idsOf, List.map_append, List.mem_append]
  exact .inl h

theorem ids_last {pre : List DInst} {i : DInst} : i.id ∈ idsOf (pre ++ [i]) := by
  simp [idsOf]

theorem mem_ids {pre : List DInst} {a : Nat} (h : a ∈ idsOf pre) : ∃ x ∈ pre, x.id = a := List.mem_map.mp h

theorem not_before {f : DFun} (hf : DWellFormed f) {B : DBlock} (hB : B ∈ f.blocks) {pre ls : List DInst} {i : DInst}
    (e : B.code = pre ++ i :: ls) : i.id ∉ idsOf pre := by
  have h := nodup_code hf hB
  rw [e] at h
  simp only [idsOf, List.map_append, List.map_cons] at h
  intro hm
  exact (List.nodup_append.mp h).2.2 _ hm i.id (by simp) rfl

/-- Two instructions of corresponding blocks were found equal. -/
theorem ctx_step {l r : DFun} {φ : Nat → Nat} {v : Bool} (A : PAssumed l r φ v) {B C : DBlock} (hB : B ∈ l.blocks)
    (hC : C ∈ r.blocks) (hid : C.id = φ B.id) {done : List Nat} (hnd : B.id ∉ done)
    (hway : ∃ way, Way l way B.id ∧ ∀ c ∈ way, c ∈ done) {pre ls preR rs : List DInst} {i j : DInst}
    (e : B.code = pre ++ i :: ls) (e' : C.code = preR ++ j :: rs) {ks : List (DKey × DKey)} {st st' : DSt}
    (X : PCtx l r φ v done pre preR ks st)
    (h : cmpInsts (cfgInv v) ⟨l.all, r.all⟩ i j st = (true, st')) :
    ∃ ks', (∀ x ∈ ks, x ∈ ks') ∧ PCtx l r φ v done (pre ++ [i]) (preR ++ [j]) ks' st' ∧
      curOps st'.swapped j = if (v && oppositeBranches l r i j) = true then swapOps j.ops else j.ops := by
  have hi : i ∈ B.code := by rw [e]; simp
  have hj : j ∈ C.code := by rw [e']; simp
  have hil : i ∈ l.all := List.mem_flatMap.mpr ⟨B, hB, hi⟩
  have hjr : j ∈ r.all := List.mem_flatMap.mpr ⟨C, hC, hj⟩
  have known : ∀ {D E : List DInst} {a : Nat}, List.Forall₂ (PInstRel l r φ v ks) D E → (∀ x ∈ D, x ∈ l.all) →
      a ∈ idsOf D → IsPhi l a ∨ DKey.val a ∈ ks.map Prod.fst := by
    intro D E a hf hD ha
    obtain ⟨x, hx, rfl⟩ := mem_ids ha
    obtain ⟨y, _, hr⟩ := forall2_mem hf hx
    rcases hr with ⟨hc, _⟩ | ⟨_, _, hm, _⟩
    · exact .inl ⟨x, hD x hx, rfl, hc⟩
    · exact .inr (List.mem_map_of_mem (f := Prod.fst) hm)
  obtain ⟨ks', hs, hn, S', Q', R', hcur⟩ := inst_step A hB hC hid hi hj X.good X.inv (by
    intro hni hm
    rcases X.keysL _ hm with h | h | ⟨b, hb, D, hD, h⟩ | h
    · exact absurd rfl ((List.nodup_append.mp A.wl.ids).2.2 _ h i.id (List.mem_map_of_mem hil))
    · exact not_phi A.wl hil hni h
    · have := block_unique A.wl hB (find_mem hD).1 (List.mem_map_of_mem hi) h
      subst this
      exact hnd ((find_mem hD).2 ▸ hb)
    · exact not_before A.wl hB e h) (by
    intro hnj hm
    rcases X.keysR _ hm with h | h | ⟨b, hb, D, hD, h⟩ | h
    · exact absurd rfl ((List.nodup_append.mp A.wr.ids).2.2 _ h j.id (List.mem_map_of_mem hjr))
    · exact not_phi A.wr hjr hnj h
    · have := block_unique A.wr hC (find_mem hD).1 (List.mem_map_of_mem hj) h
      subst this
      obtain ⟨F, _, hF, _⟩ := X.fin b hb
      obtain ⟨hF1, rfl⟩ := find_mem hF
      have := A.inj B hB F hF1 (hid.symm.trans (find_mem hD).2)
      exact hnd (this ▸ hb)
    · exact not_before A.wr hC e' h) (by
    intro hni a w ha
    obtain ⟨way, hw, hwd⟩ := hway
    rcases A.dl way B.id B hw (find_block A.wl hB) pre i ls e hni a w ha with h | h | ⟨_, c, hc, D, hD, h⟩
    · exact .inr (X.args a h)
    · exact known X.cur (fun x hx => List.mem_flatMap.mpr ⟨B, hB, by rw [e]; simp [hx]⟩) h
    · obtain ⟨D', E, hD', _, hf⟩ := X.fin c (hwd c hc)
      rw [hD] at hD'
      cases hD'
      exact known hf (fun x hx => List.mem_flatMap.mpr ⟨D, (find_mem hD).1, hx⟩) h) h
  have mono : ∀ {D E : List DInst}, List.Forall₂ (PInstRel l r φ v ks) D E → List.Forall₂ (PInstRel l r φ v ks') D E :=
    fun o => forall2_imp o fun _ _ _ _ o => o.mono hs
  refine ⟨ks', hs, ⟨S', Q', ?_, ?_, ?_, ?_, ?_⟩, hcur⟩
  · intro a ha
    obtain ⟨k, hk⟩ := mem_fst ha
    rcases hn _ hk with h | h | ⟨a', b', h, h1, _⟩ | ⟨_, _, h⟩
    · rcases X.keysL a (List.mem_map_of_mem (f := Prod.fst) h) with h | h | h | h
      · exact .inl h
      · exact .inr (.inl h)
      · exact .inr (.inr (.inl h))
      · exact .inr (.inr (.inr (ids_snoc h)))
    · simp only [Prod.mk.injEq, DKey.val.injEq] at h
      rw [h.1]
      exact .inr (.inr (.inr ids_last))
    · simp only [Prod.mk.injEq, DKey.val.injEq] at h
      rw [h.1]
      exact .inr (.inl h1)
    · simp at h
  · intro a ha
    obtain ⟨k, hk⟩ := mem_snd ha
    rcases hn _ hk with h | h | ⟨a', b', h, _, h1⟩ | ⟨_, _, h⟩
    · rcases X.keysR a (List.mem_map_of_mem (f := Prod.snd) h) with h | h | h | h
      · exact .inl h
      · exact .inr (.inl h)
      · exact .inr (.inr (.inl h))
      · exact .inr (.inr (.inr (ids_snoc h)))
    · simp only [Prod.mk.injEq, DKey.val.injEq] at h
      rw [h.2]
      exact .inr (.inr (.inr ids_last))
    · simp only [Prod.mk.injEq, DKey.val.injEq] at h
      rw [h.2]
      exact .inr (.inl h1)
    · simp at h
  · intro a ha
    obtain ⟨k, hk⟩ := mem_fst (X.args a ha)
    exact List.mem_map_of_mem (f := Prod.fst) (hs _ hk)
  · intro b hb
    obtain ⟨D, E, h1, h2, h3⟩ := X.fin b hb
    exact ⟨D, E, h1, h2, mono h3⟩
  · exact List.rel_append (mono X.cur) (.cons R' .nil)

theorem blocks_step {l r : DFun} {φ : Nat → Nat} {v : Bool} (A : PAssumed l r φ v) {B C : DBlock} (hB : B ∈ l.blocks)
    (hC : C ∈ r.blocks) (hid : C.id = φ B.id) {done : List Nat} (hnd : B.id ∉ done)
    (hway : ∃ way, Way l way B.id ∧ ∀ c ∈ way, c ∈ done) : ∀ (n : Nat) (ls rs pre preR : List DInst),
    B.code = pre ++ ls → C.code = preR ++ rs → ∀ {ks : List (DKey × DKey)} {st st' : DSt},
    PCtx l r φ v done pre preR ks st →
    (∀ t u, pre.getLast? = some t → preR.getLast? = some u →
      curOps st.swapped u = if (v && oppositeBranches l r t u) = true then swapOps u.ops else u.ops) →
    cmpBlocks (cfgInv v) ⟨l.all, r.all⟩ n ls rs st = some (true, st') →
    ∃ ks', (∀ x ∈ ks, x ∈ ks') ∧ PCtx l r φ v done B.code C.code ks' st' ∧
      ∀ t u, B.code.getLast? = some t → C.code.getLast? = some u →
        curOps st'.swapped u = if (v && oppositeBranches l r t u) = true then swapOps u.ops else u.ops
  | n, [], [], pre, preR, e, e', ks, st, st', X, hcur, h => by
    have h : some (true, st) = some (true, st') := by cases n <;> exact h
    simp only [Option.some.injEq, Prod.mk.injEq, true_and] at h
    subst h
    rw [List.append_nil] at e e'
    rw [e, e']
    exact ⟨ks, fun _ h => h, X, hcur⟩
  | n, [], _ :: _, _, _, _, _, ks, st, st', _, _, h => by
    have h : some (false, st) = some (true, st') := by cases n <;> exact h
    simp at h
  | n, _ :: _, [], _, _, _, _, ks, st, st', _, _, h => by
    have h : some (false, st) = some (true, st') := by cases n <;> exact h
    simp at h
  | 0, _ :: _, _ :: _, _, _, _, _, ks, st, st', _, _, h => by cases h
  | n + 1, i :: ls, j :: rs, pre, preR, e, e', ks, st, st', X, hcur, h => by
    have hil : i ∈ l.all := List.mem_flatMap.mpr ⟨B, hB, by rw [e]; simp⟩
    have hjr : j ∈ r.all := List.mem_flatMap.mpr ⟨C, hC, by rw [e']; simp⟩
    simp only [cmpBlocks] at h
    cases hx : (cmpInsts (cfgInv v) ⟨l.all, r.all⟩ i j st).1 with
    | false =>
      rw [hx] at h
      simp only [Bool.false_eq_true, if_false] at h
      rw [after_diff A hil hjr ls rs (by rw [insts_frame]; exact X.good.reloc)] at h
      simp at h
    | true =>
      rw [hx] at h
      simp only [if_true] at h
      obtain ⟨ks1, s1, X1, hcur1⟩ := ctx_step A hB hC hid hnd hway e e' X
        (st' := (cmpInsts (cfgInv v) ⟨l.all, r.all⟩ i j st).2) (Prod.ext hx rfl)
      have ha : afterEq (cfgInv v) i ls j rs (cmpInsts (cfgInv v) ⟨l.all, r.all⟩ i j st).2 = some (ls, rs,
            (cmpInsts (cfgInv v) ⟨l.all, r.all⟩ i j st).2) := by
        simp only [afterEq, X1.good.reloc]
      rw [ha] at h
      obtain ⟨ks2, s2, X2, hcur2⟩ := blocks_step A hB hC hid hnd hway n ls rs (pre ++ [i]) (preR ++ [j])
        (by rw [e]; simp) (by rw [e']; simp) X1 (by
          intro t u ht hu
          simp only [List.getLast?_append, List.getLast?_singleton, Option.some_or, Option.some.injEq] at ht hu
          subst ht hu
          exact hcur1) h
      exact ⟨ks2, fun z hz => s2 z (s1 z hz), X2, hcur2⟩

/-! ### Pairs of blocks -/

/-- The invariant of the loop over pairs of blocks. -/
structure PLoop (l r : DFun) (φ : Nat → Nat) (v : Bool) (done : List Nat) (work : List (Nat × Nat)) (visited : List Nat)
    (ks : List (DKey × DKey)) (st : DSt) : Prop where
  pairs : ∀ x ∈ work, x.2 = φ x.1 ∧ (∃ B ∈ l.blocks, B.id = x.1) ∧ ∃ way, Way l way x.1 ∧ ∀ c ∈ way, c ∈ done
  vis : ∀ a ∈ visited, a ∈ done ∨ a ∈ work.map Prod.fst
  seen : ∀ a, a ∈ done ∨ a ∈ work.map Prod.fst → a ∈ visited
  once : (done ++ work.map Prod.fst).Nodup
  fin : ∀ b ∈ done, (DKey.blk b, DKey.blk (φ b)) ∈ ks ∧ ∃ B, l.find b = some B ∧ ∀ c ∈ B.succs [], c ∈ visited
  ctx : PCtx l r φ v done [] [] ks st

theorem succs_blocks {f : DFun} (hf : DWellFormed f) {B : DBlock} (hB : B ∈ f.blocks) {c : Nat}
    (h : c ∈ B.succs []) : ∃ D ∈ f.blocks, D.id = c := by
  unfold DBlock.succs at h
  split at h
  · next t ht =>
    have htm : t ∈ B.code := List.mem_of_getLast? ht
    refine hf.targets t (List.mem_flatMap.mpr ⟨B, hB, htm⟩) c ?_
    have e : curOps [] t = t.ops := by simp [curOps]
    rw [e] at h
    unfold succsOf at h
    exact List.mem_reverse.mp h
  · cases h

theorem succs_targets {f : DFun} {B : DBlock} {t : DInst} (h : B.code.getLast? = some t) : B.succs [] = (targets t).reverse := by
  have c1 : curOps [] t = t.ops := by simp [curOps]
  simp only [DBlock.succs, h, c1, succsOf]
  rfl

theorem flow_succs {l r : DFun} {φ : Nat → Nat} {v : Bool} (A : PAssumed l r φ v) {B C : DBlock} (hB : B ∈ l.blocks)
    (hC : C ∈ r.blocks) (hid : C.id = φ B.id) (c : Nat) : c ∈ C.succs [] ↔ ∃ b ∈ B.succs [], c = φ b := by
  obtain ⟨C', hC', idC', hf⟩ := A.flow B hB
  have e : C' = C := by
    have h1 := find_block A.wr hC'
    have h2 := find_block A.wr hC
    rw [idC', ← hid, h2] at h1
    exact (Option.some.inj h1).symm
  subst e
  obtain ⟨b1, t, e1, _⟩ := A.wl.ends B hB
  obtain ⟨b2, u, e2, _⟩ := A.wr.ends C' hC
  have g1 : B.code.getLast? = some t := by rw [e1]; simp
  have g2 : C'.code.getLast? = some u := by rw [e2]; simp
  have h := hf t u g1 g2
  rw [succs_targets (f := l) g1, succs_targets (f := r) g2]
  have hm : c ∈ targets u ↔ c ∈ (targets t).map φ := by
    rw [h]
    split <;> simp
  rw [List.mem_reverse, hm, List.mem_map]
  simp only [List.mem_reverse]
  constructor
  · rintro ⟨b, hb, e⟩; exact ⟨b, hb, e.symm⟩
  · rintro ⟨b, hb, e⟩; exact ⟨b, hb, e.symm⟩

theorem flow_block {l r : DFun} {φ : Nat → Nat} {v : Bool} (A : PAssumed l r φ v) {B : DBlock} (hB : B ∈ l.blocks) :
    ∃ C, r.find (φ B.id) = some C ∧ C ∈ r.blocks ∧ C.id = φ B.id := by
  obtain ⟨C, hC, e, _⟩ := A.flow B hB
  exact ⟨C, e ▸ find_block A.wr hC, hC, e⟩

/-- Successors after the branch of the second function was swapped. -/
theorem swapped_succs {l r : DFun} {φ : Nat → Nat} {v : Bool} (A : PAssumed l r φ v) {B C : DBlock} (hB : B ∈ l.blocks)
    (hC : C ∈ r.blocks) (hid : C.id = φ B.id) {ks : List (DKey × DKey)}
    (hf : List.Forall₂ (PInstRel l r φ v ks) B.code C.code) {sw : List Nat}
    (hc : ∀ t u, B.code.getLast? = some t → C.code.getLast? = some u →
      curOps sw u = if (v && oppositeBranches l r t u) = true then swapOps u.ops else u.ops) :
    C.succs sw = (B.succs []).map φ := by
  obtain ⟨b1, t, e1, tt, _⟩ := A.wl.ends B hB
  obtain ⟨b2, u, e2, tu, _⟩ := A.wr.ends C hC
  have g1 : B.code.getLast? = some t := by rw [e1]; simp
  have g2 : C.code.getLast? = some u := by rw [e2]; simp
  have hu : C.succs sw = succsOf (curOps sw u) := by simp only [DBlock.succs, g2]
  have tm := term_targets A hB hC hid (i := t) (j := u) (by rw [e1]; simp) (by rw [e2]; simp) tt tu
  rw [hu, hc t u g1 g2, succs_targets (f := l) g1, List.map_reverse, tm]
  by_cases ho : (v && oppositeBranches l r t u) = true
  · rw [if_pos ho, if_pos ho, List.reverse_reverse]
    have htc : t.code = .branch := by
      by_contra hne
      rw [not_opposite hne] at ho
      simp at ho
    have hrel : PInstRel l r φ v ks t u := by
      rw [e1, e2] at hf
      have hlen := hf.length_eq
      simp only [List.length_append, List.length_singleton, Nat.add_right_cancel_iff] at hlen
      have h2 := List.forall₂_drop b1.length hf
      rw [List.drop_left, hlen, List.drop_left] at h2
      cases h2 with
      | cons h _ => exact h
    have huc : u.code = .branch := by
      rcases hrel with ⟨h, _⟩ | ⟨_, _, _, ⟨h, _⟩ | ⟨p, h, _⟩ | ⟨_, h, _⟩⟩
      · rw [htc] at h; cases h
      · rw [h, htc]
      · rw [htc] at h; cases h
      · exact h
    have su := A.wr.shape u (List.mem_flatMap.mpr ⟨C, hC, by rw [e2]; simp⟩)
    unfold ShapeOk at su
    rw [huc] at su
    obtain ⟨c, x, y, ec, _, _, hcb⟩ := su
    rw [targets_pbranch ec hcb, ec]
    simp only [swapOps, succsOf]
    cases c with
    | blk b => exact absurd rfl (hcb b)
    | const _ _ => rfl
    | ref _ _ => rfl
  · rw [if_neg ho, if_neg ho]
    rfl

theorem pairs_step {l r : DFun} {φ : Nat → Nat} {v : Bool} (A : PAssumed l r φ v) (steps : Nat) :
    ∀ (n : Nat) (done : List Nat) (work : List (Nat × Nat)) (visited : List Nat) (ks : List (DKey × DKey))
      (st st' : DSt), PLoop l r φ v done work visited ks st →
      cmpPairs (cfgInv v) l r steps n work visited st = some (true, st') →
      ∃ done' ks' visited', PLoop l r φ v done' [] visited' ks' st' ∧ (∀ a ∈ visited, a ∈ visited') ∧
        ∀ x ∈ ks, x ∈ ks'
  | n, done, [], visited, ks, st, st', I, h => by
    have h : some (true, st) = some (true, st') := by cases n <;> exact h
    simp only [Option.some.injEq, Prod.mk.injEq, true_and] at h
    subst h
    exact ⟨done, ks, visited, I, fun _ h => h, fun _ h => h⟩
  | 0, done, _ :: _, visited, ks, st, st', I, h => by cases h
  | n + 1, done, (b, b') :: work, visited, ks, st, st', I, h => by
    obtain ⟨hb', ⟨B, hB, hid⟩, hway⟩ := I.pairs (b, b') (by simp)
    simp only at hb' hid hway
    subst hb' hid
    have honce := I.once
    rw [List.map_cons, List.nodup_append] at honce
    have hnd : B.id ∉ done := fun h => honce.2.2 _ h _ (by simp) rfl
    obtain ⟨C, fC, hC, idC⟩ := flow_block A hB
    have fB := find_block A.wl hB
    simp only [cmpPairs, fB, fC] at h
    have hv : (cmpVals ⟨l.all, r.all⟩ 0 (.blk B.id) (.blk (φ B.id)) st).1 = true := by
      rw [cmpVals_plain I.ctx.good]
      simp only [cmpPlainD, DOp.key, cmpRefs, phiKey]
      split
      · split <;> rfl
      · split <;> rfl
    have hv2 : cmpRefs ⟨l.all, r.all⟩ (.blk B.id) (.blk (φ B.id)) st =
        (true, (cmpVals ⟨l.all, r.all⟩ 0 (.blk B.id) (.blk (φ B.id)) st).2) := by
      have : cmpVals ⟨l.all, r.all⟩ 0 (.blk B.id) (.blk (φ B.id)) st =
          cmpRefs ⟨l.all, r.all⟩ (.blk B.id) (.blk (φ B.id)) st := cmpVals_plain I.ctx.good _ _ _ _
      rw [← this]
      exact Prod.ext hv rfl
    have hfr := cmpVals_frame ⟨l.all, r.all⟩ 0 (.blk B.id) (.blk (φ B.id)) st
    obtain ⟨ks1, s1, n1, S1, hm⟩ := refs_step A.wl A.wr A.inj I.ctx.good (.inl ⟨B, hB, rfl, rfl⟩) hv2
    have X1 : PCtx l r φ v done [] [] ks1 (cmpVals ⟨l.all, r.all⟩ 0 (.blk B.id) (.blk (φ B.id)) st).2 := by
      refine ⟨S1, pinv_ops A.wl I.ctx.inv s1 ?_ hfr.1 hfr.2.1, ?_, ?_, ?_, ?_, .nil⟩
      · intro z hz
        rcases n1 z hz with h | h
        · exact .inl h
        · exact .inr (.inr ⟨_, _, h⟩)
      · intro a ha
        obtain ⟨k, hk⟩ := mem_fst ha
        rcases n1 _ hk with h | h
        · exact I.ctx.keysL a (List.mem_map_of_mem (f := Prod.fst) h)
        · simp at h
      · intro a ha
        obtain ⟨k, hk⟩ := mem_snd ha
        rcases n1 _ hk with h | h
        · exact I.ctx.keysR a (List.mem_map_of_mem (f := Prod.snd) h)
        · simp at h
      · intro a ha
        obtain ⟨k, hk⟩ := mem_fst (I.ctx.args a ha)
        exact List.mem_map_of_mem (f := Prod.fst) (s1 _ hk)
      · intro b hb
        obtain ⟨D, E, h1, h2, h3⟩ := I.ctx.fin b hb
        exact ⟨D, E, h1, h2, forall2_imp h3 fun _ _ _ _ o => o.mono s1⟩
    cases hcb : cmpBlocks (cfgInv v) ⟨l.all, r.all⟩ steps B.code C.code
        (cmpVals ⟨l.all, r.all⟩ 0 (.blk B.id) (.blk (φ B.id)) st).2 with
    | none => rw [hcb] at h; cases h
    | some y =>
      obtain ⟨res, st2⟩ := y
      rw [hcb] at h
      cases res with
      | false => simp at h
      | true =>
        simp only at h
        obtain ⟨ks2, s2, X2, hcur⟩ := blocks_step A hB hC idC hnd hway steps B.code C.code [] [] rfl rfl X1
          (fun t u ht => by cases ht) hcb
        rw [swapped_succs A hB hC idC X2.cur hcur] at h
        obtain ⟨new, e1, e2, hn1, hn2, hn3⟩ := pushPairs_spec φ (B.succs []) work visited
        rw [e1, e2] at h
        have hwork : (new.map (fun a => (a, φ a)) ++ work).map Prod.fst = new ++ work.map Prod.fst := by
          simp [List.map_map, Function.comp_def]
        obtain ⟨wayB, hwB, hwd⟩ := hway
        obtain ⟨done', ks', visited', I', hsub, hks⟩ := pairs_step A steps n (B.id :: done)
          (new.map (fun a => (a, φ a)) ++ work) (new ++ visited) ks2 st2 st' {
          pairs := by
            intro x hx
            rcases List.mem_append.mp hx with hx | hx
            · obtain ⟨a, ha, rfl⟩ := List.mem_map.mp hx
              refine ⟨rfl, succs_blocks A.wl hB (hn2 a ha).1, wayB ++ [B.id], .step wayB B.id a B hwB fB (hn2 a ha).1, ?_⟩
              intro c hc
              rcases List.mem_append.mp hc with hc | hc
              · exact List.mem_cons_of_mem _ (hwd c hc)
              · rw [List.mem_singleton.mp hc]
                simp
            · obtain ⟨h1, h2, way, h3, h4⟩ := I.pairs x (by simp [hx])
              exact ⟨h1, h2, way, h3, fun c hc => List.mem_cons_of_mem _ (h4 c hc)⟩
          vis := by
            intro a ha
            rw [hwork]
            rcases List.mem_append.mp ha with ha | ha
            · simp [ha]
            · have := I.vis a ha
              simp only [List.map_cons, List.mem_cons] at this
              simp only [List.mem_cons, List.mem_append]
              tauto
          seen := by
            intro a ha
            rw [hwork] at ha
            have := I.seen a
            simp only [List.map_cons, List.mem_cons] at this
            simp only [List.mem_cons, List.mem_append] at ha ⊢
            tauto
          once := by
            rw [hwork]
            have h1 : ∀ a ∈ new, a ∉ done ∧ a ≠ B.id ∧ a ∉ work.map Prod.fst := by
              intro a ha
              have h2 := (hn2 a ha).2
              refine ⟨fun h => h2 (I.seen a (.inl h)), fun h => h2 (I.seen a (.inr (by simp [h]))), fun h => h2 (I.seen a (.inr ?_))⟩
              rw [List.map_cons]
              exact List.mem_cons_of_mem _ h
            have h2 := honce.2.1
            rw [List.nodup_cons] at h2
            rw [List.cons_append, List.nodup_cons, List.nodup_append, List.nodup_append]
            refine ⟨?_, honce.1, ⟨hn1, h2.2, ?_⟩, ?_⟩
            · simp only [List.mem_append, not_or]
              exact ⟨hnd, fun h => (h1 _ h).2.1 rfl, h2.1⟩
            · intro a ha c hc e
              exact (h1 a ha).2.2 (e ▸ hc)
            · intro a ha c hc e
              rcases List.mem_append.mp hc with hc | hc
              · exact (h1 c hc).1 (e ▸ ha)
              · exact honce.2.2 a ha c (List.mem_cons_of_mem _ hc) e
          fin := by
            intro c hc
            rcases List.mem_cons.mp hc with rfl | hc
            · refine ⟨s2 _ hm, B, fB, fun a ha => ?_⟩
              rcases hn3 a ha with h | h <;> simp [h]
            · obtain ⟨h1, D, h2, h3⟩ := I.fin c hc
              exact ⟨s2 _ (s1 _ h1), D, h2, fun a ha => by simp [h3 a ha]⟩
          ctx := by
            refine ⟨X2.good, X2.inv, ?_, ?_, X2.args, ?_, .nil⟩
            · intro a ha
              rcases X2.keysL a ha with h | h | ⟨c, hc, h⟩ | h
              · exact .inl h
              · exact .inr (.inl h)
              · exact .inr (.inr (.inl ⟨c, List.mem_cons_of_mem _ hc, h⟩))
              · exact .inr (.inr (.inl ⟨B.id, by simp, B, fB, h⟩))
            · intro a ha
              rcases X2.keysR a ha with h | h | ⟨c, hc, h⟩ | h
              · exact .inl h
              · exact .inr (.inl h)
              · exact .inr (.inr (.inl ⟨c, List.mem_cons_of_mem _ hc, h⟩))
              · exact .inr (.inr (.inl ⟨B.id, by simp, C, fC, h⟩))
            · intro c hc
              rcases List.mem_cons.mp hc with rfl | hc
              · exact ⟨B, C, fB, fC, X2.cur⟩
              · exact X2.fin c hc } h
        exact ⟨done', ks', visited', I', fun a ha => hsub a (by simp [ha]), fun x hx => hks x (s2 x (s1 x hx))⟩

/-! ### The end of the comparison -/

/-- What is known after all pairs of blocks were compared. -/
structure PDone (l r : DFun) (φ : Nat → Nat) (v : Bool) (ks : List (DKey × DKey)) (st : DSt) : Prop where
  good : PState l r φ ks st
  inv : PInvs l r v ks st
  len : l.args.length = r.args.length
  args : ∀ (k : Nat) a b w w', l.args[k]? = some (a, w) → r.args[k]? = some (b, w') → (DKey.val a, DKey.val b) ∈ ks
  blocks : ∀ B ∈ l.blocks, ∃ C ∈ r.blocks, C.id = φ B.id ∧ (DKey.blk B.id, DKey.blk (φ B.id)) ∈ ks ∧
    List.Forall₂ (PInstRel l r φ v ks) B.code C.code
  onto : ∀ C ∈ r.blocks, ∃ B ∈ l.blocks, C.id = φ B.id

theorem pred_arg {f : DFun} (hf : DWellFormed f) {a : Nat} (h : a ∈ f.args.map Prod.fst) : predAt f a = none := by
  have : (f.all.find? fun i => i.id == a) = none := by
    rw [List.find?_eq_none]
    intro i hi e
    have e : i.id = a := by simpa using e
    exact (List.nodup_append.mp hf.ids).2.2 _ h i.id (List.mem_map_of_mem hi) e.symm
  simp [predAt, this]

theorem pctx_start {l r : DFun} (φ : Nat → Nat) (v : Bool) (wl : DWellFormed l) (wr : DWellFormed r)
    (h : l.args.map Prod.snd = r.args.map Prod.snd) :
    PCtx l r φ v [] [] [] ((l.args.zip r.args).map fun p => (DKey.val p.1.1, DKey.val p.2.1)) (startSt l r []) := by
  have G := good_start φ wl wr h
  have arg : ∀ (f : DFun), DWellFormed f → ∀ a ∈ f.args.map Prod.fst, ¬ IsPhi f a := by
    rintro f hf a ha ⟨i, hi, rfl, _⟩
    exact (List.nodup_append.mp hf.ids).2.2 _ ha i.id (List.mem_map_of_mem hi) rfl
  have vals : ∀ a b, (DKey.val a, DKey.val b) ∈ ((l.args.zip r.args).map fun p => (DKey.val p.1.1, DKey.val p.2.1)) →
      a ∈ l.args.map Prod.fst ∧ b ∈ r.args.map Prod.fst := by
    intro a b hab
    rcases G.vals a b hab with ⟨k, h1, h2⟩ | ⟨h, _⟩
    · exact ⟨List.mem_of_getElem? h1, List.mem_of_getElem? h2⟩
    · cases h
  have kinds : ∀ k k', (k, k') ∈ ((l.args.zip r.args).map fun p : (Nat × Nat) × (Nat × Nat) => (DKey.val p.1.1, DKey.val p.2.1)) →
      ∃ a b, k = .val a ∧ k' = .val b := by
    intro k k' hk
    obtain ⟨p, _, e⟩ := List.mem_map.mp hk
    cases e
    exact ⟨_, _, rfl, rfl⟩
  refine ⟨?_, ⟨fun _ h => (nomatch h), ?_, fun _ h => (nomatch h)⟩, ?_, ?_, ?_, fun _ h => (nomatch h), .nil⟩
  · refine {
      toSync := G.toSync
      ignL := rfl
      ignR := rfl
      reloc := rfl
      kinds := G.kinds
      phis := ?_
      conv := fun _ h => nomatch h }
    intro a b hab
    exact .inl ⟨arg l wl a (vals a b hab).1, arg r wr b (vals a b hab).2⟩
  · intro a b hab ho
    simp [opp, opposite, pred_arg wl (vals a b hab).1] at ho
  · intro a ha
    obtain ⟨k, hk⟩ := mem_fst ha
    obtain ⟨a', b, e, rfl⟩ := kinds _ _ hk
    cases e
    exact .inl (vals _ _ hk).1
  · intro a ha
    obtain ⟨k, hk⟩ := mem_snd ha
    obtain ⟨a', b, rfl, e⟩ := kinds _ _ hk
    cases e
    exact .inl (vals _ _ hk).2
  · intro a ha
    obtain ⟨k, hk⟩ := List.getElem?_of_mem ha
    have hlt : k < l.args.length := by simpa using (List.getElem?_eq_some_iff.mp hk).1
    have hlen : l.args.length = r.args.length := by simpa using congrArg List.length h
    have hlt' : k < r.args.length := hlen ▸ hlt
    have e1 : l.args[k].1 = a := by
      rw [List.getElem?_map, List.getElem?_eq_getElem hlt] at hk
      simpa using hk
    refine List.mem_map.mpr ⟨(DKey.val a, DKey.val r.args[k].1), List.mem_map.mpr ⟨(l.args[k], r.args[k]), ?_, by rw [e1]⟩, rfl⟩
    exact List.mem_of_getElem? (i := k) (by
      rw [List.getElem?_zip_eq_some]
      exact ⟨List.getElem?_eq_getElem hlt, List.getElem?_eq_getElem hlt'⟩)

theorem pairs_all {l r : DFun} {φ : Nat → Nat} {v : Bool} (A : PAssumed l r φ v) {B C : DBlock} {Bs Cs : List DBlock}
    (hB : l.blocks = B :: Bs) (hC : r.blocks = C :: Cs) (hty : l.args.map Prod.snd = r.args.map Prod.snd)
    {steps n : Nat} {st' : DSt}
    (h : cmpPairs (cfgInv v) l r steps n [(B.id, C.id)] [B.id] (startSt l r []) = some (true, st')) :
    ∃ ks, PDone l r φ v ks st' := by
  have idC : C.id = φ B.id := A.entry B Bs C Cs hB hC
  have hBm : B ∈ l.blocks := by rw [hB]; simp
  rw [idC] at h
  obtain ⟨done, ks, visited, I, hv, hk⟩ := pairs_step A steps n [] [(B.id, φ B.id)] [B.id]
    ((l.args.zip r.args).map fun p : (Nat × Nat) × (Nat × Nat) => (DKey.val p.1.1, DKey.val p.2.1)) (startSt l r []) st' {
    pairs := by
      intro x hx
      rw [List.mem_singleton.mp hx]
      exact ⟨rfl, ⟨B, hBm, rfl⟩, [], .entry B Bs hB, fun _ h => nomatch h⟩
    vis := by intro a ha; simpa using ha
    seen := by intro a ha; simpa using ha
    once := by simp
    fin := fun _ h => nomatch h
    ctx := pctx_start φ v A.wl A.wr hty } h
  have hdone : ∀ a ∈ visited, a ∈ done := fun a ha => by simpa using I.vis a ha
  have wayL : ∀ way b, Way l way b → b ∈ done := by
    intro way b hw
    induction hw with
    | entry D rest hD =>
      rw [hB] at hD
      cases hD
      exact hdone _ (hv _ (by simp))
    | step way b c D _ hf hc ih =>
      obtain ⟨_, D', h1, h5⟩ := I.fin b ih
      rw [hf] at h1
      cases h1
      exact hdone _ (h5 c hc)
  have wayR : ∀ way c, Way r way c → ∃ D ∈ l.blocks, c = φ D.id := by
    intro way b hw
    induction hw with
    | entry D rest hD =>
      rw [hC] at hD
      cases hD
      exact ⟨B, hBm, idC⟩
    | step way b c E _ hf hc ih =>
      obtain ⟨D, hD, rfl⟩ := ih
      obtain ⟨hE, hEid⟩ := find_mem hf
      obtain ⟨x, hx, rfl⟩ := (flow_succs A hD hE hEid c).mp hc
      obtain ⟨F, hF, rfl⟩ := succs_blocks A.wl hD hx
      exact ⟨F, hF, rfl⟩
  refine ⟨ks, I.ctx.good, I.ctx.inv, by simpa using congrArg List.length hty, ?_, ?_, ?_⟩
  · intro k a b w w' h1 h2
    refine hk _ (List.mem_map.mpr ⟨((a, w), (b, w')), ?_, rfl⟩)
    exact List.mem_of_getElem? (i := k) (by rw [List.getElem?_zip_eq_some]; exact ⟨h1, h2⟩)
  · intro D hD
    obtain ⟨way, hw⟩ := A.al D hD
    obtain ⟨D', E, h1, h2, h4⟩ := I.ctx.fin D.id (wayL way _ hw)
    rw [find_block A.wl hD] at h1
    cases h1
    exact ⟨E, (find_mem h2).1, (find_mem h2).2, (I.fin D.id (wayL way _ hw)).1, h4⟩
  · intro E hE
    obtain ⟨way, hw⟩ := A.ar E hE
    exact wayR way _ hw

end DK
