import Verif.Lemmas.DiffFuns

/-!
Lemmas: relocations of code in functions with one block.
-/

set_option autoImplicit false

namespace DK
open Spec

/-! ### Comparison of instructions when the operands of one of them are known -/

/-- No pattern other than relocations left anything in the state. -/
structure BaseSt (st : DSt) : Prop where
  ignL : st.ignL = []
  ignR : st.ignR = []
  repL : st.repL = []
  repR : st.repR = []
  inv : st.inv = []
  swapped : st.swapped = []

/-- The state differs only in serial numbers. -/
def Upd (st st' : DSt) : Prop := ∃ a b m, st' = { st with snL := a, snR := b, mapped := m }

theorem Upd.refl (st : DSt) : Upd st st := ⟨st.snL, st.snR, st.mapped, rfl⟩

theorem Upd.trans {a b c : DSt} (h : Upd a b) (h' : Upd b c) : Upd a c := by
  obtain ⟨_, _, _, rfl⟩ := h
  obtain ⟨x, y, z, rfl⟩ := h'
  exact ⟨x, y, z, rfl⟩

theorem Upd.base {a b : DSt} (h : Upd a b) (B : BaseSt a) : BaseSt b := by
  obtain ⟨_, _, _, rfl⟩ := h
  exact ⟨B.ignL, B.ignR, B.repL, B.repR, B.inv, B.swapped⟩

theorem Upd.reloc {a b : DSt} (h : Upd a b) : b.reloc = a.reloc := by
  obtain ⟨_, _, _, rfl⟩ := h
  rfl

theorem Upd.phis {a b : DSt} (h : Upd a b) : b.phis = a.phis := by
  obtain ⟨_, _, _, rfl⟩ := h
  rfl

theorem Upd.undo (l r : Nat) (st : DSt) : Upd st (undoLast l r st) := ⟨_, _, _, rfl⟩

theorem Upd.restore {a b : DSt} (h : Upd a b) :
    { b with snL := a.snL, snR := a.snR, mapped := a.mapped } = a := by
  obtain ⟨_, _, _, rfl⟩ := h
  rfl

theorem cmpVals_base {P : DPair} {st : DSt} (B : BaseSt st) (n : Nat) (x y : DOp) :
    cmpVals P n x y st = cmpPlainD P x y st := by
  have h1 : ∀ z, ignoredOp ([] : List Nat) z = false := fun z => by cases z <;> simp [ignoredOp]
  have h2 : ∀ z, replacedOp ([] : List (Nat × DOp)) z = none := fun z => by cases z <;> simp [replacedOp]
  unfold cmpVals
  simp [B.ignL, B.ignR, B.repL, B.repR, h1, h2]

/-- Serial numbers with unmatched values. -/
structure Extra (ks : List (DKey × DKey)) (jL jR : List DKey) (st : DSt) : Prop where
  snL : st.snL = numbered (ks.map Prod.fst ++ jL)
  snR : st.snR = numbered (ks.map Prod.snd ++ jR)
  left : (ks.map Prod.fst ++ jL).Nodup
  right : (ks.map Prod.snd ++ jR).Nodup
  one : jL.length + jR.length ≤ 1

theorem Sync.extra {ks : List (DKey × DKey)} {st : DSt} (S : Sync ks st) : Extra ks [] [] st :=
  ⟨by simpa using S.snL, by simpa using S.snR, by simpa using S.left, by simpa using S.right, by simp⟩

/-- An operand is known, or it is a constant. -/
def Known (keys : List DKey) (x : DOp) : Prop := ∀ a w, x = .ref a w → DKey.val a ∈ keys

theorem keys_snoc {keys : List DKey} (h : keys.Nodup) {k : DKey} (hk : k ∉ keys) : (keys ++ [k]).Nodup := by
  rw [List.nodup_append]
  refine ⟨h, by simp, ?_⟩
  intro a ha b hb e
  rw [List.mem_singleton] at hb
  exact hk (by rw [← hb, ← e]; exact ha)

/-- Operands that are references, one of them known. -/
theorem refs_known {l r : DFun} {ks : List (DKey × DKey)} {st : DSt} (S : Sync ks st) {a b : Nat}
    {CL CR : Prop} (hc : CL ∨ CR) (hL : CL → DKey.val a ∈ ks.map Prod.fst)
    (hR : CR → DKey.val b ∈ ks.map Prod.snd) :
    let x := cmpRefs ⟨l.all, r.all⟩ (.val a) (.val b) st
    Upd st x.2 ∧
    (x.1 = true → x.2 = st ∧ (DKey.val a, DKey.val b) ∈ ks) ∧
    (x.1 = false → ∃ jL jR, Extra ks jL jR x.2 ∧ (CL → jL = []) ∧ (CR → jR = [])) := by
  intro x
  have hlen : (ks.map Prod.fst).length = (ks.map Prod.snd).length := by simp
  by_cases ha : DKey.val a ∈ ks.map Prod.fst <;> by_cases hb : DKey.val b ∈ ks.map Prod.snd
  · have h := cmpRefs_old (l := l) (r := r) S ha hb
    by_cases hm : (DKey.val a, DKey.val b) ∈ ks
    · have : x = (true, st) := h.1 hm
      rw [this]
      exact ⟨.refl _, fun _ => ⟨rfl, hm⟩, fun h => absurd h (by simp)⟩
    · have : x = (false, st) := h.2 hm ⟨a, rfl⟩
      rw [this]
      exact ⟨.refl _, fun h => absurd h (by simp), fun _ => ⟨[], [], S.extra, fun _ => rfl, fun _ => rfl⟩⟩
  · obtain ⟨i, hi⟩ := List.getElem?_of_mem ha
    have n2 := keys_snoc S.right hb
    have hi' : i < ks.length := by
      have := (List.getElem?_eq_some_iff.mp hi).1; simpa using this
    have e : ¬ (numbered (ks.map Prod.fst)).lookup (.val a) =
        (numbered (ks.map Prod.snd ++ [DKey.val b])).lookup (.val b) := by
      rw [numbered_some S.left hi, numbered_some n2 (i := ks.length) (by simp)]
      intro e
      injection e
      omega
    have : x = (false, { st with snL := numbered (ks.map Prod.fst),
                                 snR := numbered (ks.map Prod.snd ++ [DKey.val b]) }) := by
      show cmpRefs _ _ _ _ = _
      simp only [cmpRefs, S.snL, S.snR, insert_old S.left ha, insert_new hb, e, if_false]
    rw [this]
    refine ⟨⟨_, _, _, rfl⟩, fun h => absurd h (by simp), fun _ => ⟨[], [DKey.val b], ⟨by simp, by simp, by simpa using S.left,
      n2, by simp⟩, fun _ => rfl, fun h => absurd (hR h) hb⟩⟩
  · obtain ⟨i, hi⟩ := List.getElem?_of_mem hb
    have n1 := keys_snoc S.left ha
    have hi' : i < ks.length := by
      have := (List.getElem?_eq_some_iff.mp hi).1; simpa using this
    have e : ¬ (numbered (ks.map Prod.fst ++ [DKey.val a])).lookup (.val a) =
        (numbered (ks.map Prod.snd)).lookup (.val b) := by
      rw [numbered_some S.right hi, numbered_some n1 (i := ks.length) (by simp)]
      intro e
      injection e
      omega
    have : x = (false, { st with snL := numbered (ks.map Prod.fst ++ [DKey.val a]),
                                 snR := numbered (ks.map Prod.snd) }) := by
      show cmpRefs _ _ _ _ = _
      simp only [cmpRefs, S.snL, S.snR, insert_old S.right hb, insert_new ha, e, if_false]
    rw [this]
    refine ⟨⟨_, _, _, rfl⟩, fun h => absurd h (by simp), fun _ => ⟨[DKey.val a], [], ⟨by simp, by simp, n1, by simpa using S.right,
      by simp⟩, fun h => absurd (hL h) ha, fun _ => rfl⟩⟩
  · rcases hc with h | h
    · exact absurd (hL h) ha
    · exact absurd (hR h) hb

theorem ops_known {l r : DFun} {ks : List (DKey × DKey)} {CL CR : Prop} (hc : CL ∨ CR) {st : DSt} (S : Sync ks st) (B : BaseSt st) :
    ∀ (xs ys : List DOp), xs.map DOp.ty = ys.map DOp.ty →
    (∀ x ∈ xs, ∀ b, x ≠ .blk b) → (∀ y ∈ ys, ∀ b, y ≠ .blk b) →
    (CL → ∀ x ∈ xs, Known (ks.map Prod.fst) x) → (CR → ∀ y ∈ ys, Known (ks.map Prod.snd) y) →
    let x := cmpOpList ⟨l.all, r.all⟩ xs ys st
    Upd st x.2 ∧
    (x.1 = true → x.2 = st ∧ List.Forall₂ (OpEq ks) xs ys) ∧
    (x.1 = false → ∃ jL jR, Extra ks jL jR x.2 ∧ (CL → jL = []) ∧ (CR → jR = []))
  | [], [], _, _, _, _, _ => ⟨.refl _, fun _ => ⟨rfl, .nil⟩, fun h => absurd h (by simp [cmpOpList])⟩
  | [], _ :: _, h, _, _, _, _ => absurd h (by simp)
  | _ :: _, [], h, _, _, _, _ => absurd h (by simp)
  | x :: xs, y :: ys, ht, hx, hy, hL, hR => by
    simp only [List.map_cons, List.cons.injEq] at ht
    have ih := ops_known (l := l) (r := r) hc S B xs ys ht.2 (fun z hz => hx z (by simp [hz])) (fun z hz => hy z (by simp [hz]))
      (fun h z hz => hL h z (by simp [hz])) (fun h z hz => hR h z (by simp [hz]))
    simp only [cmpOpList, cmpVals_base B]
    have bad : ∀ (c : Bool) (t : Bool × DSt), c = false → Upd st t.2 ∧ (t.1 = true → t.2 = st ∧ List.Forall₂ (OpEq ks) xs ys) ∧
        (t.1 = false → ∃ jL jR, Extra ks jL jR t.2 ∧ (CL → jL = []) ∧ (CR → jR = [])) →
        Upd st (if c = true then t else (false, st)).2 ∧
        ((if c = true then t else (false, st)).1 = true →
          (if c = true then t else (false, st)).2 = st ∧ List.Forall₂ (OpEq ks) (x :: xs) (y :: ys)) ∧
        ((if c = true then t else (false, st)).1 = false →
          ∃ jL jR, Extra ks jL jR (if c = true then t else (false, st)).2 ∧ (CL → jL = []) ∧ (CR → jR = [])) := by
      intro c t hc _
      subst hc
      simp only [Bool.false_eq_true, if_false]
      exact ⟨.refl _, fun h => absurd h (by simp), fun _ => ⟨[], [], S.extra, fun _ => rfl, fun _ => rfl⟩⟩
    have good : ∀ {x y : DOp}, OpEq ks x y → ∀ (t : Bool × DSt), Upd st t.2 ∧ (t.1 = true → t.2 = st ∧ List.Forall₂ (OpEq ks) xs ys) ∧
        (t.1 = false → ∃ jL jR, Extra ks jL jR t.2 ∧ (CL → jL = []) ∧ (CR → jR = [])) →
        Upd st t.2 ∧ (t.1 = true → t.2 = st ∧ List.Forall₂ (OpEq ks) (x :: xs) (y :: ys)) ∧
        (t.1 = false → ∃ jL jR, Extra ks jL jR t.2 ∧ (CL → jL = []) ∧ (CR → jR = [])) :=
      fun e t h => ⟨h.1, fun ht => ⟨(h.2.1 ht).1, .cons e (h.2.1 ht).2⟩, h.2.2⟩
    cases x with
    | blk b => exact absurd rfl (hx _ (by simp) b)
    | const w v =>
      cases y with
      | blk b => exact absurd rfl (hy _ (by simp) b)
      | const w' v' =>
        simp only [cmpPlainD, DOp.key]
        by_cases e : DOp.const w v = DOp.const w' v'
        · have : decide (DOp.const w v = DOp.const w' v') = true := by simpa using e
          simp only [this, if_true]
          exact good (e ▸ .const w v) _ ih
        · have : decide (DOp.const w v = DOp.const w' v') = false := by simpa using e
          exact bad _ _ this ih
      | ref b w' =>
        simp only [cmpPlainD, DOp.key]
        exact bad _ _ rfl ih
    | ref a w =>
      cases y with
      | blk b => exact absurd rfl (hy _ (by simp) b)
      | const w' v' =>
        simp only [cmpPlainD, DOp.key]
        exact bad _ _ rfl ih
      | ref b w' =>
        have hr := refs_known (l := l) (r := r) S (a := a) (b := b) hc (fun h => hL h _ (by simp) a w rfl) (fun h => hR h _ (by simp) b w' rfl)
        simp only at hr
        rw [show cmpRefs ⟨l.all, r.all⟩ (.val a) (.val b) st =
          cmpPlainD ⟨l.all, r.all⟩ (.ref a w) (.ref b w') st from rfl] at hr
        generalize cmpPlainD ⟨l.all, r.all⟩ (.ref a w) (.ref b w') st = z at hr ⊢
        obtain ⟨c, s⟩ := z
        cases c with
        | true =>
          obtain ⟨h1, h2⟩ := hr.2.1 rfl
          simp only at h1
          subst h1
          simp only [if_true]
          have hw : w = w' := ht.1
          subst hw
          exact good (.ref a b w h2) _ ih
        | false =>
          simp only [Bool.false_eq_true, if_false]
          exact ⟨hr.1, fun h => absurd h (by simp), fun _ => hr.2.2 rfl⟩

theorem curOps_nil (i : DInst) : curOps [] i = i.ops := by simp [curOps]

/-- Comparison of two new instructions when the operands of one of them are known. -/
theorem insts_known {cfg : DCfg} (hcfg : cfg.inverse = false) {l r : DFun} (pl : Plain l) (pr : Plain r)
    {ks : List (DKey × DKey)} {st : DSt} (S : Sync ks st) (B : BaseSt st) {i j : DInst} (hi : i ∈ l.all)
    (hj : j ∈ r.all) (bi : ∀ b, DOp.blk b ∉ i.ops) (bj : ∀ b, DOp.blk b ∉ j.ops)
    (ni : DKey.val i.id ∉ ks.map Prod.fst) (nj : DKey.val j.id ∉ ks.map Prod.snd) {CL CR : Prop} (hc : CL ∨ CR)
    (hL : CL → ∀ x ∈ i.ops, Known (ks.map Prod.fst) x) (hR : CR → ∀ y ∈ j.ops, Known (ks.map Prod.snd) y) :
    let x := cmpInsts cfg ⟨l.all, r.all⟩ i j st
    let ks' := ks ++ [(DKey.val i.id, DKey.val j.id)]
    Upd st x.2 ∧
    (x.1 = true → Sync ks' x.2 ∧ i.code = j.code ∧ i.ty = j.ty ∧ List.Forall₂ (OpEq ks') i.ops j.ops) ∧
    (x.1 = false → ∃ jL jR, Extra ks' jL jR x.2 ∧ (CL → jL = []) ∧ (CR → jR = [])) := by
  intro x ks'
  obtain ⟨m, hm⟩ := cmpRefs_new (l := l) (r := r) S pl pr ni nj
  have e1 : ks'.map Prod.fst = ks.map Prod.fst ++ [DKey.val i.id] := by simp [ks']
  have e2 : ks'.map Prod.snd = ks.map Prod.snd ++ [DKey.val j.id] := by simp [ks']
  have S' : Sync ks' (withKeys st ks' m) :=
    ⟨rfl, rfl, S.repL, S.repR, e1 ▸ keys_snoc S.left ni, e2 ▸ keys_snoc S.right nj⟩
  have U' : Upd st (withKeys st ks' m) := ⟨_, _, _, rfl⟩
  have B' := U'.base B
  have hx : x = if sameHead i j = true then cmpOpList ⟨l.all, r.all⟩ i.ops j.ops (withKeys st ks' m)
      else (false, withKeys st ks' m) := by
    have h1 : ¬ (i.code = .phi ∧ j.code = .phi) := fun h => (pl i hi).1 h.1
    have h2 : inverseBranches i j (withKeys st ks' m) = false := by
      unfold inverseBranches
      have : (withKeys st ks' m).inv = [] := B'.inv
      rw [this]
      split <;> simp
    have h3 : curOps (withKeys st ks' m).swapped j = j.ops := by rw [B'.swapped, curOps_nil]
    show cmpInsts cfg _ i j st = _
    unfold cmpInsts
    have hv : ∀ n, cmpVals ⟨l.all, r.all⟩ n (.ref i.id i.ty) (.ref j.id j.ty) st = (true, withKeys st ks' m) :=
      fun n => (cmpVals_base B n _ _).trans hm
    rw [if_neg h1, hv]
    simp only [h2, Bool.false_eq_true, if_false, Bool.true_and, h3, hcfg, Bool.false_and]
  rw [hx]
  split
  · next hs =>
    simp only [sameHead, Bool.and_eq_true, decide_eq_true_eq] at hs
    have hno : ∀ {z : DInst}, (∀ b, DOp.blk b ∉ z.ops) → ∀ x ∈ z.ops, ∀ b, x ≠ .blk b :=
      fun h x hx b e => h b (e ▸ hx)
    have h := ops_known (l := l) (r := r) hc S' B' i.ops j.ops hs.2 (hno bi) (hno bj)
      (fun h x hx a w e => by rw [e1]; exact List.mem_append_left _ (hL h x hx a w e))
      (fun h x hx a w e => by rw [e2]; exact List.mem_append_left _ (hR h x hx a w e))
    simp only at h
    exact ⟨U'.trans h.1, fun ht => ⟨by rw [(h.2.1 ht).1]; exact S', hs.1.1, hs.1.2, (h.2.1 ht).2⟩, h.2.2⟩
  · exact ⟨U', fun h => absurd h (by simp), fun _ => ⟨[], [], S'.extra, fun _ => rfl, fun _ => rfl⟩⟩

/-- After an unsuccessful comparison without new values the serial numbers are restored. -/
theorem undo_sync {ks : List (DKey × DKey)} {i j : Nat} {st : DSt}
    (E : Extra (ks ++ [(DKey.val i, DKey.val j)]) [] [] st) (B : BaseSt st) : Sync ks (undoLast i j st) := by
  have n1 := E.left
  have n2 := E.right
  have s1 := E.snL
  have s2 := E.snR
  simp only [List.map_append, List.map_cons, List.map_nil, List.append_nil] at n1 n2 s1 s2
  have i1 : DKey.val i ∉ ks.map Prod.fst := fun h => (List.nodup_append.mp n1).2.2 _ h _ (by simp) rfl
  have i2 : DKey.val j ∉ ks.map Prod.snd := fun h => (List.nodup_append.mp n2).2.2 _ h _ (by simp) rfl
  refine ⟨?_, ?_, B.repL, B.repR, (List.nodup_append.mp n1).1, (List.nodup_append.mp n2).1⟩
  · show snErase _ st.snL = _
    rw [s1, erase_last i1]
  · show snErase _ st.snR = _
    rw [s2, erase_last i2]

theorem erase_before {keys : List DKey} {k k' : DKey} (h : (keys ++ [k] ++ [k']).Nodup) :
    snErase k (numbered (keys ++ [k] ++ [k'])) = numbered keys ++ [(k', keys.length + 1)] := by
  have hn := List.nodup_append.mp h
  have hk : k ∉ keys := fun hm => (List.nodup_append.mp hn.1).2.2 _ hm _ (by simp) rfl
  have hne : k' ≠ k := fun e => hn.2.2 k (by simp) k' (by simp) e.symm
  have := erase_last hk
  unfold snErase at this ⊢
  rw [numbered_append, List.filter_append, this]
  simp [hne]

theorem insert_odd {keys : List DKey} {k k' : DKey} (hk : k ∉ keys) :
    (snInsert k (numbered keys ++ [(k', keys.length + 1)])).lookup k = some (keys.length + 1) := by
  by_cases e : k = k'
  · subst e
    have : (numbered keys ++ [(k, keys.length + 1)]).lookup k = some (keys.length + 1) := by
      rw [List.lookup_append, numbered_none hk]
      simp [List.lookup]
    simp [snInsert, this]
  · have h1 : (numbered keys ++ [(k', keys.length + 1)]).lookup k = none := by
      rw [List.lookup_append, numbered_none hk]
      have : (k == k') = false := by simpa using e
      simp [List.lookup, this]
    simp only [snInsert, h1, Option.isSome_none, Bool.false_eq_true, if_false]
    rw [List.lookup_append, h1]
    simp [List.lookup, numbered_length]

theorem insert_even {keys : List DKey} {k : DKey} (hn : keys.Nodup) (hk : k ∉ keys) :
    (snInsert k (numbered keys)).lookup k = some keys.length := by
  rw [insert_new hk, numbered_some (keys_snoc hn hk) (i := keys.length) (by simp)]

/-- A comparison after one that left an unmatched value fails. -/
theorem insts_extra {cfg : DCfg} (hcfg : cfg.inverse = false) {l r : DFun} (pl : Plain l)
    {ks : List (DKey × DKey)} {st : DSt} {i j : DInst} {i' j' : Nat} {jL jR : List DKey}
    (E : Extra (ks ++ [(DKey.val i', DKey.val j')]) jL jR st) (hne : jL ≠ [] ∨ jR ≠ []) {st' : DSt} (B : BaseSt st')
    (hL : st'.snL = (undoLast i' j' st).snL) (hR : st'.snR = (undoLast i' j' st).snR)
    (hi : i ∈ l.all) (ni : DKey.val i.id ∉ ks.map Prod.fst) (nj : DKey.val j.id ∉ ks.map Prod.snd) :
    (cmpInsts cfg ⟨l.all, r.all⟩ i j st').1 = false ∧
      (cmpInsts cfg ⟨l.all, r.all⟩ i j st').2.reloc = st'.reloc := by
  have n1 := E.left
  have n2 := E.right
  have s1 := E.snL
  have s2 := E.snR
  have hone := E.one
  simp only [List.map_append, List.map_cons, List.map_nil] at n1 n2 s1 s2
  have i1 : DKey.val i' ∉ ks.map Prod.fst := fun h =>
    (List.nodup_append.mp (List.nodup_append.mp n1).1).2.2 _ h _ (by simp) rfl
  have i2 : DKey.val j' ∉ ks.map Prod.snd := fun h =>
    (List.nodup_append.mp (List.nodup_append.mp n2).1).2.2 _ h _ (by simp) rfl
  have m1 := (List.nodup_append.mp (List.nodup_append.mp n1).1).1
  have m2 := (List.nodup_append.mp (List.nodup_append.mp n2).1).1
  have key : ¬ (snInsert (.val i.id) st'.snL).lookup (.val i.id) = (snInsert (.val j.id) st'.snR).lookup (.val j.id) := by
    rw [hL, hR]
    show ¬ (snInsert (.val i.id) (snErase _ st.snL)).lookup _ = (snInsert (.val j.id) (snErase _ st.snR)).lookup _
    rw [s1, s2]
    cases jL with
    | nil =>
      cases jR with
      | nil => simp at hne
      | cons k t =>
        cases t with
        | cons _ _ => simp at hone
        | nil =>
          rw [erase_before n2, List.append_nil, erase_last i1, insert_odd nj, insert_even m1 ni]
          simp
    | cons k t =>
      cases t with
      | cons _ _ => simp at hone; omega
      | nil =>
        cases jR with
        | cons _ _ => simp at hone; omega
        | nil =>
          rw [erase_before n1, List.append_nil, erase_last i2, insert_odd ni, insert_even m2 nj]
          simp
  have hv : ∀ n, ∃ s, cmpVals ⟨l.all, r.all⟩ n (.ref i.id i.ty) (.ref j.id j.ty) st' = (false, s) ∧ s.inv = [] ∧
      s.reloc = st'.reloc := by
    intro n
    rw [cmpVals_base B]
    refine ⟨{ st' with snL := snInsert (.val i.id) st'.snL, snR := snInsert (.val j.id) st'.snR }, ?_, B.inv, rfl⟩
    simp only [cmpPlainD, DOp.key, cmpRefs, if_neg key]
  have h1 : ¬ (i.code = .phi ∧ j.code = .phi) := fun h => (pl i hi).1 h.1
  obtain ⟨s, hs, hinv, hrel⟩ := hv (DPair.depth ⟨l.all, r.all⟩)
  have h2 : inverseBranches i j s = false := by
    unfold inverseBranches
    rw [hinv]
    split <;> simp
  unfold cmpInsts
  rw [if_neg h1, hs]
  simp [h2, hcfg, hrel]

end DK
