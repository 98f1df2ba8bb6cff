import Verif.Lemmas.CustomMatch

/-! Lemmas on the numbers of values in the comparison of two functions without patterns. -/

set_option autoImplicit false

namespace DK

theorem clookup_zipIdx {α : Type} [BEq α] [LawfulBEq α] (l : List α) (hn : l.Nodup) (a : α) (k n : Nat) :
    (l.zipIdx k).lookup a = some n ↔ k ≤ n ∧ l[n - k]? = some a := by
  induction l generalizing k with
  | nil => simp
  | cons x t ih =>
    rw [List.zipIdx_cons, List.lookup_cons]
    have ht := (List.nodup_cons.1 hn)
    by_cases e : a = x
    · subst e
      simp only [BEq.rfl]
      constructor
      · intro h; cases h; simp
      · rintro ⟨h1, h2⟩
        cases hk : n - k with
        | zero => congr 1; omega
        | succ m =>
          rw [hk, List.getElem?_cons_succ] at h2
          exact absurd (List.mem_of_getElem? h2) ht.1
    · have : (a == x) = false := by simpa using e
      rw [this]
      dsimp only
      rw [ih ht.2]
      constructor
      · rintro ⟨h1, h2⟩
        refine ⟨by omega, ?_⟩
        have : n - k = (n - (k + 1)) + 1 := by omega
        rw [this, List.getElem?_cons_succ]; exact h2
      · rintro ⟨h1, h2⟩
        cases hk : n - k with
        | zero => rw [hk] at h2; simp at h2; exact absurd h2.symm e
        | succ m =>
          rw [hk, List.getElem?_cons_succ] at h2
          refine ⟨by omega, ?_⟩
          have : n - (k + 1) = m := by omega
          rw [this]; exact h2

theorem lookup_zipIdx_none {α : Type} [BEq α] [LawfulBEq α] (l : List α) (a : α) (k : Nat) :
    (l.zipIdx k).lookup a = none ↔ a ∉ l := by
  induction l generalizing k with
  | nil => simp
  | cons x t ih =>
    rw [List.zipIdx_cons, List.lookup_cons]
    by_cases e : a = x
    · subst e; simp
    · have : (a == x) = false := by simpa using e
      rw [this]
      dsimp only
      rw [ih]
      simp [e]

/-- The numbers of both programs are those of the pairs `ps`, without repetition. -/
structure Bal (s : CSt) (ps : List (CusVal × CusVal)) : Prop where
  left : s.snL = (ps.map fun p => (true, p.1)).zipIdx
  right : s.snR = (ps.map fun p => (false, p.2)).zipIdx
  nodupL : (ps.map Prod.fst).Nodup
  nodupR : (ps.map Prod.snd).Nodup

theorem nodup_ref {b : Bool} {l : List CusVal} (h : l.Nodup) : (l.map fun v => (b, v)).Nodup := by
  unfold List.Nodup at h ⊢
  rw [List.pairwise_map]
  exact h.imp fun hab e => hab (Prod.mk.inj e).2

theorem Bal.refL {s : CSt} {ps : List (CusVal × CusVal)} (h : Bal s ps) : (ps.map fun p => (true, p.1)).Nodup := by
  have := nodup_ref (b := true) h.nodupL
  rw [List.map_map] at this
  exact this

theorem Bal.refR {s : CSt} {ps : List (CusVal × CusVal)} (h : Bal s ps) : (ps.map fun p => (false, p.2)).Nodup := by
  have := nodup_ref (b := false) h.nodupR
  rw [List.map_map] at this
  exact this

theorem refInsert_lookup (k : Ref) (n : Nat) (m : List (Ref × Nat)) :
    (refInsert k n m).lookup k = some ((m.lookup k).getD n) := by
  unfold refInsert
  split
  · rename_i h
    obtain ⟨v, hv⟩ := Option.isSome_iff_exists.1 h
    rw [hv]; rfl
  · rename_i h
    have : m.lookup k = none := Option.not_isSome_iff_eq_none.1 h
    rw [List.lookup_append, this]; simp

theorem Bal.cmpVal {E : CusEnv} (hv : E.values = []) {s s' : CSt} {ps : List (CusVal × CusVal)} (hb : Bal s ps) {l r : CusVal}
    (h : E.cmpVal s l r = (true, s')) :
    ∃ ps', Bal s' ps' ∧ (∀ p ∈ ps, p ∈ ps') ∧ (l.isConst = false → r.isConst = false → (l, r) ∈ ps') := by
  have ht : ∀ s'', E.tryValues s'' l r = (false, s'') := by
    intro s''; unfold CusEnv.tryValues; rw [hv]; rfl
  have hself : ∀ (v : CusVal) (n : Str), v.hasName n = true → v.isConst = true := by
    intro v n hn; cases v <;> first | rfl | exact nomatch hn
  unfold CusEnv.cmpVal at h
  dsimp only at h
  split at h
  · rename_i hs
    split at h
    · cases h
      refine ⟨ps, hb, fun _ h => h, fun hl hr => ?_⟩
      rename_i hs2
      simp only [Bool.and_eq_true] at hs2
      rw [hself _ _ hs2.1] at hl; exact nomatch hl
    · rw [ht] at h; exact nomatch h
  · split at h
    · rename_i hc
      split at h
      · cases h
        simp only [Bool.and_eq_true] at hc
        exact ⟨ps, hb, fun _ h => h, fun hl _ => by rw [hc.1] at hl; exact nomatch hl⟩
      · rw [ht] at h; exact nomatch h
    · split at h
      · rw [ht] at h; exact nomatch h
      · split at h
        · rename_i heq
          rw [refInsert_lookup, refInsert_lookup] at heq
          have heq := Option.some.inj heq
          have hlenL : s.snL.length = ps.length := by rw [hb.left]; simp
          have hlenR : s.snR.length = ps.length := by rw [hb.right]; simp
          have nL : ∀ n, s.snL.lookup (true, l) = some n → ∃ x, ps[n]? = some (l, x) := by
            intro n hn
            rw [hb.left, clookup_zipIdx _ hb.refL] at hn
            obtain ⟨_, hn⟩ := hn
            rw [Nat.sub_zero, List.getElem?_map, Option.map_eq_some_iff] at hn
            obtain ⟨⟨a, b⟩, h1, h2⟩ := hn
            cases h2
            exact ⟨b, h1⟩
          have nR : ∀ n, s.snR.lookup (false, r) = some n → ∃ x, ps[n]? = some (x, r) := by
            intro n hn
            rw [hb.right, clookup_zipIdx _ hb.refR] at hn
            obtain ⟨_, hn⟩ := hn
            rw [Nat.sub_zero, List.getElem?_map, Option.map_eq_some_iff] at hn
            obtain ⟨⟨a, b⟩, h1, h2⟩ := hn
            cases h2
            exact ⟨a, h1⟩
          have lt : ∀ n (x : CusVal × CusVal), ps[n]? = some x → n < ps.length := fun n x hx =>
            (List.getElem?_eq_some_iff.1 hx).1
          cases hl : s.snL.lookup (true, l) with
          | some n =>
            obtain ⟨x, hx⟩ := nL n hl
            cases hr : s.snR.lookup (false, r) with
            | some m =>
              obtain ⟨y, hy⟩ := nR m hr
              rw [hl, hr] at heq
              have heq : n = m := heq
              subst heq
              rw [hx] at hy
              cases hy
              have e1 : refInsert (true, l) s.snL.length s.snL = s.snL := by
                unfold refInsert; rw [if_pos (by rw [hl]; rfl)]
              have e2 : refInsert (false, r) s.snR.length s.snR = s.snR := by
                unfold refInsert; rw [if_pos (by rw [hr]; rfl)]
              rw [e1, e2, if_neg (by omega)] at h
              cases h
              exact ⟨ps, ⟨hb.left, hb.right, hb.nodupL, hb.nodupR⟩, fun _ h => h, fun _ _ => List.mem_of_getElem? hx⟩
            | none =>
              rw [hl, hr] at heq
              have heq : n = s.snR.length := heq
              have := lt n _ hx
              omega
          | none =>
            cases hr : s.snR.lookup (false, r) with
            | some m =>
              obtain ⟨y, hy⟩ := nR m hr
              rw [hl, hr] at heq
              have heq : s.snL.length = m := heq
              have := lt m _ hy
              omega
            | none =>
              have e1 : refInsert (true, l) s.snL.length s.snL = s.snL ++ [((true, l), s.snL.length)] := by
                unfold refInsert; rw [if_neg (by rw [hl]; decide)]
              have e2 : refInsert (false, r) s.snR.length s.snR = s.snR ++ [((false, r), s.snR.length)] := by
                unfold refInsert; rw [if_neg (by rw [hr]; decide)]
              rw [e1, e2, if_pos (by simp)] at h
              cases h
              refine ⟨ps ++ [(l, r)], ⟨?_, ?_, ?_, ?_⟩, fun p hp => List.mem_append_left _ hp, fun _ _ => by simp⟩
              · show s.snL ++ [((true, l), s.snL.length)] = _
                rw [List.map_append, List.zipIdx_append, ← hb.left, hlenL]
                simp
              · show s.snR ++ [((false, r), s.snR.length)] = _
                rw [List.map_append, List.zipIdx_append, ← hb.right, hlenR]
                simp
              · rw [hb.left, lookup_zipIdx_none] at hl
                rw [List.map_append, List.nodup_append]
                refine ⟨hb.nodupL, by simp, ?_⟩
                intro a ha b hb' e
                simp only [List.map_cons, List.map_nil, List.mem_singleton] at hb'
                subst hb'; subst e
                obtain ⟨p, hp, rfl⟩ := List.mem_map.1 ha
                exact hl (List.mem_map.2 ⟨p, hp, rfl⟩)
              · rw [hb.right, lookup_zipIdx_none] at hr
                rw [List.map_append, List.nodup_append]
                refine ⟨hb.nodupR, by simp, ?_⟩
                intro a ha b hb' e
                simp only [List.map_cons, List.map_nil, List.mem_singleton] at hb'
                subst hb'; subst e
                obtain ⟨p, hp, rfl⟩ := List.mem_map.1 ha
                exact hr (List.mem_map.2 ⟨p, hp, rfl⟩)
        · rw [ht] at h; exact nomatch h

theorem Bal.cmpArgs {E : CusEnv} (hv : E.values = []) (l : List (CusVal × CusVal)) {s s' : CSt} {ps : List (CusVal × CusVal)}
    (hb : Bal s ps) (h : E.cmpArgs l s = (true, s')) :
    ∃ ps', Bal s' ps' ∧ (∀ p ∈ ps, p ∈ ps') ∧ ∀ q ∈ l, q.1.isConst = false → q.2.isConst = false → q ∈ ps' := by
  induction l generalizing s ps with
  | nil => cases h; exact ⟨ps, hb, fun _ h => h, fun q hq => nomatch hq⟩
  | cons q t ih =>
    obtain ⟨a, b⟩ := q
    unfold CusEnv.cmpArgs at h
    split at h
    · rename_i s1 heq
      obtain ⟨ps1, hb1, hs1, hq1⟩ := hb.cmpVal hv heq
      obtain ⟨ps2, hb2, hs2, hq2⟩ := ih hb1 h
      refine ⟨ps2, hb2, fun p hp => hs2 p (hs1 p hp), fun q hq c1 c2 => ?_⟩
      rcases List.mem_cons.1 hq with e | e
      · subst e; exact hs2 _ (hq1 c1 c2)
      · exact hq2 q e c1 c2
    · exact nomatch h

/-- Two aligned instructions: their results and their operands belong together. -/
def AlignedIn (E : CusEnv) (ps : List (CusVal × CusVal)) (x : Pos × Pos) : Prop :=
  (CusVal.inst x.1.1 x.1.2, CusVal.inst x.2.1 x.2.2) ∈ ps ∧
  ∀ il ir, E.fnL.instAt x.1.1 x.1.2 = some il → E.fnR.instAt x.2.1 x.2.2 = some ir →
    ∀ q ∈ il.args.zip ir.args, q.1.isConst = false → q.2.isConst = false → q ∈ ps

theorem AlignedIn.mono {E : CusEnv} {ps ps' : List (CusVal × CusVal)} {x : Pos × Pos} (h : AlignedIn E ps x)
    (hs : ∀ p ∈ ps, p ∈ ps') : AlignedIn E ps' x :=
  ⟨hs _ h.1, fun il ir h1 h2 q hq c1 c2 => hs _ (h.2 il ir h1 h2 q hq c1 c2)⟩

theorem Bal.cmpInst {E : CusEnv} (hv : E.values = []) {s s' : CSt} {ps : List (CusVal × CusVal)} (hb : Bal s ps) {pl pr : Pos}
    (h : E.cmpInst s pl pr = (true, s')) :
    ∃ ps', Bal s' ps' ∧ (∀ p ∈ ps, p ∈ ps') ∧ AlignedIn E ps' (pl, pr) := by
  unfold CusEnv.cmpInst at h
  split at h
  · rename_i il ir hl hr
    split at h
    · exact nomatch h
    · rename_i s1 heq
      obtain ⟨ps1, hb1, hs1, hq1⟩ := hb.cmpVal hv heq
      split at h
      · exact nomatch h
      · obtain ⟨ps2, hb2, hs2, hq2⟩ := hb1.cmpArgs hv _ h
        refine ⟨ps2, hb2, fun p hp => hs2 p (hs1 p hp), hs2 _ (hq1 rfl rfl), ?_⟩
        intro il' ir' h1 h2
        dsimp only at h1 h2
        rw [hl] at h1
        rw [hr] at h2
        cases h1
        cases h2
        exact hq2
  · exact nomatch h

theorem cmpBlock_aligned {E : CusEnv} (hi : E.insts = []) (hv : E.values = []) (b b' fuel i j : Nat)
    (done : List (Pos × Pos)) (s : CSt) (ps : List (CusVal × CusVal)) (hb : Bal s ps) (hd : ∀ x ∈ done, AlignedIn E ps x)
    (al : List (Pos × Pos)) (s' : CSt) (h : E.cmpBlock b b' fuel i j done s = some (.equal al s')) :
    ∃ ps', Bal s' ps' ∧ ∀ x ∈ al, AlignedIn E ps' x := by
  induction fuel generalizing i j done s ps with
  | zero => exact nomatch h
  | succ n ih =>
    unfold CusEnv.cmpBlock at h
    dsimp only at h
    split at h
    · split at h
      · exact ih _ _ _ _ _ hb hd h
      · split at h
        · rename_i s1 heq
          obtain ⟨ps1, hb1, hs1, hx⟩ := hb.cmpInst hv heq
          refine ih _ _ _ _ ps1 hb1 ?_ h
          intro x hx'
          rcases List.mem_append.1 hx' with e | e
          · exact (hd x e).mono hs1
          · rw [List.mem_singleton.1 e]; exact hx
        · split at h
          · exact nomatch h
          · unfold CusEnv.matchPattern at h
            rw [hi, hv] at h
            exact nomatch h
    · split at h
      · exact nomatch h
      · cases h; exact ⟨ps, hb, hd⟩

theorem init_bal (E : CusEnv) : ∃ ps, Bal E.init ps := by
  refine ⟨(List.range (min E.fnL.params.length E.fnR.params.length)).map (fun k => (.arg k, .arg k)) ++ [(.blk 0, .blk 0)],
    ?_, ?_, ?_, ?_⟩
  · unfold CusEnv.init
    dsimp only
    generalize min E.fnL.params.length E.fnR.params.length = n
    refine List.ext_getElem? fun k => ?_
    rw [List.map_append, List.zipIdx_append]
    by_cases hk : k < n
    · rw [List.getElem?_append_left (by simp; exact hk), List.getElem?_append_left (by simp; exact hk)]
      simp [hk]
    · rw [List.getElem?_append_right (by simp; omega), List.getElem?_append_right (by simp; omega)]
      simp
  · unfold CusEnv.init
    dsimp only
    generalize min E.fnL.params.length E.fnR.params.length = n
    refine List.ext_getElem? fun k => ?_
    rw [List.map_append, List.zipIdx_append]
    by_cases hk : k < n
    · rw [List.getElem?_append_left (by simp; exact hk), List.getElem?_append_left (by simp; exact hk)]
      simp [hk]
    · rw [List.getElem?_append_right (by simp; omega), List.getElem?_append_right (by simp; omega)]
      simp
  · rw [List.map_append, List.nodup_append, List.map_map]
    refine ⟨?_, by simp, ?_⟩
    · unfold List.Nodup
      rw [List.pairwise_map]
      exact List.nodup_range.imp fun h e => h (CusVal.arg.inj e)
    · intro a ha b hb e
      simp at ha hb
      obtain ⟨k, _, rfl⟩ := ha
      subst hb
      exact nomatch e
  · rw [List.map_append, List.nodup_append, List.map_map]
    refine ⟨?_, by simp, ?_⟩
    · unfold List.Nodup
      rw [List.pairwise_map]
      exact List.nodup_range.imp fun h e => h (CusVal.arg.inj e)
    · intro a ha b hb e
      simp at ha hb
      obtain ⟨k, _, rfl⟩ := ha
      subst hb
      exact nomatch e

end DK
