import Verif.Spec.Fields

/-! Positions and names of members of structures (for C121, C122). -/

set_option autoImplicit false

namespace DK
open Spec

theorem sameElem_iff (m : DMember) : sameElemIndex m = true ↔ unitOf m ≠ m.offset := by
  unfold sameElemIndex unitOf
  cases m.storage <;> simp

theorem sameElem_false (m : DMember) : sameElemIndex m = false ↔ unitOf m = m.offset := by
  unfold sameElemIndex unitOf
  cases m.storage <;> simp

/-- The number of storage units that begin in a list of members. -/
def unitStarts : List DMember → Nat
  | [] => 0
  | m :: ms => (if unitOf m = m.offset then 1 else 0) + unitStarts ms

theorem unitStarts_append (a b : List DMember) :
    unitStarts (a ++ b) = unitStarts a + unitStarts b := by
  induction a with
  | nil => simp [unitStarts]
  | cons m a ih => simp [unitStarts, ih]; omega

theorem memberIndexGo_eq {name : Str} {m : DMember} (hm : m.name = name) :
    ∀ (a b : List DMember) (index : Int) (next : Nat), (∀ x ∈ a, x.name ≠ name) →
      PlainMembers (a ++ m :: b) →
      memberIndexGo name index next (a ++ m :: b) =
        index + unitStarts a + (if unitOf m = m.offset then 0 else -1)
  | [], b, index, next, _, hp => by
    have h0 := (hp m (by simp)).1
    simp only [List.nil_append, memberIndexGo, h0, hm, unitStarts, ne_eq, not_true_eq_false,
      false_and, if_false, if_true]
    by_cases hs : unitOf m = m.offset
    · rw [(sameElem_false m).2 hs]; simp [hs]
    · rw [(sameElem_iff m).2 hs]; simp [hs]; omega
  | x :: a, b, index, next, hx, hp => by
    have h0 := hp x (by simp)
    have hne := hx x (by simp)
    simp only [List.cons_append, memberIndexGo, h0.1, ne_eq, not_true_eq_false, false_and,
      if_false, hne, gt_iff_lt, h0.2, if_true, unitStarts]
    rw [memberIndexGo_eq hm a b _ _ (fun y hy => hx y (by simp [hy]))
      (fun y hy => hp y (by simp at hy ⊢; tauto))]
    by_cases hs : unitOf x = x.offset
    · rw [(sameElem_false x).2 hs]; simp [hs]; omega
    · rw [(sameElem_iff x).2 hs]; simp [hs]

theorem laidOut_ge {u o : Nat} {ms : List DMember} (h : LaidOut u o ms) :
    ∀ x ∈ ms, o ≤ x.offset := by
  induction ms generalizing u o with
  | nil => simp
  | cons m ms ih =>
    intro x hx
    rcases List.mem_cons.1 hx with rfl | hx
    · exact h.1
    · have := ih h.2.2.2 x hx
      have := h.1
      omega

/-- The unit of a member is not before that of the members before it. -/
theorem laidOut_mono {u o : Nat} {m : DMember} {b : List DMember} : ∀ {a : List DMember},
    u < o → PlainMembers (a ++ m :: b) → LaidOut u o (a ++ m :: b) →
    u ≤ unitOf m ∧ unitOf m < m.offset + m.size ∧
      (unitStarts (a ++ [m]) = 0 → unitOf m = u) ∧
      (∀ x ∈ a ++ [m], unitOf x = x.offset → x.offset ≤ unitOf m) ∧
      LaidOut (unitOf m) (m.offset + m.size) b
  | [], hu, hp, h => by
    have hs := (hp m (by simp)).2
    obtain ⟨h1, -, h3, h4⟩ := h
    refine ⟨?_, ?_, ?_, ?_, h4⟩
    · rcases h3 with h | h <;> omega
    · rcases h3 with h | h <;> omega
    · intro h0
      rcases h3 with h | h
      · simp [unitStarts, h] at h0
      · exact h.1
    · intro x hx hxo
      simp at hx
      subst hx
      omega
  | x :: a, hu, hp, h => by
    have hs := (hp x (by simp)).2
    obtain ⟨h1, -, h3, h4⟩ := h
    have hux : unitOf x < x.offset + x.size := by rcases h3 with h | h <;> omega
    have ih := laidOut_mono (a := a) hux (fun y hy => hp y (by simp at hy ⊢; tauto)) h4
    refine ⟨?_, ih.2.1, ?_, ?_, ih.2.2.2.2⟩
    · rcases h3 with h | h <;> omega
    · intro h0
      simp only [List.cons_append, unitStarts] at h0
      have h5 := ih.2.2.1 (by omega)
      rcases h3 with h | h
      · simp [h] at h0
      · omega
    · intro y hy hyo
      rcases List.mem_cons.1 (List.cons_append ▸ hy) with rfl | hy
      · omega
      · exact ih.2.2.2.1 y hy hyo

theorem elementNameGo_eq {m : DMember} {b : List DMember} : ∀ {a : List DMember} {u o cur : Nat},
    u < o → PlainMembers (a ++ m :: b) → LaidOut u o (a ++ m :: b) →
    0 < unitStarts (a ++ [m]) →
    ∃ x ∈ a ++ m :: b, elementNameGo (cur + unitStarts (a ++ [m])) cur (a ++ m :: b) = x.name ∧
      unitOf x = unitOf m
  | [], u, o, cur, hu, hp, h, hs => by
    have hm : unitOf m = m.offset := by
      by_contra h0; simp [unitStarts, h0] at hs
    have ho : 0 < m.offset := by have := h.1; omega
    refine ⟨m, by simp, ?_, rfl⟩
    simp [elementNameGo, unitStarts, hm, ho, (sameElem_false m).2 hm]
  | x :: a, u, o, cur, hu, hp, h, hs => by
    have hsz := (hp x (by simp)).2
    obtain ⟨h1, -, h3, h4⟩ := h
    have hux : unitOf x < x.offset + x.size := by rcases h3 with h | h <;> omega
    have hp' : PlainMembers (a ++ m :: b) := fun y hy => hp y (by simp at hy ⊢; tauto)
    by_cases hx : unitOf x = x.offset
    · have ho : 0 < x.offset := by omega
      simp only [List.cons_append, elementNameGo, (sameElem_false x).2 hx, Bool.not_false,
        Bool.and_true, gt_iff_lt, ho, decide_true, if_true]
      by_cases h0 : unitStarts (a ++ [m]) = 0
      · have := (laidOut_mono hux hp' h4).2.2.1 h0
        refine ⟨x, by simp, ?_, this.symm⟩
        rw [if_pos]
        simp only [unitStarts, hx, if_true]
        omega
      · rw [if_neg (by simp only [unitStarts, hx, if_true]; omega)]
        obtain ⟨y, hy, h5, h6⟩ := elementNameGo_eq (cur := cur + 1) hux hp' h4 (by omega)
        refine ⟨y, by simp at hy ⊢; tauto, ?_, h6⟩
        rw [← h5]
        simp only [unitStarts, hx, if_true]
        congr 1
        omega
    · simp only [List.cons_append, elementNameGo, (sameElem_iff x).2 hx, Bool.not_true,
        Bool.and_false, Bool.false_eq_true, if_false]
      have hs' : 0 < unitStarts (a ++ [m]) := by
        simp only [List.cons_append, unitStarts, hx, if_false] at hs; omega
      rw [if_neg (by simp only [unitStarts, hx, if_false]; omega)]
      obtain ⟨y, hy, h5, h6⟩ := elementNameGo_eq (cur := cur) hux hp' h4 hs'
      refine ⟨y, by simp at hy ⊢; tauto, ?_, h6⟩
      rw [← h5]
      simp only [unitStarts, hx, if_false]
      congr 1
      omega

theorem filter_starts {f : DMember → Bool} : ∀ {l : List DMember},
    (∀ x ∈ l, f x = true ↔ unitOf x = x.offset) → (l.filter f).length = unitStarts l
  | [], _ => rfl
  | x :: l, h => by
    have ih := filter_starts (l := l) fun y hy => h y (by simp [hy])
    by_cases hx : unitOf x = x.offset
    · rw [List.filter_cons_of_pos ((h x (by simp)).2 hx), List.length_cons, ih]
      simp [unitStarts, hx]; omega
    · rw [List.filter_cons_of_neg (fun h' => hx ((h x (by simp)).1 h')), ih]
      simp [unitStarts, hx]

theorem placeOf_eq {f m : DMember} {a b : List DMember} (hv : ValidStruct (f :: (a ++ m :: b)))
    (hp : PlainMembers (f :: (a ++ m :: b))) :
    placeOf (f :: (a ++ m :: b)) m = unitStarts (a ++ [m]) := by
  obtain ⟨h0, -, h2⟩ := hv
  have hf := (hp f (by simp)).2
  have hp' : PlainMembers (a ++ m :: b) := fun y hy => hp y (by simp at hy ⊢; tauto)
  have hmono := laidOut_mono hf hp' h2
  have hge := laidOut_ge h2
  unfold placeOf
  rw [List.filter_cons_of_neg (by simp [h0]),
    show a ++ m :: b = (a ++ [m]) ++ b by simp, List.filter_append, List.length_append,
    filter_starts (l := a ++ [m])]
  · have : b.filter (fun x => unitOf x == x.offset && decide (0 < x.offset) &&
        decide (x.offset ≤ unitOf m)) = [] := by
      rw [List.filter_eq_nil_iff]
      intro x hx
      have := laidOut_ge hmono.2.2.2.2 x hx
      have := hmono.2.1
      simp
      intro _ _
      omega
    rw [this]; rfl
  · intro x hx
    have h5 := hge x (by simp at hx ⊢; tauto)
    constructor
    · intro h; simp at h; exact h.1.1
    · intro h
      have := hmono.2.2.2.1 x hx h
      simp [h]
      omega

/-- The index of a member and the name at this index. -/
theorem member_round {ms : List DMember} {m : DMember} (hm : m ∈ ms) (hv : ValidStruct ms)
    (hp : PlainMembers ms) (hd : DistinctMembers ms) :
    memberIndex ms m.name = placeOf ms m ∧
      ∃ x ∈ ms, elementName ms (placeOf ms m) = x.name ∧ unitOf x = unitOf m := by
  cases ms with
  | nil => simp at hm
  | cons f ms =>
    rcases List.mem_cons.1 hm with rfl | hm'
    · have h0 := hp m (by simp)
      have hpl : placeOf (m :: ms) m = 0 := by
        unfold placeOf
        rw [List.length_eq_zero_iff, List.filter_eq_nil_iff]
        intro x _
        rw [hv.2.1]
        simp
        omega
      have hs : sameElemIndex m = false := (sameElem_false m).2 (by rw [hv.2.1, hv.1])
      rw [hpl]
      refine ⟨?_, m, by simp, ?_, rfl⟩
      · simp [memberIndex, memberIndexGo, hs, h0.1]
      · simp [elementName, elementNameGo, hs, hv.1]
    · obtain ⟨a, b, rfl⟩ := List.append_of_mem hm'
      rw [placeOf_eq hv hp]
      have hn : (f.name :: (a.map DMember.name ++ m.name :: b.map DMember.name)).Nodup := by
        simpa [DistinctMembers] using hd
      have hp' : PlainMembers (a ++ m :: b) := fun y hy => hp y (by simp at hy ⊢; tauto)
      have hfs := hp f (by simp)
      have hsf : sameElemIndex f = false := (sameElem_false f).2 (by rw [hv.2.1, hv.1])
      constructor
      · have hne : f.name ≠ m.name := by
          intro h; rw [List.nodup_cons] at hn; exact hn.1 (by simp [h])
        have hne' : ∀ x ∈ a, x.name ≠ m.name := by
          intro x hx h
          rw [List.nodup_cons, List.nodup_append] at hn
          exact hn.2.2.2 x.name (List.mem_map_of_mem hx) m.name (by simp) h
        simp only [memberIndex, memberIndexGo, hsf, hfs.1, hne, hfs.2, ne_eq, not_true_eq_false,
          false_and, Bool.false_eq_true, if_false, gt_iff_lt, if_true]
        rw [memberIndexGo_eq rfl a b _ _ hne' hp', unitStarts_append]
        by_cases h : unitOf m = m.offset <;> simp [unitStarts, h] <;> omega
      · by_cases h0 : unitStarts (a ++ [m]) = 0
        · have := (laidOut_mono hfs.2 hp' hv.2.2).2.2.1 h0
          refine ⟨f, by simp, ?_, by rw [this, hv.2.1]⟩
          rw [h0]
          simp [elementName, elementNameGo, hv.1]
        · obtain ⟨x, hx, h5, h6⟩ := elementNameGo_eq (cur := 0) hfs.2 hp' hv.2.2 (by omega)
          refine ⟨x, by simp at hx ⊢; tauto, ?_, h6⟩
          rw [← h5]
          simp only [elementName, elementNameGo, hv.1, gt_iff_lt, lt_self_iff_false, decide_false,
            Bool.false_and, Bool.false_eq_true, if_false, Nat.zero_add]
          rw [if_neg (by omega)]

end DK

namespace DK
open Spec

/-! ### Collected names -/

theorem elementNameGo_some {n : Nat} {nm : Str} (hn : nm ≠ []) : ∀ {l : List DMember} {cur : Nat},
    (∀ x ∈ l, 0 < x.offset) → elementNameGo n cur l = nm →
    ∃ a x b, l = a ++ x :: b ∧ x.name = nm ∧ n = cur + unitStarts (a ++ [x])
  | [], cur, _, h => absurd h.symm (by simpa [elementNameGo] using hn)
  | x :: l, cur, ho, h => by
    have hx0 := ho x (by simp)
    simp only [elementNameGo, gt_iff_lt, hx0, decide_true, Bool.true_and] at h
    by_cases hx : unitOf x = x.offset
    · simp only [(sameElem_false x).2 hx, Bool.not_false, if_true] at h
      by_cases hc : cur + 1 = n
      · rw [if_pos hc] at h
        exact ⟨[], x, l, rfl, h, by simp [unitStarts, hx, hc]⟩
      · rw [if_neg hc] at h
        obtain ⟨a, y, b, rfl, h1, h2⟩ :=
          elementNameGo_some hn (fun z hz => ho z (by simp [hz])) h
        exact ⟨x :: a, y, b, rfl, h1, by simp [unitStarts, hx]; omega⟩
    · simp only [(sameElem_iff x).2 hx, Bool.not_true, Bool.false_eq_true, if_false] at h
      by_cases hc : cur = n
      · rw [if_pos hc] at h
        exact ⟨[], x, l, rfl, h, by simp [unitStarts, hx, hc]⟩
      · rw [if_neg hc] at h
        obtain ⟨a, y, b, rfl, h1, h2⟩ :=
          elementNameGo_some hn (fun z hz => ho z (by simp [hz])) h
        exact ⟨x :: a, y, b, rfl, h1, by simp [unitStarts, hx]; omega⟩

theorem elementName_at {ms : List DMember} {n : Nat} {nm : Str} (hn : nm ≠ [])
    (hv : ValidStruct ms) (hp : PlainMembers ms) (h : elementName ms n = nm) :
    MemberAt ms n nm := by
  cases ms with
  | nil => exact absurd h.symm (by simpa [elementName, elementNameGo] using hn)
  | cons f ms =>
    have hf := hp f (by simp)
    have hp' : PlainMembers ms := fun y hy => hp y (by simp [hy])
    simp only [elementName, elementNameGo, hv.1, gt_iff_lt, lt_self_iff_false, decide_false,
      Bool.false_and, Bool.false_eq_true, if_false] at h
    by_cases h0 : 0 = n
    · rw [if_pos h0] at h
      refine ⟨f, by simp, h, ?_⟩
      rw [← h0]
      unfold placeOf
      rw [List.length_eq_zero_iff, List.filter_eq_nil_iff]
      intro x _
      rw [hv.2.1]
      simp
      omega
    · rw [if_neg h0] at h
      have hge := laidOut_ge hv.2.2
      obtain ⟨a, x, b, rfl, h1, h2⟩ := elementNameGo_some hn
        (fun x hx => lt_of_lt_of_le hf.2 (hge x hx)) h
      exact ⟨x, by simp, h1, by rw [placeOf_eq hv hp]; omega⟩

theorem memberIndexGo_none {nm : Str} : ∀ {l : List DMember} {i : Int} {o : Nat},
    (∀ x ∈ l, x.name ≠ nm) → memberIndexGo nm i o l = -1
  | [], _, _, _ => rfl
  | x :: l, i, o, h => by
    simp only [memberIndexGo, h x (by simp), if_false]
    exact memberIndexGo_none fun y hy => h y (by simp [hy])

theorem placeOf_le (ms : List DMember) (m : DMember) : placeOf ms m ≤ ms.length :=
  List.length_filter_le _ _

theorem memberIndex_at {ms : List DMember} {nm : Str} {n : Nat} (hs : PlainStruct ms)
    (h : toU64 (memberIndex ms nm) = n) (hlt : n < 2 ^ 32) : MemberAt ms n nm := by
  obtain ⟨hv, hp, hd, hlen⟩ := hs
  by_cases hm : ∃ m ∈ ms, m.name = nm
  · obtain ⟨m, hm, rfl⟩ := hm
    refine ⟨m, hm, rfl, ?_⟩
    rw [(member_round hm hv hp hd).1] at h
    have := placeOf_le ms m
    unfold toU64 at h
    omega
  · rw [memberIndex, memberIndexGo_none (by simpa using hm)] at h
    have : toU64 (-1) = 2 ^ 64 - 1 := by decide
    omega

theorem get?_append_none {d : Dict (Nat × Nat) Str} {k : Nat × Nat} {v : Str} {k' : Nat × Nat}
    {w : Str} (h : (k', w) ∈ d ++ [(k, v)]) : (k', w) ∈ d ∨ (k' = k ∧ w = v) := by
  simp at h
  rcases h with h | h
  · exact .inl h
  · exact .inr h

theorem insertName_mem {d : Dict (Nat × Nat) Str} {k : Nat × Nat} {v : Str} {k' : Nat × Nat}
    {w : Str} (h : (k', w) ∈ insertName d k v) : (k', w) ∈ d ∨ (k' = k ∧ w = v) := by
  unfold insertName at h
  split at h
  · exact .inl h
  · exact get?_append_none h

/-- All collected names at existing indices are true. -/
def NamesOk (E : NameEnv) (nl nr : Nat → Option Str) (st : NameSt) : Prop :=
  ∀ id n name, ((id, n), name) ∈ st.names → n < 2 ^ 32 → name ≠ [] → TrueName E nl nr id n name

theorem recordIndex_ok {E : NameEnv} {nl nr : Nat → Option Str} {id n : Nat} {name : Str}
    {other : Option Nat} {st : NameSt}
    (h1 : ∀ s ms, E.first s = some ms → PlainStruct ms)
    (h2 : ∀ s ms, E.second s = some ms → PlainStruct ms)
    (h3 : ∀ s t, E.typeByName s = some t → nr t = some s)
    (hid : nl id = some name) (ho : ∀ o, other = some o → nr o = some name)
    (h : NamesOk E nl nr st) : NamesOk E nl nr (recordIndex E id name n other st).1 := by
  unfold recordIndex
  split
  · exact h
  · dsimp only
    split
    · exact h
    · split
      · rename_i ms ms' he1 he2
        split
        · rename_i hpos
          have hsnd : ∀ o, (match other with | some o => some o | none => E.typeByName name)
              = some o → nr o = some name := by
            intro o h
            cases other with
            | none => exact h3 _ _ h
            | some o' => cases h; exact ho o rfl
          intro i k w hm hk hw
          have hcase : ((i, k), w) ∈ st.names ∨ ((i, k) = (id, n) ∧ w = elementName ms n) ∨
              (∃ o, nr o = some name ∧
                (i, k) = (o, toU64 (memberIndex ms' (elementName ms n))) ∧
                w = elementName ms n) := by
            unfold recordNames at hm
            split at hm
            · rename_i o heq
              rcases insertName_mem hm with hm | hm
              · rcases insertName_mem hm with hm | hm
                · exact .inl hm
                · exact .inr (.inl hm)
              · exact .inr (.inr ⟨o, hsnd o heq, hm⟩)
            · rcases insertName_mem hm with hm | hm
              · exact .inl hm
              · exact .inr (.inl hm)
          clear hm
          rcases hcase with hm | ⟨hm, rfl⟩ | ⟨o, hoo, hm, rfl⟩
          · exact h i k w hm hk hw
          · cases hm
            obtain ⟨hv, hp, -, -⟩ := h1 _ _ he1
            exact .inl ⟨name, ms, hid, he1, elementName_at hw hv hp rfl⟩
          · cases hm
            exact .inr ⟨name, ms', hoo, he2, memberIndex_at (h2 _ _ he2) rfl hk⟩
        · exact h
      · exact h

theorem recordGo_ok {E : NameEnv} {nl nr : Nat → Option Str} {g : Gep} {other : Option Gep}
    (h1 : ∀ s ms, E.first s = some ms → PlainStruct ms)
    (h2 : ∀ s ms, E.second s = some ms → PlainStruct ms)
    (h3 : ∀ s t, E.typeByName s = some t → nr t = some s)
    (hg : HasNames nl g.src)
    (ho : ∀ o, other = some o → HasNames nr o.src ∧ sourceName o.src = sourceName g.src ∧
      g.idxs.length ≤ 2) :
    ∀ (rest indices io ro : List GIdx) (st : NameSt),
      (other.isSome → rest.length + indices.length ≤ 2 ∧ rest.length + io.length ≤ 2) →
      NamesOk E nl nr st → NamesOk E nl nr (recordGo E g other rest indices io ro st)
  | [], _, _, _, st, _, h => by simpa [recordGo] using h
  | i :: rest, indices, io, ro, st, hlen, h => by
    simp only [recordGo]
    have hnext : other.isSome →
        rest.length + (indices ++ rest.head?.toList).length ≤ 2 ∧
        rest.length + io.length ≤ 2 := by
      intro hs
      have := hlen hs
      have hh : rest.head?.toList.length ≤ 1 := by cases rest <;> simp
      simp only [List.length_cons, List.length_append] at *
      omega
    have hnext' : other.isSome →
        rest.length + (indices ++ rest.head?.toList).length ≤ 2 ∧
        rest.length + (io ++ ro.head?.toList).length ≤ 2 := by
      intro hs
      have := hlen hs
      have hh : rest.head?.toList.length ≤ 1 := by cases rest <;> simp
      have hh' : ro.head?.toList.length ≤ 1 := by cases ro <;> simp
      simp only [List.length_cons, List.length_append] at *
      omega
    split
    · rename_i id name es hty
      have hid : nl id = some name := hg _ id name es hty
      have hst : NamesOk E nl nr (recordAny E id name i (otherStruct other io) st).1 := by
        cases i with
        | var v => exact h
        | const n =>
          refine recordIndex_ok h1 h2 h3 hid ?_ h
          intro o hoo
          unfold otherStruct at hoo
          cases other with
          | none => cases hoo
          | some og =>
            obtain ⟨ha, hb, -⟩ := ho og rfl
            have hl := hlen rfl
            simp only [List.length_cons] at hl
            dsimp only at hoo
            have e1 : indexedType og.src io = some og.src := by
              unfold indexedType
              rw [List.drop_eq_nil_of_le (by omega)]; simp [FTy.walk]
            have e2 : indexedType g.src indices = some g.src := by
              unfold indexedType
              rw [List.drop_eq_nil_of_le (by omega)]; simp [FTy.walk]
            rw [e1] at hoo
            rw [e2] at hty
            have hsrc : g.src = .struct id name es := by simpa using hty
            rw [hsrc] at hb
            split at hoo
            · rename_i id' nm' es' heq
              cases hoo
              have hosrc : og.src = .struct o nm' es' := by simpa using heq
              rw [hosrc] at hb
              simp only [sourceName, Option.some.injEq] at hb
              have := ha [] o nm' es' (by rw [hosrc]; rfl)
              rw [this, hb]
            · cases hoo
      split
      · exact recordGo_ok h1 h2 h3 hg ho rest _ _ _ _ hnext' hst
      · exact recordGo_ok h1 h2 h3 hg ho rest _ _ _ _ hnext hst
    · exact recordGo_ok h1 h2 h3 hg ho rest _ _ _ _ hnext h

theorem recordAll_ok {E : NameEnv} {nl nr : Nat → Option Str} {gs : List (Gep × Option Gep)}
    (h1 : ∀ s ms, E.first s = some ms → PlainStruct ms)
    (h2 : ∀ s ms, E.second s = some ms → PlainStruct ms)
    (h3 : ∀ s t, E.typeByName s = some t → nr t = some s)
    (hg : ∀ g ∈ gs, HasNames nl g.1.src ∧ ∀ o, g.2 = some o → HasNames nr o.src ∧
      sourceName o.src = sourceName g.1.src ∧ g.1.idxs.length ≤ 2) :
    NamesOk E nl nr (recordAll E gs) := by
  unfold recordAll
  have : ∀ (gs : List (Gep × Option Gep)) (st : NameSt), NamesOk E nl nr st →
      (∀ g ∈ gs, HasNames nl g.1.src ∧ ∀ o, g.2 = some o → HasNames nr o.src ∧
        sourceName o.src = sourceName g.1.src ∧ g.1.idxs.length ≤ 2) →
      NamesOk E nl nr (gs.foldl (fun st g => recordGep E g.1 g.2 st) st) := by
    intro gs
    induction gs with
    | nil => intro st h _; exact h
    | cons g gs ih =>
      intro st h hg
      rw [List.foldl_cons]
      refine ih _ ?_ (fun x hx => hg x (by simp [hx]))
      obtain ⟨ha, hb⟩ := hg g (by simp)
      refine recordGo_ok h1 h2 h3 ha hb _ _ _ _ _ ?_ h
      intro hs
      obtain ⟨o, ho⟩ := Option.isSome_iff_exists.1 hs
      simpa using (hb o ho).2.2
  exact this gs _ (fun _ _ _ h => absurd h (by simp)) hg

/-! ### Comparison by names -/

theorem walk_append (t : FTy) (is : List GIdx) (i : GIdx) :
    t.walk (is ++ [i]) = (t.walk is).bind (·.step i) := by
  induction is generalizing t with
  | nil =>
    simp only [List.nil_append, FTy.walk, Option.bind_some]
    cases t.step i <;> rfl
  | cons j is ih =>
    simp only [List.cons_append, FTy.walk]
    cases t.step j with
    | none => rfl
    | some t' => exact ih t'

theorem indexedType_append {t u : FTy} {pl : List Nat} (hne : pl ≠ []) (i : Nat)
    (h : indexedType t (pl.map .const) = some u) :
    indexedType t ((pl ++ [i]).map .const) = u.step (.const i) := by
  cases pl with
  | nil => exact absurd rfl hne
  | cons a pl =>
    simp only [indexedType, List.map_cons, List.drop_succ_cons, List.drop_zero, List.cons_append,
      List.map_append, List.map_nil] at h ⊢
    rw [walk_append, h]; rfl

theorem constIdxs_length : ∀ {is : List GIdx} {l : List Nat}, constIdxs is = some l →
    l.length = is.length
  | [], l, h => by cases h; rfl
  | .const n :: is, l, h => by
    simp only [constIdxs, Option.map_eq_some_iff] at h
    obtain ⟨k, hk, rfl⟩ := h
    simp [constIdxs_length hk]
  | .var _ :: is, l, h => by cases h

theorem namesGo_sound {E : GepEnv} {field : Nat → Nat → Option Str} {l r : FTy}
    (hn : ∀ id n x, Dict.get? E.names (id, n) = some x → field id n = some x) :
    ∀ (is js pl pr : List Nat) (t u : FTy), is.length = js.length → pl ≠ [] → pr ≠ [] →
      indexedType l (pl.map .const) = some t → indexedType r (pr.map .const) = some u →
      namesGo E l r pl is pr js = true → SameMemberOrIndex field t u is js
  | [], [], _, _, t, u, _, _, _, _, _, _ => by cases t <;> cases u <;> trivial
  | [], j :: js, _, _, _, _, h, _, _, _, _, _ => by simp at h
  | i :: is, [], _, _, _, _, h, _, _, _, _, _ => by simp at h
  | i :: is, j :: js, pl, pr, t, u, hlen, h1, h2, ht, hu, h => by
    simp only [namesGo, Bool.and_eq_true, ht, hu] at h
    obtain ⟨hs, hrest⟩ := h
    have hl' : is.length = js.length := by simpa using hlen
    have ht' := indexedType_append h1 i ht
    have hu' := indexedType_append h2 j hu
    have ih : ∀ t' u', t.step (.const i) = some t' → u.step (.const j) = some u' →
        SameMemberOrIndex field t' u' is js := fun t' u' a b =>
      namesGo_sound hn is js _ _ t' u' hl' (by simp) (by simp) (ht'.trans a) (hu'.trans b) hrest
    cases t with
    | leaf n => cases u <;> simp [SameMemberOrIndex]
    | arr n e =>
      cases u with
      | leaf m => simp [SameMemberOrIndex]
      | arr m f =>
        simp only [nameStep, beq_iff_eq] at hs
        exact ⟨hs, ih e f rfl rfl⟩
      | struct b nm fs =>
        simp only [nameStep, beq_iff_eq] at hs
        refine ⟨hs, ?_⟩
        split
        · rename_i u' hu2; exact ih e u' rfl hu2
        · trivial
    | struct a nm es =>
      cases u with
      | leaf m => simp [SameMemberOrIndex]
      | arr m f =>
        simp only [nameStep, beq_iff_eq] at hs
        refine ⟨hs, ?_⟩
        split
        · rename_i t' ht2; exact ih t' f ht2 rfl
        · trivial
      | struct b nm' fs =>
        simp only [nameStep, Bool.or_eq_true, beq_iff_eq] at hs
        refine ⟨?_, ?_⟩
        · rcases hs with hs | hs
          · split at hs
            · rename_i x y hx hy
              rw [beq_iff_eq] at hs
              subst hs
              exact .inl ⟨x, hn _ _ _ hx, hn _ _ _ hy⟩
            · cases hs
          · exact .inr hs
        · split
          · rename_i t' u' ht2 hu2; exact ih t' u' ht2 hu2
          · trivial

end DK
