import Verif.Lemmas.FunCmp

/-! The serial numbers relate the values of the two functions, and execution preserves the relation
(for C43). -/

set_option autoImplicit false

namespace DK
open Spec

/-- Serial numbers are consistent. -/
structure Good (st : CmpSt) : Prop where
  l : st.l.Nodup
  r : st.r.Nodup
  len : st.l.length = st.r.length

/-- Two values have the same serial number. -/
def Rel (st : CmpSt) (k k' : Key) : Prop := ∃ i : Nat, st.l[i]? = some k ∧ st.r[i]? = some k'

/-- A later state of the serial numbers. -/
def Ext (st st' : CmpSt) : Prop := st.l <+: st'.l ∧ st.r <+: st'.r

theorem Ext.refl (st : CmpSt) : Ext st st := ⟨List.prefix_refl _, List.prefix_refl _⟩

theorem Ext.trans {a b c : CmpSt} (h : Ext a b) (h' : Ext b c) : Ext a c :=
  ⟨h.1.trans h'.1, h.2.trans h'.2⟩

theorem prefix_get {α : Type} {a b : List α} (h : a <+: b) {i : Nat} {x : α} (hx : a[i]? = some x) :
    b[i]? = some x := by
  obtain ⟨t, rfl⟩ := h
  obtain ⟨hi, _⟩ := List.getElem?_eq_some_iff.1 hx
  rw [List.getElem?_append_left hi]; exact hx

theorem Rel.mono {a b : CmpSt} (h : Ext a b) {k k' : Key} (hr : Rel a k k') : Rel b k k' := by
  obtain ⟨i, h1, h2⟩ := hr
  exact ⟨i, prefix_get h.1 h1, prefix_get h.2 h2⟩

theorem nodup_get_inj {α : Type} {l : List α} (h : l.Nodup) {i j : Nat} {x : α}
    (hi : l[i]? = some x) (hj : l[j]? = some x) : i = j := by
  obtain ⟨hi', hi⟩ := List.getElem?_eq_some_iff.1 hi
  obtain ⟨hj', hj⟩ := List.getElem?_eq_some_iff.1 hj
  exact (h.getElem_inj_iff).1 (hi.trans hj.symm)

theorem Rel.right_unique {st : CmpSt} (g : Good st) {k a b : Key} (ha : Rel st k a) (hb : Rel st k b) :
    a = b := by
  obtain ⟨i, h1, h2⟩ := ha
  obtain ⟨j, h3, h4⟩ := hb
  have := nodup_get_inj g.l h1 h3
  subst this
  rw [h2] at h4; exact Option.some.inj h4

theorem Rel.left_unique {st : CmpSt} (g : Good st) {k a b : Key} (ha : Rel st a k) (hb : Rel st b k) :
    a = b := by
  obtain ⟨i, h1, h2⟩ := ha
  obtain ⟨j, h3, h4⟩ := hb
  have := nodup_get_inj g.r h2 h4
  subst this
  rw [h1] at h3; exact Option.some.inj h3

theorem insertKey_prefix (k : Key) (l : List Key) : l <+: insertKey k l := by
  unfold insertKey
  split
  · exact List.prefix_refl _
  · exact List.prefix_append _ _

theorem insertKey_nodup {k : Key} {l : List Key} (h : l.Nodup) : (insertKey k l).Nodup := by
  unfold insertKey
  split
  · exact h
  · rename_i hk
    exact List.nodup_append.2 ⟨h, by simp, by
      intro a ha b hb hab; simp at hb; subst hb; subst hab; exact hk ha⟩

theorem mem_insertKey (k : Key) (l : List Key) : k ∈ insertKey k l := by
  unfold insertKey
  split
  · assumption
  · simp

theorem idxOf_get {k : Key} {l : List Key} (h : k ∈ l) : l[l.idxOf k]? = some k := by
  rw [List.getElem?_eq_some_iff]
  exact ⟨List.idxOf_lt_length_iff.2 h, List.getElem_idxOf _⟩

theorem insertKey_cases (k : Key) (l : List Key) :
    (insertKey k l = l ∧ (insertKey k l).idxOf k < l.length) ∨
      ((insertKey k l).length = l.length + 1 ∧ (insertKey k l).idxOf k = l.length) := by
  unfold insertKey
  split
  · rename_i h
    exact .inl ⟨rfl, List.idxOf_lt_length_iff.2 h⟩
  · rename_i h
    refine .inr ⟨by simp, ?_⟩
    rw [List.idxOf_append_of_notMem h]
    simp

theorem cmpKeys_zero {k k' : Key} {st : CmpSt} (g : Good st) (h : (cmpKeys k k' st).1 = 0) :
    Good (cmpKeys k k' st).2 ∧ Ext st (cmpKeys k k' st).2 ∧ Rel (cmpKeys k k' st).2 k k' := by
  have hidx : (insertKey k st.l).idxOf k = (insertKey k' st.r).idxOf k' := cmpNum_eq.1 h
  have hlen : (insertKey k st.l).length = (insertKey k' st.r).length := by
    have := g.len
    rcases insertKey_cases k st.l with ⟨h1, h2⟩ | ⟨h1, h2⟩ <;>
      rcases insertKey_cases k' st.r with ⟨h3, h4⟩ | ⟨h3, h4⟩
    · rw [h1, h3, this]
    · omega
    · omega
    · omega
  refine ⟨⟨insertKey_nodup g.l, insertKey_nodup g.r, hlen⟩,
    ⟨insertKey_prefix k st.l, insertKey_prefix k' st.r⟩, (insertKey k st.l).idxOf k, ?_, ?_⟩
  · exact idxOf_get (mem_insertKey k st.l)
  · show (insertKey k' st.r)[_]? = _
    rw [hidx]
    exact idxOf_get (mem_insertKey k' st.r)

theorem andThen_zero {x : Int × CmpSt} {k : CmpSt → Int × CmpSt} (h : (andThen x k).1 = 0) :
    x.1 = 0 ∧ (k x.2).1 = 0 ∧ andThen x k = k x.2 := by
  unfold andThen at h ⊢
  split
  · rename_i hx; rw [if_pos hx] at h; exact ⟨hx, h, rfl⟩
  · rename_i hx; rw [if_neg hx] at h; exact absurd h hx

/-- Operands that denote the same. -/
def OpndRel (p : Nat) (st : CmpSt) : Opnd → Opnd → Prop
  | .const c, .const d => normConst p c = normConst p d
  | .ref (.val a), .ref (.val b) => Rel st (.val a) (.val b)
  | .ref (.blk a), .ref (.blk b) => Rel st (.blk a) (.blk b)
  | .asm a, .asm b => normAsm p a = normAsm p b
  | .self, .self => True
  | _, _ => False

theorem OpndRel.mono {p : Nat} {a b : CmpSt} (h : Ext a b) {o o' : Opnd} (hr : OpndRel p a o o') :
    OpndRel p b o o' := by
  cases o with
  | ref k => cases o' with
    | ref k' => cases k <;> cases k' <;> first | exact Rel.mono h hr | exact hr.elim
    | _ => cases k <;> exact hr.elim
  | _ => cases o' <;> exact hr

/-- No constant expression in an operand. -/
def OpndNoExpr (o : Opnd) : Prop := ∀ c, o = .const c → NoExpr c

theorem cmpValues_zero {p : Nat} {o o' : Opnd} {st : CmpSt} (g : Good st) (hn : OpndNoExpr o)
    (h : (cmpValues p o o' st).1 = 0) :
    Good (cmpValues p o o' st).2 ∧ Ext st (cmpValues p o o' st).2 ∧
      OpndRel p (cmpValues p o o' st).2 o o' := by
  cases o <;> cases o' <;> simp only [cmpValues] at h ⊢ <;> try exact absurd h (by decide)
  · rename_i c d
    exact ⟨g, Ext.refl st, cmpConst_norm p c d (hn c rfl) h⟩
  · rename_i k k'
    cases k <;> cases k' <;> simp only [] at h ⊢ <;> first
      | exact cmpKeys_zero g h
      | exact absurd h (by decide)
  · exact ⟨g, Ext.refl st, cmpAsm_eq.1 h⟩
  · exact ⟨g, Ext.refl st, trivial⟩

/-- Operand lists that denote the same. -/
def OpsRel (p : Nat) (st : CmpSt) (l r : List (Opnd × Ty)) : Prop :=
  List.Forall₂ (fun a b => OpndRel p st a.1 b.1) l r

theorem OpsRel.mono {p : Nat} {a b : CmpSt} (h : Ext a b) {l r : List (Opnd × Ty)}
    (hr : OpsRel p a l r) : OpsRel p b l r := by
  unfold OpsRel at *
  exact List.Forall₂.imp (fun _ _ => OpndRel.mono h) hr

theorem cmpOperands_zero {p : Nat} : ∀ {l r : List (Opnd × Ty)} {st : CmpSt}, Good st →
    (∀ o ∈ l, OpndNoExpr o.1) → l.length = r.length → (cmpOperands p l r st).1 = 0 →
    Good (cmpOperands p l r st).2 ∧ Ext st (cmpOperands p l r st).2 ∧
      OpsRel p (cmpOperands p l r st).2 l r
  | [], [], st, g, _, _, _ => ⟨g, Ext.refl st, .nil⟩
  | a :: as, b :: bs, st, g, hn, hl, h => by
    rw [cmpOperands] at h ⊢
    obtain ⟨h1, h2, he⟩ := andThen_zero h
    rw [he]
    obtain ⟨g1, e1, r1⟩ := cmpValues_zero g (hn a (by simp)) h1
    obtain ⟨g2, e2, r2⟩ := cmpOperands_zero g1 (fun o ho => hn o (by simp [ho])) (by simpa using hl) h2
    exact ⟨g2, e1.trans e2, .cons (OpndRel.mono e2 r1) r2⟩

theorem cmpIncoming_zero : ∀ {l r : List Nat} {st : CmpSt}, Good st → (cmpIncoming l r st).1 = 0 →
    Good (cmpIncoming l r st).2 ∧ Ext st (cmpIncoming l r st).2 ∧
      List.Forall₂ (fun a b => Rel (cmpIncoming l r st).2 (.blk a) (.blk b)) l r
  | [], [], st, g, _ => ⟨g, Ext.refl st, .nil⟩
  | a :: as, b :: bs, st, g, h => by
    rw [cmpIncoming] at h ⊢
    obtain ⟨h1, h2, he⟩ := andThen_zero h
    rw [he]
    obtain ⟨g1, e1, r1⟩ := cmpKeys_zero g h1
    obtain ⟨g2, e2, r2⟩ := cmpIncoming_zero g1 h2
    exact ⟨g2, e1.trans e2, .cons (Rel.mono e2 r1) r2⟩
  | [], _ :: _, st, _, h => by simp [cmpIncoming] at h
  | _ :: _, [], st, _, h => by simp [cmpIncoming] at h

theorem cmpArgs_zero : ∀ {l r : List (Nat × Ty)} {st : CmpSt}, Good st → l.length = r.length →
    (cmpArgs l r st).1 = 0 →
    Good (cmpArgs l r st).2 ∧ Ext st (cmpArgs l r st).2 ∧
      List.Forall₂ (fun a b => Rel (cmpArgs l r st).2 (.val a.1) (.val b.1)) l r
  | [], [], st, g, _, _ => ⟨g, Ext.refl st, .nil⟩
  | a :: as, b :: bs, st, g, hl, h => by
    rw [cmpArgs] at h ⊢
    obtain ⟨h1, h2, he⟩ := andThen_zero h
    rw [he]
    obtain ⟨g1, e1, r1⟩ := cmpKeys_zero g h1
    obtain ⟨g2, e2, r2⟩ := cmpArgs_zero g1 (by simpa using hl) h2
    exact ⟨g2, e1.trans e2, .cons (Rel.mono e2 r1) r2⟩

/-- Related special states. -/
def SpecialRel (p : Nat) (st : CmpSt) (s s' : Special) : Prop :=
  normSpecial p s = normSpecial p s' ∧
    ∀ bs bs', s = .phi bs → s' = .phi bs' → List.Forall₂ (fun a b => Rel st (.blk a) (.blk b)) bs bs'

theorem SpecialRel.mono {p : Nat} {a b : CmpSt} (h : Ext a b) {s s' : Special}
    (hr : SpecialRel p a s s') : SpecialRel p b s s' :=
  ⟨hr.1, fun bs bs' h1 h2 => List.Forall₂.imp (fun _ _ => Rel.mono h) (hr.2 bs bs' h1 h2)⟩

theorem cmpSpecial_zero {p : Nat} {s s' : Special} {st : CmpSt} (g : Good st)
    (h : (cmpSpecial p s s' st).1 = 0) :
    Good (cmpSpecial p s s' st).2 ∧ Ext st (cmpSpecial p s s' st).2 ∧
      SpecialRel p (cmpSpecial p s s' st).2 s s' := by
  cases s <;> cases s' <;> simp only [cmpSpecial] at h ⊢ <;> try exact absurd h (by decide)
  case phi.phi bs bs' =>
    obtain ⟨h1, h2, h3⟩ := cmpIncoming_zero g h
    refine ⟨h1, h2, rfl, ?_⟩
    intro a b ha hb; cases ha; cases hb; exact h3
  all_goals
    refine ⟨g, Ext.refl st, ?_, by intro _ _ h; cases h⟩
    try simp only [thenCmp_eq, cmpNum_eq, toNat_inj, cmpRange_eq, cmpAttrs_eq, cmpBundles_eq, cmpTypes_eq,
      cmpNums_eq] at h
    simp only [normSpecial]
    try simp only [Special.alloca.injEq, Special.load.injEq, Special.store.injEq, Special.cmp.injEq,
      Special.call.injEq, Special.indices.injEq, Special.fence.injEq, Special.cmpxchg.injEq,
      Special.rmw.injEq]
    try exact h

/-- Instructions that do the same. -/
structure InstRel (lay : Layout) (st : CmpSt) (i j : Inst) : Prop where
  id : Rel st (.val i.id) (.val j.id)
  opcode : i.opcode = j.opcode
  body : (info lay.ptrBits i = info lay.ptrBits j ∧ OpsRel lay.ptrBits st i.ops j.ops ∧
        SpecialRel lay.ptrBits st i.special j.special) ∨
    ∃ src src' o o' os os', i.special = .gep src ∧ j.special = .gep src' ∧
      i.ops = o :: os ∧ j.ops = o' :: os' ∧ OpndRel lay.ptrBits st o.1 o'.1 ∧
      ((∃ k, gepOffset lay src i.ops = some k ∧ gepOffset lay src' j.ops = some k) ∨
        (normTy lay.ptrBits src = normTy lay.ptrBits src' ∧ OpsRel lay.ptrBits st os os'))

theorem InstRel.mono {lay : Layout} {a b : CmpSt} (h : Ext a b) {i j : Inst} (hr : InstRel lay a i j) :
    InstRel lay b i j := by
  refine ⟨Rel.mono h hr.id, hr.opcode, ?_⟩
  rcases hr.body with ⟨h1, h2, h3⟩ | ⟨src, src', o, o', os, os', h1, h2, h3, h4, h5, h6⟩
  · exact .inl ⟨h1, OpsRel.mono h h2, SpecialRel.mono h h3⟩
  · refine .inr ⟨src, src', o, o', os, os', h1, h2, h3, h4, OpndRel.mono h h5, ?_⟩
    rcases h6 with h6 | ⟨h6, h7⟩
    · exact .inl h6
    · exact .inr ⟨h6, OpsRel.mono h h7⟩

/-- No constant expression in an instruction. -/
def InstNoExpr (i : Inst) : Prop := ∀ o ∈ i.ops, OpndNoExpr o.1

theorem cmpInst_gep {lay : Layout} {i j : Inst} {st : CmpSt} (g : Good st) (hn : InstNoExpr i)
    {src src' : Ty} (hs : i.special = .gep src) (hs' : j.special = .gep src')
    (h : (andThen (cmpPtrs lay.ptrBits i.ops j.ops st) (cmpGEPs lay src src' i.ops j.ops)).1 = 0) :
    Good (andThen (cmpPtrs lay.ptrBits i.ops j.ops st) (cmpGEPs lay src src' i.ops j.ops)).2 ∧
    Ext st (andThen (cmpPtrs lay.ptrBits i.ops j.ops st) (cmpGEPs lay src src' i.ops j.ops)).2 ∧
    ∃ src₁ src₁' o o' os os', i.special = .gep src₁ ∧ j.special = .gep src₁' ∧
      i.ops = o :: os ∧ j.ops = o' :: os' ∧
      OpndRel lay.ptrBits
        (andThen (cmpPtrs lay.ptrBits i.ops j.ops st) (cmpGEPs lay src src' i.ops j.ops)).2 o.1 o'.1 ∧
      ((∃ k, gepOffset lay src₁ i.ops = some k ∧ gepOffset lay src₁' j.ops = some k) ∨
        (normTy lay.ptrBits src₁ = normTy lay.ptrBits src₁' ∧ OpsRel lay.ptrBits
        (andThen (cmpPtrs lay.ptrBits i.ops j.ops st) (cmpGEPs lay src src' i.ops j.ops)).2 os os')) := by
  obtain ⟨h1, h2, he⟩ := andThen_zero h
  rw [he]
  cases hi : i.ops with
  | nil => rw [hi] at h1; simp [cmpPtrs] at h1
  | cons o os =>
    cases hj : j.ops with
    | nil => rw [hi, hj] at h1; simp [cmpPtrs] at h1
    | cons o' os' =>
      have hn' : OpndNoExpr o.1 := hn o (by rw [hi]; simp)
      simp only [hi, hj, cmpPtrs] at h1 h2
      obtain ⟨g1, e1, r1⟩ := cmpValues_zero g hn' h1
      simp only [cmpPtrs]
      generalize (cmpValues lay.ptrBits o.1 o'.1 st).2 = st1 at *
      rw [cmpGEPs] at h2 ⊢
      split at h2
      · rename_i hne; exact absurd h2 hne
      · rename_i hne
        rw [if_neg hne]
        cases ho : gepOffset lay src (o :: os) with
        | some a =>
          cases ho' : gepOffset lay src' (o' :: os') with
          | some b =>
            simp only [ho, ho'] at h2 ⊢
            obtain rfl := cmpNum_eq.1 h2
            exact ⟨g1, e1, src, src', o, o', os, os', hs, hs', rfl, rfl, r1, .inl ⟨a, ho, ho'⟩⟩
          | none =>
            simp only [ho, ho'] at h2 ⊢
            obtain ⟨h3, h4, he2⟩ := andThen_zero h2
            rw [thenCmp_eq, cmpTypes_eq, cmpNum_eq] at h3
            rw [he2]
            obtain ⟨g2, e2, r2⟩ := cmpOperands_zero g1 (fun q hq => hn q (by rw [hi]; exact hq)) h3.2 h4
            cases r2 with
            | cons ra rb =>
              exact ⟨g2, e1.trans e2, src, src', o, o', os, os', hs, hs', rfl, rfl, ra,
                .inr ⟨h3.1, rb⟩⟩
        | none =>
          simp only [ho] at h2 ⊢
          obtain ⟨h3, h4, he2⟩ := andThen_zero h2
          rw [thenCmp_eq, cmpTypes_eq, cmpNum_eq] at h3
          rw [he2]
          obtain ⟨g2, e2, r2⟩ := cmpOperands_zero g1 (fun q hq => hn q (by rw [hi]; exact hq)) h3.2 h4
          cases r2 with
          | cons ra rb =>
            exact ⟨g2, e1.trans e2, src, src', o, o', os, os', hs, hs', rfl, rfl, ra,
              .inr ⟨h3.1, rb⟩⟩

theorem cmpInst_plain {lay : Layout} {i j : Inst} {st : CmpSt} (g : Good st) (hn : InstNoExpr i)
    (hop : i.opcode = j.opcode) (h : (cmpPlain lay i j st).1 = 0) :
    Good (cmpPlain lay i j st).2 ∧ Ext st (cmpPlain lay i j st).2 ∧
      info lay.ptrBits i = info lay.ptrBits j ∧ OpsRel lay.ptrBits (cmpPlain lay i j st).2 i.ops j.ops ∧
        SpecialRel lay.ptrBits (cmpPlain lay i j st).2 i.special j.special := by
  unfold cmpPlain at h ⊢
  obtain ⟨h1, h2, he⟩ := andThen_zero h
  rw [he]
  obtain ⟨h3, h4, he2⟩ := andThen_zero h2
  rw [he2]
  simp only at h3 h4 ⊢
  obtain ⟨g1, e1, r1⟩ := cmpSpecial_zero g h3
  rw [thenCmp_eq, thenCmp_eq, thenCmp_eq, cmpNum_eq, cmpTypes_eq, cmpNum_eq] at h1
  obtain ⟨g2, e2, r2⟩ := cmpOperands_zero g1 hn h1.1 h4
  refine ⟨g2, e1.trans e2, ?_, r2, SpecialRel.mono e2 r1⟩
  unfold info
  rw [hop, h1.2.1, h1.2.2.1, (cmpOpTypes_eq h1.1).1 h1.2.2.2, r1.1]

theorem cmpInst_zero {lay : Layout} {i j : Inst} {st : CmpSt} (g : Good st) (hn : InstNoExpr i)
    (h : (cmpInst lay i j st).1 = 0) :
    Good (cmpInst lay i j st).2 ∧ Ext st (cmpInst lay i j st).2 ∧
      InstRel lay (cmpInst lay i j st).2 i j := by
  unfold cmpInst at h ⊢
  obtain ⟨h1, h2, he⟩ := andThen_zero h
  rw [he]
  obtain ⟨g1, e1, r1⟩ := cmpKeys_zero g h1
  generalize (cmpKeys (.val i.id) (.val j.id) st).2 = st1 at *
  obtain ⟨h3, h4, he2⟩ := andThen_zero h2
  rw [he2]
  have hop : i.opcode = j.opcode := cmpNum_eq.1 h3
  simp only at h4 ⊢
  by_cases hgep : ∃ src src', i.special = .gep src ∧ j.special = .gep src'
  · obtain ⟨src, src', hs, hs'⟩ := hgep
    rw [cmpBody] at h4 ⊢
    simp only [hs, hs'] at h4 ⊢
    obtain ⟨g2, e2, b⟩ := cmpInst_gep g1 hn hs hs' h4
    exact ⟨g2, e1.trans e2, ⟨Rel.mono e2 r1, hop, .inr b⟩⟩
  · have e : cmpBody lay i j st1 = cmpPlain lay i j st1 := by
      unfold cmpBody
      cases hs : i.special <;> cases hs' : j.special <;> first | rfl | exact absurd ⟨_, _, hs, hs'⟩ hgep
    rw [e] at h4 ⊢
    obtain ⟨g2, e2, b1, b2, b3⟩ := cmpInst_plain g1 hn hop h4
    exact ⟨g2, e1.trans e2, ⟨Rel.mono e2 r1, hop, .inl ⟨b1, b2, b3⟩⟩⟩

theorem cmpCode_zero {lay : Layout} : ∀ {l r : List Inst} {st : CmpSt}, Good st →
    (∀ i ∈ l, InstNoExpr i) → (cmpCode lay l r st).1 = 0 →
    Good (cmpCode lay l r st).2 ∧ Ext st (cmpCode lay l r st).2 ∧
      List.Forall₂ (InstRel lay (cmpCode lay l r st).2) l r
  | [], [], st, g, _, _ => ⟨g, Ext.refl st, .nil⟩
  | a :: as, b :: bs, st, g, hn, h => by
    rw [cmpCode] at h ⊢
    obtain ⟨h1, h2, he⟩ := andThen_zero h
    rw [he]
    obtain ⟨g1, e1, r1⟩ := cmpInst_zero g (hn a (by simp)) h1
    obtain ⟨g2, e2, r2⟩ := cmpCode_zero g1 (fun i hi => hn i (by simp [hi])) h2
    exact ⟨g2, e1.trans e2, .cons (InstRel.mono e2 r1) r2⟩
  | [], _ :: _, st, _, _, h => by simp [cmpCode] at h
  | _ :: _, [], st, _, _, h => by simp [cmpCode] at h

end DK
