import Verif.Model.FunCmp
import Verif.Spec.IRSem

/-! Comparisons of the parts of instructions return zero only for equal contents (for C43, C44). -/

set_option autoImplicit false

namespace DK
open Spec

theorem cmpNum_eq {a b : Nat} : cmpNum a b = 0 ↔ a = b := by
  unfold cmpNum
  split
  · constructor
    · intro h; exact absurd h (by decide)
    · intro h; omega
  · split
    · constructor
      · intro h; exact absurd h (by decide)
      · intro h; omega
    · constructor
      · intro _; omega
      · intro _; rfl

theorem cmpNum_refl (a : Nat) : cmpNum a a = 0 := cmpNum_eq.2 rfl

theorem thenCmp_eq {a b : Int} : thenCmp a b = 0 ↔ a = 0 ∧ b = 0 := by
  unfold thenCmp
  split
  · rename_i h; simp [h]
  · rename_i h; simp [h]

theorem toNat_inj {a b : Bool} : a.toNat = b.toNat ↔ a = b := by cases a <;> cases b <;> decide

theorem cmpNums_eq : ∀ {l r : List Nat}, cmpNums l r = 0 ↔ l = r
  | [], [] => by simp [cmpNums, thenCmp, cmpNum]
  | [], b :: bs => by simp [cmpNums, thenCmp, cmpNum]
  | a :: as, [] => by simp [cmpNums, thenCmp, cmpNum]
  | a :: as, b :: bs => by
    rw [cmpNums]
    simp only [thenCmp_eq, cmpNum_eq, cmpNums_eq (l := as) (r := bs)]
    constructor
    · rintro ⟨_, rfl, rfl⟩; rfl
    · intro h; cases h; exact ⟨rfl, rfl, rfl⟩

theorem cmpMem_eq {l r : Str} : cmpMem l r = 0 ↔ l = r := by
  unfold cmpMem
  rw [cmpNums_eq]
  exact ⟨fun h => List.map_injective_iff.2 (fun a b h => Char.toNat_inj.1 h) h, fun h => by rw [h]⟩

theorem normTys_length (p : Nat) : ∀ ts : List Ty, (normTys p ts).length = ts.length
  | [] => rfl
  | t :: ts => by rw [normTys, List.length_cons, List.length_cons, normTys_length p ts]

local macro "scalar" : tactic => `(tactic| (try first
  | omega
  | (split_ifs <;> omega)
  | (split_ifs <;> simp_all <;> omega)
  | (split_ifs <;> simp_all)))

mutual
theorem cmpTypes_eq (p : Nat) : ∀ a b : Ty, cmpTypes p a b = 0 ↔ normTy p a = normTy p b
  | .struct k es, .struct k' es' => by
    rw [cmpTypes, thenCmp_eq, thenCmp_eq, cmpNum_eq, cmpNum_eq, toNat_inj, normTy, normTy,
      Ty.struct.injEq]
    constructor
    · rintro ⟨h1, h2, h3⟩; exact ⟨h2, (cmpTypeList_eq p es es' h1).1 h3⟩
    · rintro ⟨h1, h2⟩
      have hl : es.length = es'.length := by
        rw [← normTys_length p es, ← normTys_length p es', h2]
      exact ⟨hl, h1, (cmpTypeList_eq p es es' hl).2 h2⟩
  | .func r ps v, .func r' ps' v' => by
    rw [cmpTypes, thenCmp_eq, thenCmp_eq, thenCmp_eq, cmpNum_eq, cmpNum_eq, toNat_inj, normTy,
      normTy, Ty.func.injEq, cmpTypes_eq p r r']
    constructor
    · rintro ⟨h1, h2, h3, h4⟩; exact ⟨h3, (cmpTypeList_eq p ps ps' h1).1 h4, h2⟩
    · rintro ⟨h1, h2, h3⟩
      have hl : ps.length = ps'.length := by
        rw [← normTys_length p ps, ← normTys_length p ps', h2]
      exact ⟨hl, h3, h1, (cmpTypeList_eq p ps ps' hl).2 h2⟩
  | .array n e, .array n' e' => by
    rw [cmpTypes, thenCmp_eq, cmpNum_eq, normTy, normTy, Ty.array.injEq, cmpTypes_eq p e e']
  | .vec s n e, .vec s' n' e' => by
    rw [cmpTypes, thenCmp_eq, thenCmp_eq, cmpNum_eq, cmpNum_eq, toNat_inj, normTy, normTy,
      Ty.vec.injEq, cmpTypes_eq p e e']
  | .int w, r => by
    cases r <;> simp [cmpTypes, thenCmp_eq, cmpNum_eq, tyId, tyNum, normTy]
    all_goals scalar
  | .ptr s, r => by
    cases r <;> simp [cmpTypes, thenCmp_eq, cmpNum_eq, tyId, tyNum, normTy]
    all_goals scalar
  | .prim id, r => by
    cases r <;> simp [cmpTypes, thenCmp_eq, cmpNum_eq, tyId, tyNum, normTy]
    all_goals scalar
  | .struct k es, .int _ | .struct k es, .ptr _ | .struct k es, .prim _ | .struct k es, .func _ _ _
  | .struct k es, .array _ _ | .struct k es, .vec _ _ _
  | .func _ _ _, .int _ | .func _ _ _, .ptr _ | .func _ _ _, .prim _ | .func _ _ _, .struct _ _
  | .func _ _ _, .array _ _ | .func _ _ _, .vec _ _ _
  | .array _ _, .int _ | .array _ _, .ptr _ | .array _ _, .prim _ | .array _ _, .struct _ _
  | .array _ _, .func _ _ _ | .array _ _, .vec _ _ _
  | .vec _ _ _, .int _ | .vec _ _ _, .ptr _ | .vec _ _ _, .prim _ | .vec _ _ _, .struct _ _
  | .vec _ _ _, .func _ _ _ | .vec _ _ _, .array _ _ => by
    simp [cmpTypes, thenCmp_eq, cmpNum_eq, tyId, tyNum, normTy]
    all_goals scalar
theorem cmpTypeList_eq (p : Nat) : ∀ as bs : List Ty, as.length = bs.length →
    (cmpTypeList p as bs = 0 ↔ normTys p as = normTys p bs)
  | [], [], _ => by simp [cmpTypeList, normTys]
  | a :: as, b :: bs, h => by
    rw [cmpTypeList, thenCmp_eq, normTys, normTys, List.cons.injEq, cmpTypes_eq p a b,
      cmpTypeList_eq p as bs (by simpa using h)]
end

theorem cmpTypes_refl (p : Nat) (t : Ty) : cmpTypes p t t = 0 := (cmpTypes_eq p t t).2 rfl

theorem typesDecide_some {p : Nat} {a b : Ty} {r : Int} (h : typesDecide p a b = some r) : r ≠ 0 := by
  unfold typesDecide at h
  simp only at h
  split_ifs at h with h1 h2 h3 h4
  · cases h; rwa [Ne, cmpNum_eq]
  all_goals
    obtain rfl := Option.some.inj h
    first
    | decide
    | exact h1
    | (intro h5; rw [h5] at h4; simp at h4)

theorem typesDecide_none {p : Nat} {a b : Ty} (h : typesDecide p a b = none) :
    cmpTypes p a b = 0 ∨ (vecWidth a ≠ 0 ∧ vecWidth b ≠ 0) := by
  unfold typesDecide at h
  simp only at h
  split_ifs at h with h1 h2 h3
  · exact .inl h1
  · exact .inr ⟨h3, by rw [← not_not.1 h2]; exact h3⟩

theorem contentTy_eq {p : Nat} {a b : Ty} (h : typesDecide p a b = none) :
    contentTy p a = contentTy p b := by
  rcases typesDecide_none h with h | ⟨h1, h2⟩
  · have := (cmpTypes_eq p a b).1 h
    cases a <;> cases b <;> simp_all [contentTy, normTy] <;> split_ifs at this
  · cases a <;> cases b <;> simp_all [vecWidth, contentTy]

theorem normConst_null (p : Nat) : ∀ {c : Const}, c.isNull = true → normConst p c = .null (normTy p c.ty)
  | .int w v, h => by
    have : v = 0 := by simpa [Const.isNull] using h
    simp [normConst, this, Const.ty, normTy]
  | .fp w v, h => by
    have : v = 0 := by simpa [Const.isNull] using h
    simp [normConst, this, Const.ty, normTy]
  | .null t, _ => by simp [normConst, Const.ty]

theorem cmpConst_zero {p : Nat} {a b : Const} (h : cmpConst p a b = 0) :
    typesDecide p a.ty b.ty = none ∧
      ((a.isNull = true ∧ b.isNull = true ∧ cmpTypes p a.ty b.ty = 0) ∨
        (a.isNull = false ∧ b.isNull = false)) := by
  rw [cmpConst] at h
  cases hd : typesDecide p a.ty b.ty with
  | some r => simp only [hd] at h; exact absurd h (typesDecide_some hd)
  | none =>
    refine ⟨rfl, ?_⟩
    simp only [hd] at h
    cases ha : a.isNull <;> cases hb : b.isNull <;> simp_all

local macro "leaf" b:ident h:ident : tactic => `(tactic| (
  cases $b:ident <;> simp only [] at $h:ident <;>
    simp only [valueId, cmpNum_eq, thenCmp_eq, cmpAPInt, cmpNums_eq, cmpTypes_eq, Const.ty, Fin.val_inj] at $h:ident <;>
    first
    | omega
    | (exact absurd $h:ident (by decide))
    | (split at $h:ident <;> omega)
    | (simp only [normConst, $h:ident])))

mutual
theorem cmpConst_norm (p : Nat) : ∀ a b : Const, NoExpr a → cmpConst p a b = 0 →
    normConst p a = normConst p b
  | .aggr k t es, .aggr k' t' es', hn, h => by
    have hd := (cmpConst_zero h).1
    rw [cmpConst] at h
    simp only [Const.ty] at hd
    simp only [Const.ty, hd, Const.isNull, Bool.false_and, Bool.false_eq_true, if_false,
      thenCmp_eq, cmpNum_eq, Fin.val_inj] at h
    rw [normConst, normConst, h.1, cmpConstList_norm p es es' h.2.1 (by simpa [NoExpr] using hn) h.2.2,
      contentTy_eq hd]
  | .expr _ _ _, b, hn, _ => by simp [NoExpr] at hn
  | .int w v, b, _, h => by
    obtain ⟨hd, ⟨ha, hb, ht⟩ | ⟨ha, hb⟩⟩ := cmpConst_zero h
    · rw [normConst_null p ha, normConst_null p hb, (cmpTypes_eq p _ _).1 ht]
    · rw [cmpConst] at h
      simp only [hd, ha, hb, Bool.and_false, Bool.false_eq_true, if_false] at h
      leaf b h
  | .fp t v, b, _, h => by
    obtain ⟨hd, ⟨ha, hb, ht⟩ | ⟨ha, hb⟩⟩ := cmpConst_zero h
    · rw [normConst_null p ha, normConst_null p hb, (cmpTypes_eq p _ _).1 ht]
    · rw [cmpConst] at h
      simp only [hd, ha, hb, Bool.and_false, Bool.false_eq_true, if_false] at h
      leaf b h
  | .null t, b, _, h => by
    obtain ⟨hd, ⟨ha, hb, ht⟩ | ⟨ha, hb⟩⟩ := cmpConst_zero h
    · rw [normConst_null p ha, normConst_null p hb, (cmpTypes_eq p _ _).1 ht]
    · exact absurd ha (by simp [Const.isNull])
  | .undef t, b, _, h => by
    obtain ⟨hd, ⟨ha, hb, ht⟩ | ⟨ha, hb⟩⟩ := cmpConst_zero h
    · rw [normConst_null p ha, normConst_null p hb, (cmpTypes_eq p _ _).1 ht]
    · rw [cmpConst] at h
      simp only [hd, ha, hb, Bool.and_false, Bool.false_eq_true, if_false] at h
      leaf b h
  | .poison t, b, _, h => by
    obtain ⟨hd, ⟨ha, hb, ht⟩ | ⟨ha, hb⟩⟩ := cmpConst_zero h
    · rw [normConst_null p ha, normConst_null p hb, (cmpTypes_eq p _ _).1 ht]
    · rw [cmpConst] at h
      simp only [hd, ha, hb, Bool.and_false, Bool.false_eq_true, if_false] at h
      leaf b h
  | .global g, b, _, h => by
    obtain ⟨hd, ⟨ha, hb, ht⟩ | ⟨ha, hb⟩⟩ := cmpConst_zero h
    · rw [normConst_null p ha, normConst_null p hb, (cmpTypes_eq p _ _).1 ht]
    · rw [cmpConst] at h
      simp only [hd, ha, hb, Bool.and_false, Bool.false_eq_true, if_false] at h
      leaf b h
  | .data t bs, b, _, h => by
    obtain ⟨hd, ⟨ha, hb, ht⟩ | ⟨ha, hb⟩⟩ := cmpConst_zero h
    · rw [normConst_null p ha, normConst_null p hb, (cmpTypes_eq p _ _).1 ht]
    · rw [cmpConst] at h
      simp only [hd, ha, hb, Bool.and_false, Bool.false_eq_true, if_false] at h
      leaf b h
  | .aggr _ _ _, .int _ _, _, h | .aggr _ _ _, .fp _ _, _, h | .aggr _ _ _, .null _, _, h
  | .aggr _ _ _, .undef _, _, h | .aggr _ _ _, .poison _, _, h | .aggr _ _ _, .global _, _, h
  | .aggr _ _ _, .data _ _, _, h | .aggr _ _ _, .expr _ _ _, _, h => by
    obtain ⟨hd, ⟨ha, hb, ht⟩ | ⟨ha, hb⟩⟩ := cmpConst_zero h
    · exact absurd ha (by simp [Const.isNull])
    · rw [cmpConst] at h
      simp only [hd, ha, hb, Bool.and_false, Bool.false_eq_true, if_false] at h
      revert h
      simp only [valueId, cmpNum_eq]
      (try split) <;> omega
theorem cmpConstList_norm (p : Nat) : ∀ as bs : List Const, as.length = bs.length → NoExprs as →
    cmpConstList p as bs = 0 → normConsts p as = normConsts p bs
  | [], [], _, _, _ => rfl
  | a :: as, b :: bs, hl, hn, h => by
    rw [cmpConstList, thenCmp_eq] at h
    rw [NoExprs] at hn
    rw [normConsts, normConsts, cmpConst_norm p a b hn.1 h.1,
      cmpConstList_norm p as bs (by simpa using hl) hn.2 h.2]
end

mutual
theorem cmpConst_refl (p : Nat) : ∀ a : Const, cmpConst p a a = 0
  | .int w v => by
    rw [cmpConst]; simp [typesDecide, cmpTypes_refl, cmpAPInt]
    intro h; simp [h, thenCmp_eq, cmpNum_eq]
  | .fp w v => by
    rw [cmpConst]; simp [typesDecide, cmpTypes_refl]
    intro h; simp [h, thenCmp_eq, cmpNum_eq]
  | .null t => by rw [cmpConst]; simp [typesDecide, cmpTypes_refl, Const.isNull]
  | .undef t => by rw [cmpConst]; simp [typesDecide, cmpTypes_refl, Const.isNull]
  | .poison t => by rw [cmpConst]; simp [typesDecide, cmpTypes_refl, Const.isNull]
  | .global g => by rw [cmpConst]; simp [typesDecide, cmpTypes_refl, Const.isNull, cmpNum_eq]
  | .data t bs => by
    rw [cmpConst]; simp [typesDecide, cmpTypes_refl, Const.isNull, cmpNum_eq, cmpNums_eq, thenCmp_eq]
  | .aggr k t es => by
    rw [cmpConst]
    simp [typesDecide, cmpTypes_refl, Const.isNull, cmpNum_eq, thenCmp_eq, cmpConstList_refl p es]
  | .expr o t es => by
    rw [cmpConst]
    simp [typesDecide, cmpTypes_refl, Const.isNull, cmpNum_eq, thenCmp_eq, cmpConstList_refl p es]
theorem cmpConstList_refl (p : Nat) : ∀ as : List Const, cmpConstList p as as = 0
  | [] => rfl
  | a :: as => by rw [cmpConstList, thenCmp_eq]; exact ⟨cmpConst_refl p a, cmpConstList_refl p as⟩
end

theorem cmpAsm_eq {p : Nat} {a b : Asm} : cmpAsm p a b = 0 ↔ normAsm p a = normAsm p b := by
  unfold cmpAsm normAsm
  simp only [thenCmp_eq, cmpTypes_eq, cmpMem_eq, cmpNum_eq, toNat_inj, Asm.mk.injEq]

theorem cmpAttr_eq {p : Nat} {a b : Attr} : cmpAttr p a b = 0 ↔ normAttr p a = normAttr p b := by
  cases a with
  | num k v =>
    cases b with
    | num k' v' => simp [cmpAttr, normAttr, thenCmp_eq, cmpNum_eq]
    | ty k' t' => simp [cmpAttr, normAttr]
  | ty k t =>
    cases b with
    | num k' v' => simp [cmpAttr, normAttr]
    | ty k' t' =>
      cases t <;> cases t' <;> simp [cmpAttr, normAttr, thenCmp_eq, cmpNum_eq, cmpTypes_eq]

theorem cmpAttrSet_eq {p : Nat} : ∀ {a b : List Attr}, cmpAttrSet p a b = 0 ↔
    a.map (normAttr p) = b.map (normAttr p)
  | [], [] => by simp [cmpAttrSet]
  | a :: as, [] => by simp [cmpAttrSet]
  | [], b :: bs => by simp [cmpAttrSet]
  | a :: as, b :: bs => by
    simp [cmpAttrSet, thenCmp_eq, cmpAttr_eq, cmpAttrSet_eq (a := as) (b := bs)]

theorem cmpAttrSets_eq {p : Nat} : ∀ {a b : List (List Attr)}, a.length = b.length →
    (cmpAttrSets p a b = 0 ↔ a.map (·.map (normAttr p)) = b.map (·.map (normAttr p)))
  | [], [], _ => by simp [cmpAttrSets]
  | a :: as, b :: bs, h => by
    simp [cmpAttrSets, thenCmp_eq, cmpAttrSet_eq, cmpAttrSets_eq (a := as) (b := bs) (by simpa using h)]

theorem cmpAttrs_eq {p : Nat} {a b : List (List Attr)} : cmpAttrs p a b = 0 ↔
    a.map (·.map (normAttr p)) = b.map (·.map (normAttr p)) := by
  unfold cmpAttrs
  rw [thenCmp_eq, cmpNum_eq]
  constructor
  · rintro ⟨h1, h2⟩; exact (cmpAttrSets_eq h1).1 h2
  · intro h
    have hl : a.length = b.length := by simpa using congrArg List.length h
    exact ⟨hl, (cmpAttrSets_eq hl).2 h⟩

theorem cmpAPInts_eq : ∀ {a b : List (Nat × Nat)}, a.length = b.length → (cmpAPInts a b = 0 ↔ a = b)
  | [], [], _ => by simp [cmpAPInts]
  | a :: as, b :: bs, h => by
    obtain ⟨a1, a2⟩ := a
    obtain ⟨b1, b2⟩ := b
    simp [cmpAPInts, cmpAPInt, thenCmp_eq, cmpNum_eq, cmpAPInts_eq (a := as) (b := bs) (by simpa using h)]

theorem cmpRange_eq {a b : Option (List (Nat × Nat))} : cmpRange a b = 0 ↔ a = b := by
  cases a <;> cases b <;> simp [cmpRange]
  rename_i a b
  rw [thenCmp_eq, cmpNum_eq]
  constructor
  · rintro ⟨h1, h2⟩; exact (cmpAPInts_eq h1).1 h2
  · rintro rfl; exact ⟨rfl, (cmpAPInts_eq rfl).2 rfl⟩

theorem cmpBundleList_eq : ∀ {a b : List (Str × Nat)}, a.length = b.length →
    (cmpBundleList a b = 0 ↔ a = b)
  | [], [], _ => by simp [cmpBundleList]
  | a :: as, b :: bs, h => by
    obtain ⟨a1, a2⟩ := a
    obtain ⟨b1, b2⟩ := b
    simp [cmpBundleList, thenCmp_eq, cmpNum_eq, cmpMem_eq, and_assoc,
      cmpBundleList_eq (a := as) (b := bs) (by simpa using h)]

theorem cmpBundles_eq {a b : List (Str × Nat)} : cmpBundles a b = 0 ↔ a = b := by
  unfold cmpBundles
  rw [thenCmp_eq, cmpNum_eq]
  constructor
  · rintro ⟨h1, h2⟩; exact (cmpBundleList_eq h1).1 h2
  · rintro rfl; exact ⟨rfl, (cmpBundleList_eq rfl).2 rfl⟩

theorem cmpOptName_eq {a b : Option Str} : cmpOptName a b = 0 ↔ a = b := by
  cases a <;> cases b <;> simp [cmpOptName, cmpMem_eq]

theorem cmpOpTypes_eq {p : Nat} : ∀ {a b : List (Opnd × Ty)}, a.length = b.length →
    (cmpOpTypes p a b = 0 ↔ a.map (fun o => normTy p o.2) = b.map (fun o => normTy p o.2))
  | [], [], _ => by simp [cmpOpTypes]
  | a :: as, b :: bs, h => by
    simp [cmpOpTypes, thenCmp_eq, cmpTypes_eq, cmpOpTypes_eq (a := as) (b := bs) (by simpa using h)]

end DK
