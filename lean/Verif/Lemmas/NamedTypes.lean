import Verif.Lemmas.FunCmp
import Verif.Spec.NamedTypes

/-! Comparisons of types with names (for C126, C127, C128). -/

set_option autoImplicit false

namespace DK
open Spec

mutual
theorem cmpNamed_refl (c : TyPats) (sl sr : NTy → Nat) (p : Nat) :
    ∀ t : NTy, cmpNamed c sl sr p t t = 0
  | .int w => by
    rw [cmpNamed.eq_def]; split
    · rfl
    · simp [cmpNum_refl]
  | .ptr s => by
    rw [cmpNamed.eq_def]; split
    · rfl
    · simp [cmpNum_refl, thenCmp]
  | .prim s => by
    rw [cmpNamed.eq_def]; split
    · rfl
    · simp [cmpNum_refl, thenCmp]
  | .struct n k es => by
    rw [cmpNamed.eq_def]; split
    · rfl
    · simp [cmpNum_refl, thenCmp, cmpNamedList_refl c sl sr p es]
  | .func t ps v => by
    rw [cmpNamed.eq_def]; split
    · rfl
    · simp [cmpNum_refl, thenCmp, cmpNamed_refl c sl sr p t, cmpNamedList_refl c sl sr p ps]
  | .array n e => by
    rw [cmpNamed.eq_def]; split
    · rfl
    · simp [cmpNum_refl, thenCmp, cmpNamed_refl c sl sr p e]
  | .vec s n e => by
    rw [cmpNamed.eq_def]; split
    · rfl
    · simp [cmpNum_refl, thenCmp, cmpNamed_refl c sl sr p e]
theorem cmpNamedList_refl (c : TyPats) (sl sr : NTy → Nat) (p : Nat) :
    ∀ ts : List NTy, cmpNamedList c sl sr p ts ts = 0
  | [] => by rw [cmpNamedList]; simp
  | t :: ts => by
    rw [cmpNamedList]; simp [thenCmp, cmpNamed_refl c sl sr p t, cmpNamedList_refl c sl sr p ts]
end

theorem unionRule_none {sl sr : NTy → Nat} {l r : NTy} (hl : noUnions l = true)
    (hr : noUnions r = true) : unionRule sl sr l r = false := by
  cases l <;> cases r <;>
    simp_all [unionRule, NTy.isStruct, NTy.isUnion, noUnions]

/-- The patterns cannot use the rule for unions. -/
def NoUnionRule (c : TyPats) (l : NTy) : Prop := c.structAlign = false ∨ noUnions l = true

def NoUnionRules (c : TyPats) (l : List NTy) : Prop := c.structAlign = false ∨ noUnionsList l = true

theorem NoUnionRule.rule {c : TyPats} {sl sr : NTy → Nat} {l r : NTy} (hl : NoUnionRule c l)
    (hr : NoUnionRule c r) : (c.structAlign && unionRule sl sr l r) = false := by
  rcases hl with h | hl
  · simp [h]
  · rcases hr with h | hr
    · simp [h]
    · simp [unionRule_none hl hr]

theorem NoUnionRule.struct {c : TyPats} {n k es} (h : NoUnionRule c (.struct n k es)) : NoUnionRules c es := by
  rcases h with h | h
  · exact .inl h
  · simp [noUnions] at h; exact .inr h.2

theorem NoUnionRule.func {c : TyPats} {t ps v} (h : NoUnionRule c (.func t ps v)) :
    NoUnionRule c t ∧ NoUnionRules c ps := by
  rcases h with h | h
  · exact ⟨.inl h, .inl h⟩
  · simp [noUnions] at h; exact ⟨.inr h.1, .inr h.2⟩

theorem NoUnionRule.array {c : TyPats} {n e} (h : NoUnionRule c (.array n e)) : NoUnionRule c e := by
  rcases h with h | h
  · exact .inl h
  · exact .inr (by simpa [noUnions] using h)

theorem NoUnionRule.vec {c : TyPats} {s n e} (h : NoUnionRule c (.vec s n e)) : NoUnionRule c e := by
  rcases h with h | h
  · exact .inl h
  · exact .inr (by simpa [noUnions] using h)

theorem NoUnionRules.cons {c : TyPats} {t ts} (h : NoUnionRules c (t :: ts)) :
    NoUnionRule c t ∧ NoUnionRules c ts := by
  rcases h with h | h
  · exact ⟨.inl h, .inl h⟩
  · simp [noUnionsList] at h; exact ⟨.inr h.1, .inr h.2⟩

/-- What remains of the comparison without the rule for unions. -/
def cmpNamedBody (c : TyPats) (sl sr : NTy → Nat) (p : Nat) : NTy → NTy → Int
  | .int w, .int w' =>
    if c.casts then
      if w = 1 ∨ w' = 1 then (if w = w' then 0 else 1) else 0
    else cmpNum w w'
  | .struct _ k es, .struct _ k' es' =>
    thenCmp (cmpNum es.length es'.length)
      (thenCmp (cmpNum k.toNat k'.toNat) (cmpNamedList c sl sr p es es'))
  | .func t ps v, .func t' ps' v' =>
    thenCmp (cmpNum ps.length ps'.length) (thenCmp (cmpNum v.toNat v'.toNat)
      (thenCmp (cmpNamed c sl sr p t t') (cmpNamedList c sl sr p ps ps')))
  | .array n e, .array n' e' =>
    if c.casts then cmpNamed c sl sr p e e'
    else thenCmp (cmpNum n n') (cmpNamed c sl sr p e e')
  | .vec s n e, .vec s' n' e' =>
    thenCmp (cmpNum s.toNat s'.toNat) (thenCmp (cmpNum n n') (cmpNamed c sl sr p e e'))
  | l, r => thenCmp (cmpNum l.kind r.kind) (cmpNum (l.num p) (r.num p))

theorem NoUnionRule.body {c : TyPats} {sl sr : NTy → Nat} {p : Nat} {l r : NTy} (hl : NoUnionRule c l)
    (hr : NoUnionRule c r) : cmpNamed c sl sr p l r = cmpNamedBody c sl sr p l r := by
  rw [cmpNamed.eq_def]
  simp only [hl.rule hr, Bool.false_eq_true, if_false]
  cases l <;> cases r <;> rfl

mutual
theorem cmpNamed_symm (c : TyPats) (sl sr : NTy → Nat) (p : Nat) : ∀ l r : NTy,
    NoUnionRule c l → NoUnionRule c r → cmpNamed c sl sr p l r = 0 → cmpNamed c sr sl p r l = 0
  | .int w, .int w', hl, hr, h => by
    rw [hl.body hr] at h; rw [hr.body hl]
    simp only [cmpNamedBody] at h ⊢
    split at h
    · rename_i hc
      simp only [hc, if_true]
      split at h
      · rename_i hw
        split at h
        · rename_i he; simp [he]
        · exact absurd h (by decide)
      · rename_i hw
        rw [if_neg (by omega)]
    · rename_i hc
      simp only [hc, Bool.false_eq_true, if_false]
      rw [cmpNum_eq] at h ⊢; exact h.symm
  | .struct n k es, .struct n' k' es', hl, hr, h => by
    rw [hl.body hr] at h; rw [hr.body hl]
    simp only [cmpNamedBody, thenCmp_eq, cmpNum_eq] at h ⊢
    exact ⟨h.1.symm, h.2.1.symm, cmpNamedList_symm c sl sr p es es' hl.struct hr.struct h.2.2⟩
  | .func t ps v, .func t' ps' v', hl, hr, h => by
    rw [hl.body hr] at h; rw [hr.body hl]
    simp only [cmpNamedBody, thenCmp_eq, cmpNum_eq] at h ⊢
    exact ⟨h.1.symm, h.2.1.symm, cmpNamed_symm c sl sr p t t' hl.func.1 hr.func.1 h.2.2.1,
      cmpNamedList_symm c sl sr p ps ps' hl.func.2 hr.func.2 h.2.2.2⟩
  | .array n e, .array n' e', hl, hr, h => by
    rw [hl.body hr] at h; rw [hr.body hl]
    simp only [cmpNamedBody] at h ⊢
    split at h
    · rename_i hc
      simp only [hc, if_true]
      exact cmpNamed_symm c sl sr p e e' hl.array hr.array h
    · rename_i hc
      simp only [hc, Bool.false_eq_true, if_false]
      rw [thenCmp_eq, cmpNum_eq] at h ⊢
      exact ⟨h.1.symm, cmpNamed_symm c sl sr p e e' hl.array hr.array h.2⟩
  | .vec s n e, .vec s' n' e', hl, hr, h => by
    rw [hl.body hr] at h; rw [hr.body hl]
    simp only [cmpNamedBody, thenCmp_eq, cmpNum_eq] at h ⊢
    exact ⟨h.1.symm, h.2.1.symm, cmpNamed_symm c sl sr p e e' hl.vec hr.vec h.2.2⟩
  | .int _, .ptr _, hl, hr, h
  | .int _, .prim _, hl, hr, h
  | .int _, .struct _ _ _, hl, hr, h
  | .int _, .func _ _ _, hl, hr, h
  | .int _, .array _ _, hl, hr, h
  | .int _, .vec _ _ _, hl, hr, h
  | .ptr _, .int _, hl, hr, h
  | .ptr _, .ptr _, hl, hr, h
  | .ptr _, .prim _, hl, hr, h
  | .ptr _, .struct _ _ _, hl, hr, h
  | .ptr _, .func _ _ _, hl, hr, h
  | .ptr _, .array _ _, hl, hr, h
  | .ptr _, .vec _ _ _, hl, hr, h
  | .prim _, .int _, hl, hr, h
  | .prim _, .ptr _, hl, hr, h
  | .prim _, .prim _, hl, hr, h
  | .prim _, .struct _ _ _, hl, hr, h
  | .prim _, .func _ _ _, hl, hr, h
  | .prim _, .array _ _, hl, hr, h
  | .prim _, .vec _ _ _, hl, hr, h
  | .struct _ _ _, .int _, hl, hr, h
  | .struct _ _ _, .ptr _, hl, hr, h
  | .struct _ _ _, .prim _, hl, hr, h
  | .struct _ _ _, .func _ _ _, hl, hr, h
  | .struct _ _ _, .array _ _, hl, hr, h
  | .struct _ _ _, .vec _ _ _, hl, hr, h
  | .func _ _ _, .int _, hl, hr, h
  | .func _ _ _, .ptr _, hl, hr, h
  | .func _ _ _, .prim _, hl, hr, h
  | .func _ _ _, .struct _ _ _, hl, hr, h
  | .func _ _ _, .array _ _, hl, hr, h
  | .func _ _ _, .vec _ _ _, hl, hr, h
  | .array _ _, .int _, hl, hr, h
  | .array _ _, .ptr _, hl, hr, h
  | .array _ _, .prim _, hl, hr, h
  | .array _ _, .struct _ _ _, hl, hr, h
  | .array _ _, .func _ _ _, hl, hr, h
  | .array _ _, .vec _ _ _, hl, hr, h
  | .vec _ _ _, .int _, hl, hr, h
  | .vec _ _ _, .ptr _, hl, hr, h
  | .vec _ _ _, .prim _, hl, hr, h
  | .vec _ _ _, .struct _ _ _, hl, hr, h
  | .vec _ _ _, .func _ _ _, hl, hr, h
  | .vec _ _ _, .array _ _, hl, hr, h => by
    rw [hl.body hr] at h; rw [hr.body hl]
    simp only [cmpNamedBody, thenCmp_eq, cmpNum_eq] at h ⊢
    exact ⟨h.1.symm, h.2.symm⟩
theorem cmpNamedList_symm (c : TyPats) (sl sr : NTy → Nat) (p : Nat) : ∀ l r : List NTy,
    NoUnionRules c l → NoUnionRules c r → cmpNamedList c sl sr p l r = 0 →
    cmpNamedList c sr sl p r l = 0
  | [], [], _, _, _ => by rw [cmpNamedList]; simp
  | [], b :: bs, _, _, _ => by rw [cmpNamedList]; simp
  | a :: as, [], _, _, _ => by rw [cmpNamedList]; simp
  | a :: as, b :: bs, hl, hr, h => by
    rw [cmpNamedList, thenCmp_eq] at h ⊢
    exact ⟨cmpNamed_symm c sl sr p a b hl.cons.1 hr.cons.1 h.1,
      cmpNamedList_symm c sl sr p as bs hl.cons.2 hr.cons.2 h.2⟩
end

mutual
/-- The type without names, as the basic comparator sees it. -/
def NTy.erase : NTy → Ty
  | .int w => .int w
  | .ptr s => .ptr s
  | .prim id => .prim id
  | .struct _ k es => .struct k (eraseList es)
  | .func t ps v => .func t.erase (eraseList ps) v
  | .array n e => .array n e.erase
  | .vec s n e => .vec s n e.erase
def eraseList : List NTy → List Ty
  | [] => []
  | t :: ts => t.erase :: eraseList ts
end

theorem eraseList_length : ∀ ts : List NTy, (eraseList ts).length = ts.length
  | [] => rfl
  | t :: ts => by rw [eraseList, List.length_cons, List.length_cons, eraseList_length ts]

mutual
theorem cmpNamed_erase {c : TyPats} (hc : c.casts = false) (sl sr : NTy → Nat) (p : Nat) :
    ∀ l r : NTy, NoUnionRule c l → NoUnionRule c r →
      cmpNamed c sl sr p l r = cmpTypes p l.erase r.erase
  | .int w, .int w', hl, hr => by
    rw [hl.body hr]; simp [cmpNamedBody, NTy.erase, cmpTypes, hc, tyId, tyNum, thenCmp, cmpNum_refl]
  | .struct n k es, .struct n' k' es', hl, hr => by
    rw [hl.body hr]
    simp [cmpNamedBody, NTy.erase, cmpTypes, eraseList_length,
      cmpNamedList_erase hc sl sr p es es' hl.struct hr.struct]
  | .func t ps v, .func t' ps' v', hl, hr => by
    rw [hl.body hr]
    simp [cmpNamedBody, NTy.erase, cmpTypes, eraseList_length,
      cmpNamed_erase hc sl sr p t t' hl.func.1 hr.func.1,
      cmpNamedList_erase hc sl sr p ps ps' hl.func.2 hr.func.2]
  | .array n e, .array n' e', hl, hr => by
    rw [hl.body hr]
    simp [cmpNamedBody, NTy.erase, cmpTypes, hc, cmpNamed_erase hc sl sr p e e' hl.array hr.array]
  | .vec s n e, .vec s' n' e', hl, hr => by
    rw [hl.body hr]
    simp [cmpNamedBody, NTy.erase, cmpTypes, cmpNamed_erase hc sl sr p e e' hl.vec hr.vec]
  | .int _, .ptr _, hl, hr
  | .int _, .prim _, hl, hr
  | .int _, .struct _ _ _, hl, hr
  | .int _, .func _ _ _, hl, hr
  | .int _, .array _ _, hl, hr
  | .int _, .vec _ _ _, hl, hr
  | .ptr _, .int _, hl, hr
  | .ptr _, .ptr _, hl, hr
  | .ptr _, .prim _, hl, hr
  | .ptr _, .struct _ _ _, hl, hr
  | .ptr _, .func _ _ _, hl, hr
  | .ptr _, .array _ _, hl, hr
  | .ptr _, .vec _ _ _, hl, hr
  | .prim _, .int _, hl, hr
  | .prim _, .ptr _, hl, hr
  | .prim _, .prim _, hl, hr
  | .prim _, .struct _ _ _, hl, hr
  | .prim _, .func _ _ _, hl, hr
  | .prim _, .array _ _, hl, hr
  | .prim _, .vec _ _ _, hl, hr
  | .struct _ _ _, .int _, hl, hr
  | .struct _ _ _, .ptr _, hl, hr
  | .struct _ _ _, .prim _, hl, hr
  | .struct _ _ _, .func _ _ _, hl, hr
  | .struct _ _ _, .array _ _, hl, hr
  | .struct _ _ _, .vec _ _ _, hl, hr
  | .func _ _ _, .int _, hl, hr
  | .func _ _ _, .ptr _, hl, hr
  | .func _ _ _, .prim _, hl, hr
  | .func _ _ _, .struct _ _ _, hl, hr
  | .func _ _ _, .array _ _, hl, hr
  | .func _ _ _, .vec _ _ _, hl, hr
  | .array _ _, .int _, hl, hr
  | .array _ _, .ptr _, hl, hr
  | .array _ _, .prim _, hl, hr
  | .array _ _, .struct _ _ _, hl, hr
  | .array _ _, .func _ _ _, hl, hr
  | .array _ _, .vec _ _ _, hl, hr
  | .vec _ _ _, .int _, hl, hr
  | .vec _ _ _, .ptr _, hl, hr
  | .vec _ _ _, .prim _, hl, hr
  | .vec _ _ _, .struct _ _ _, hl, hr
  | .vec _ _ _, .func _ _ _, hl, hr
  | .vec _ _ _, .array _ _, hl, hr => by
    rw [hl.body hr]
    simp [cmpNamedBody, NTy.erase, cmpTypes, NTy.kind, NTy.num, tyId, tyNum]
theorem cmpNamedList_erase {c : TyPats} (hc : c.casts = false) (sl sr : NTy → Nat) (p : Nat) :
    ∀ l r : List NTy, NoUnionRules c l → NoUnionRules c r →
      cmpNamedList c sl sr p l r = cmpTypeList p (eraseList l) (eraseList r)
  | [], [], _, _ => by simp [cmpNamedList, eraseList, cmpTypeList]
  | [], b :: bs, _, _ => by simp [cmpNamedList, eraseList, cmpTypeList]
  | a :: as, [], _, _ => by simp [cmpNamedList, eraseList, cmpTypeList]
  | a :: as, b :: bs, hl, hr => by
    rw [cmpNamedList, eraseList, eraseList, cmpTypeList,
      cmpNamed_erase hc sl sr p a b hl.cons.1 hr.cons.1,
      cmpNamedList_erase hc sl sr p as bs hl.cons.2 hr.cons.2]
end

theorem cmpNamed_trans {c : TyPats} (hc : c.casts = false) (s1 s2 s3 : NTy → Nat) (p : Nat)
    {a b d : NTy} (ha : NoUnionRule c a) (hb : NoUnionRule c b) (hd : NoUnionRule c d)
    (h1 : cmpNamed c s1 s2 p a b = 0) (h2 : cmpNamed c s2 s3 p b d = 0) :
    cmpNamed c s1 s3 p a d = 0 := by
  rw [cmpNamed_erase hc _ _ _ _ _ ha hb, cmpTypes_eq] at h1
  rw [cmpNamed_erase hc _ _ _ _ _ hb hd, cmpTypes_eq] at h2
  rw [cmpNamed_erase hc _ _ _ _ _ ha hd, cmpTypes_eq, h1, h2]

theorem layOfList_length (D : DataLay) : ∀ ts : List NTy, (layOfList D ts).length = ts.length
  | [] => rfl
  | t :: ts => by rw [layOfList, List.length_cons, List.length_cons, layOfList_length D ts]

mutual
theorem cmpNamed_layout {c : TyPats} (hc : c.casts = false) (D : DataLay) (sl sr : NTy → Nat)
    (p : Nat) (hp : D.ptr 0 = D.int p) : ∀ l r : NTy, NoUnionRule c l → NoUnionRule c r →
      cmpNamed c sl sr p l r = 0 → layOf D l = layOf D r
  | .int w, .int w', hl, hr, h => by
    rw [hl.body hr] at h
    simp [cmpNamedBody, hc, cmpNum_eq] at h
    rw [h]
  | .struct n k es, .struct n' k' es', hl, hr, h => by
    rw [hl.body hr] at h
    simp only [cmpNamedBody, thenCmp_eq, cmpNum_eq, toNat_inj] at h
    rw [layOf, layOf, h.2.1,
      cmpNamedList_layout hc D sl sr p hp es es' h.1 hl.struct hr.struct h.2.2]
  | .func t ps v, .func t' ps' v', hl, hr, h => rfl
  | .array n e, .array n' e', hl, hr, h => by
    rw [hl.body hr] at h
    simp [cmpNamedBody, hc, thenCmp_eq, cmpNum_eq] at h
    rw [layOf, layOf, h.1, cmpNamed_layout hc D sl sr p hp e e' hl.array hr.array h.2]
  | .vec s n e, .vec s' n' e', hl, hr, h => by
    rw [hl.body hr] at h
    simp only [cmpNamedBody, thenCmp_eq, cmpNum_eq, toNat_inj] at h
    rw [layOf, layOf, h.1, h.2.1, cmpNamed_layout hc D sl sr p hp e e' hl.vec hr.vec h.2.2]
  | .int _, .ptr _, hl, hr, h
  | .int _, .prim _, hl, hr, h
  | .int _, .struct _ _ _, hl, hr, h
  | .int _, .func _ _ _, hl, hr, h
  | .int _, .array _ _, hl, hr, h
  | .int _, .vec _ _ _, hl, hr, h
  | .ptr _, .int _, hl, hr, h
  | .ptr _, .ptr _, hl, hr, h
  | .ptr _, .prim _, hl, hr, h
  | .ptr _, .struct _ _ _, hl, hr, h
  | .ptr _, .func _ _ _, hl, hr, h
  | .ptr _, .array _ _, hl, hr, h
  | .ptr _, .vec _ _ _, hl, hr, h
  | .prim _, .int _, hl, hr, h
  | .prim _, .ptr _, hl, hr, h
  | .prim _, .prim _, hl, hr, h
  | .prim _, .struct _ _ _, hl, hr, h
  | .prim _, .func _ _ _, hl, hr, h
  | .prim _, .array _ _, hl, hr, h
  | .prim _, .vec _ _ _, hl, hr, h
  | .struct _ _ _, .int _, hl, hr, h
  | .struct _ _ _, .ptr _, hl, hr, h
  | .struct _ _ _, .prim _, hl, hr, h
  | .struct _ _ _, .func _ _ _, hl, hr, h
  | .struct _ _ _, .array _ _, hl, hr, h
  | .struct _ _ _, .vec _ _ _, hl, hr, h
  | .func _ _ _, .int _, hl, hr, h
  | .func _ _ _, .ptr _, hl, hr, h
  | .func _ _ _, .prim _, hl, hr, h
  | .func _ _ _, .struct _ _ _, hl, hr, h
  | .func _ _ _, .array _ _, hl, hr, h
  | .func _ _ _, .vec _ _ _, hl, hr, h
  | .array _ _, .int _, hl, hr, h
  | .array _ _, .ptr _, hl, hr, h
  | .array _ _, .prim _, hl, hr, h
  | .array _ _, .struct _ _ _, hl, hr, h
  | .array _ _, .func _ _ _, hl, hr, h
  | .array _ _, .vec _ _ _, hl, hr, h
  | .vec _ _ _, .int _, hl, hr, h
  | .vec _ _ _, .ptr _, hl, hr, h
  | .vec _ _ _, .prim _, hl, hr, h
  | .vec _ _ _, .struct _ _ _, hl, hr, h
  | .vec _ _ _, .func _ _ _, hl, hr, h
  | .vec _ _ _, .array _ _, hl, hr, h => by
    rw [hl.body hr] at h
    simp only [cmpNamedBody, thenCmp_eq, cmpNum_eq, NTy.kind, NTy.num] at h
    first
      | (exfalso; split_ifs at h <;> omega)
      | (exfalso; omega)
      | (simp only [layOf]; split_ifs at h <;> simp_all)
      | (simp only [layOf]; rw [Fin.ext h.1])
theorem cmpNamedList_layout {c : TyPats} (hc : c.casts = false) (D : DataLay)
    (sl sr : NTy → Nat) (p : Nat) (hp : D.ptr 0 = D.int p) : ∀ l r : List NTy,
      l.length = r.length → NoUnionRules c l → NoUnionRules c r →
      cmpNamedList c sl sr p l r = 0 → layOfList D l = layOfList D r
  | [], [], _, _, _, _ => rfl
  | a :: as, b :: bs, he, hl, hr, h => by
    rw [cmpNamedList, thenCmp_eq] at h
    rw [layOfList, layOfList, cmpNamed_layout hc D sl sr p hp a b hl.cons.1 hr.cons.1 h.1,
      cmpNamedList_layout hc D sl sr p hp as bs (by simpa using he) hl.cons.2 hr.cons.2 h.2]
end

end DK
