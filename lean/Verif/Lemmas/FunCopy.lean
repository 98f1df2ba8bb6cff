import Verif.Lemmas.FunSim2
import Verif.Spec.FunCmp

/-! Comparison of a function with a copy of it (for C44). -/

set_option autoImplicit false

namespace DK
open Spec

section
variable {σ τ : Nat → Nat} (hσ : Function.Injective σ) (hτ : Function.Injective τ)

/-- The serial numbers of a function and of its copy. -/
def copySt (σ τ : Nat → Nat) (l : List Key) : CmpSt := ⟨l, l.map (renameKey σ τ)⟩

include hσ hτ in
theorem renameKey_inj : Function.Injective (renameKey σ τ) := by
  intro a b h
  cases a <;> cases b <;> simp [renameKey] at h
  · rw [hσ h]
  · rw [hτ h]

theorem idxOf_map {ρ : Key → Key} (hρ : Function.Injective ρ) (k : Key) : ∀ l : List Key,
    (l.map ρ).idxOf (ρ k) = l.idxOf k
  | [] => rfl
  | a :: l => by
    rw [List.map_cons, List.idxOf_cons, List.idxOf_cons, idxOf_map hρ k l]
    by_cases h : a = k
    · subst h; simp
    · have : ρ a ≠ ρ k := fun h' => h (hρ h')
      have e1 : (ρ a == ρ k) = false := by simpa using this
      have e2 : (a == k) = false := by simpa using h
      rw [e1, e2]

theorem insertKey_map {ρ : Key → Key} (hρ : Function.Injective ρ) (k : Key) (l : List Key) :
    insertKey (ρ k) (l.map ρ) = (insertKey k l).map ρ := by
  unfold insertKey
  by_cases h : k ∈ l
  · rw [if_pos h, if_pos (List.mem_map_of_mem h)]
  · have : ρ k ∉ l.map ρ := by
      intro h'
      obtain ⟨a, ha, he⟩ := List.mem_map.1 h'
      exact h (hρ he ▸ ha)
    rw [if_neg h, if_neg this, List.map_append]; rfl

/-- A comparison that finds no difference and keeps the serial numbers in step. -/
def Same (σ τ : Nat → Nat) (x : Int × CmpSt) : Prop := ∃ l, x = (0, copySt σ τ l)

theorem Same.andThen {x : Int × CmpSt} {k : CmpSt → Int × CmpSt} (hx : Same σ τ x)
    (hk : ∀ l, Same σ τ (k (copySt σ τ l))) : Same σ τ (andThen x k) := by
  obtain ⟨l, rfl⟩ := hx
  exact hk l

include hσ hτ in
theorem cmpKeys_same (k : Key) (l : List Key) :
    Same σ τ (cmpKeys k (renameKey σ τ k) (copySt σ τ l)) := by
  have hρ := renameKey_inj hσ hτ
  refine ⟨insertKey k l, ?_⟩
  unfold cmpKeys copySt
  simp only
  rw [insertKey_map hρ, idxOf_map hρ, cmpNum_refl]

include hσ hτ in
theorem cmpValues_same (p : Nat) (o : Opnd) (l : List Key) :
    Same σ τ (cmpValues p o (renameOpnd σ τ o) (copySt σ τ l)) := by
  cases o with
  | const c => exact ⟨l, by simp [renameOpnd, cmpValues, cmpConst_refl]⟩
  | asm a => exact ⟨l, by simp [renameOpnd, cmpValues, cmpAsm_eq.2 rfl]⟩
  | self => exact ⟨l, rfl⟩
  | ref k => cases k with
    | val v => exact cmpKeys_same hσ hτ (.val v) l
    | blk b => exact cmpKeys_same hσ hτ (.blk b) l

/-- Renamed operands. -/
def renameOps (σ τ : Nat → Nat) (ops : List (Opnd × Ty)) : List (Opnd × Ty) :=
  ops.map fun o => (renameOpnd σ τ o.1, o.2)

include hσ hτ in
theorem cmpOperands_same (p : Nat) : ∀ (ops : List (Opnd × Ty)) (l : List Key),
    Same σ τ (cmpOperands p ops (renameOps σ τ ops) (copySt σ τ l))
  | [], l => ⟨l, rfl⟩
  | o :: os, l => Same.andThen (cmpValues_same hσ hτ p o.1 l) (cmpOperands_same p os)

include hσ hτ in
theorem cmpIncoming_same : ∀ (bs : List Nat) (l : List Key),
    Same σ τ (cmpIncoming bs (bs.map τ) (copySt σ τ l))
  | [], l => ⟨l, rfl⟩
  | b :: bs, l => Same.andThen (cmpKeys_same hσ hτ (.blk b) l) (cmpIncoming_same bs)

include hσ hτ in
theorem cmpArgs_same : ∀ (as : List (Nat × Ty)) (l : List Key),
    Same σ τ (cmpArgs as (as.map fun a => (σ a.1, a.2)) (copySt σ τ l))
  | [], l => ⟨l, rfl⟩
  | a :: as, l => Same.andThen (cmpKeys_same hσ hτ (.val a.1) l) (cmpArgs_same as)

include hσ hτ in
theorem cmpSpecial_same (p : Nat) (s : Special) (hs : ∀ t, s ≠ .gep t) (l : List Key) :
    Same σ τ (cmpSpecial p s (renameSpecial τ s) (copySt σ τ l)) := by
  cases s with
  | phi bs => exact cmpIncoming_same hσ hτ bs l
  | gep t => exact absurd rfl (hs t)
  | _ =>
    refine ⟨l, ?_⟩
    simp only [renameSpecial, cmpSpecial]
    all_goals
      refine Prod.ext ?_ rfl
      simp only [thenCmp_eq, cmpNum_refl, cmpTypes_refl, cmpRange_eq, cmpAttrs_eq, cmpBundles_eq,
        cmpNums_eq, and_self]

theorem renameOps_length (ops : List (Opnd × Ty)) : (renameOps σ τ ops).length = ops.length := by
  simp [renameOps]

theorem cmpOpTypes_same (p : Nat) (ops : List (Opnd × Ty)) : cmpOpTypes p ops (renameOps σ τ ops) = 0 := by
  rw [cmpOpTypes_eq (renameOps_length ops).symm]
  simp [renameOps]

theorem constOps_same : ∀ ops : List (Opnd × Ty), constOps (renameOps σ τ ops) = constOps ops
  | [] => rfl
  | (.const c, t) :: os => by
    show constOps ((.const c, t) :: renameOps σ τ os) = _
    rw [constOps, constOps, constOps_same os]
  | (.ref k, t) :: os => by cases k <;> rfl
  | (.asm a, t) :: os => rfl
  | (.self, t) :: os => rfl

theorem gepOffset_same (lay : Layout) (src : Ty) (ops : List (Opnd × Ty)) :
    gepOffset lay src (renameOps σ τ ops) = gepOffset lay src ops := by
  unfold gepOffset
  have : (renameOps σ τ ops).tail = renameOps σ τ ops.tail := by cases ops <;> rfl
  rw [this, constOps_same]

theorem ptrSpace_same (ops : List (Opnd × Ty)) : ptrSpace (renameOps σ τ ops) = ptrSpace ops := by
  cases ops <;> rfl

include hσ hτ in
theorem cmpGEPs_same (lay : Layout) (src : Ty) (ops : List (Opnd × Ty)) (l : List Key) :
    Same σ τ (cmpGEPs lay src src ops (renameOps σ τ ops) (copySt σ τ l)) := by
  unfold cmpGEPs
  rw [ptrSpace_same, cmpNum_refl, if_neg (by simp), gepOffset_same, cmpTypes_refl, renameOps_length,
    cmpNum_refl]
  cases gepOffset lay src ops with
  | none => exact Same.andThen ⟨l, rfl⟩ (cmpOperands_same hσ hτ _ ops)
  | some k => exact ⟨l, by simp [cmpNum_refl]⟩

include hσ hτ in
theorem cmpInst_same (lay : Layout) (i : Inst) (hi : ∀ src, i.special = .gep src → i.ops ≠ [])
    (l : List Key) : Same σ τ (cmpInst lay i (renameInst σ τ i) (copySt σ τ l)) := by
  unfold cmpInst
  refine Same.andThen (cmpKeys_same hσ hτ (.val i.id) l) fun l => ?_
  refine Same.andThen ⟨l, by simp [renameInst, cmpNum_refl]⟩ fun l => ?_
  by_cases hg : ∃ src, i.special = .gep src
  · obtain ⟨src, hs⟩ := hg
    have hs' : (renameInst σ τ i).special = .gep src := by simp [renameInst, hs, renameSpecial]
    unfold cmpBody
    simp only [hs, hs']
    refine Same.andThen ?_ fun l => cmpGEPs_same hσ hτ lay src i.ops l
    have hne := hi src hs
    show Same σ τ (cmpPtrs _ i.ops (renameOps σ τ i.ops) _)
    cases ho : i.ops with
    | nil => exact absurd ho hne
    | cons o os => exact cmpValues_same hσ hτ lay.ptrBits o.1 l
  · have e : cmpBody lay i (renameInst σ τ i) (copySt σ τ l) =
        cmpPlain lay i (renameInst σ τ i) (copySt σ τ l) := by
      unfold cmpBody
      split
      · rename_i h _; exact absurd ⟨_, h⟩ hg
      · rfl
    rw [e]
    unfold cmpPlain
    refine Same.andThen ⟨l, ?_⟩ fun l => Same.andThen
      (cmpSpecial_same hσ hτ _ i.special (fun t ht => hg ⟨t, ht⟩) l) fun l =>
      cmpOperands_same hσ hτ _ i.ops l
    refine Prod.ext ?_ rfl
    show thenCmp (cmpNum i.ops.length (renameOps σ τ i.ops).length) (thenCmp (cmpTypes _ i.ty i.ty)
      (thenCmp (cmpNum i.flags i.flags) (cmpOpTypes _ i.ops (renameOps σ τ i.ops)))) = 0
    rw [renameOps_length, cmpNum_refl, cmpTypes_refl, cmpNum_refl, cmpOpTypes_same]
    rfl

include hσ hτ in
theorem cmpCode_same (lay : Layout) : ∀ (is : List Inst),
    (∀ i ∈ is, ∀ src, i.special = .gep src → i.ops ≠ []) → ∀ l : List Key,
    Same σ τ (cmpCode lay is (is.map (renameInst σ τ)) (copySt σ τ l))
  | [], _, l => ⟨l, rfl⟩
  | i :: is, h, l => Same.andThen (cmpInst_same hσ hτ lay i (h i (by simp)) l)
      (cmpCode_same lay is fun i hi => h i (by simp [hi]))

theorem code_rename (B : Block) : (renameBlock σ τ B).code = B.code.map (renameInst σ τ) := by
  simp [Block.code, renameBlock]

theorem blockOps_rename : ∀ ops : List (Opnd × Ty),
    blockOps (renameOps σ τ ops) = (blockOps ops).map τ
  | [] => rfl
  | (o, t) :: os => by
    have ih := blockOps_rename os
    unfold blockOps renameOps at *
    cases o with
    | ref k => cases k with
      | val v => simpa [renameOpnd, renameKey] using ih
      | blk b => simpa [renameOpnd, renameKey] using ih
    | _ => simpa [renameOpnd] using ih

theorem succs_rename (i : Inst) : (renameInst σ τ i).succs = i.succs.map τ := by
  unfold Inst.succs
  have : (renameInst σ τ i).ops = renameOps σ τ i.ops := rfl
  rw [this, blockOps_rename]
  show (if i.opcode = brOp then _ else _) = _
  split
  · rw [List.map_reverse]
  · rfl

theorem find_of_mem {bs : List Block} (h : (bs.map Block.id).Nodup) {B : Block} (hB : B ∈ bs) :
    bs.find? (fun C => C.id == B.id) = some B := by
  induction bs with
  | nil => simp at hB
  | cons C bs ih =>
    rw [List.map_cons, List.nodup_cons] at h
    rw [List.find?_cons]
    rcases List.mem_cons.1 hB with rfl | hB
    · simp
    · have : C.id ≠ B.id := fun he => h.1 (he ▸ List.mem_map_of_mem hB)
      have e : (C.id == B.id) = false := by simpa using this
      rw [e]
      exact ih h.2 hB

include hτ in
theorem copy_find {f g : Fn} (hf : WellFormed f) (hc : CopyOf σ τ f g) {b : Nat}
    (hb : b ∈ f.blocks.map Block.id) : ∃ B ∈ f.blocks, f.find b = some B ∧
      g.find (τ b) = some (renameBlock σ τ B) := by
  obtain ⟨B, hB, rfl⟩ := List.mem_map.1 hb
  refine ⟨B, hB, find_of_mem hf.ids hB, ?_⟩
  have hperm : g.blocks.Perm (f.blocks.map (renameBlock σ τ)) := by
    unfold Fn.blocks
    rw [hc.entry, List.map_cons]
    exact hc.rest.cons _
  have hids : (g.blocks.map Block.id).Nodup := by
    rw [(hperm.map Block.id).nodup_iff, List.map_map]
    have : (Block.id ∘ renameBlock σ τ) = τ ∘ Block.id := rfl
    rw [this, ← List.map_map]
    exact hf.ids.map hτ
  have hmem : renameBlock σ τ B ∈ g.blocks := hperm.mem_iff.2 (List.mem_map_of_mem hB)
  exact find_of_mem hids hmem

theorem pushSuccs_copy {ids : List Nat} : ∀ {as : List Nat} {work : List (Nat × Nat)}
    {visited : List Nat}, (∀ a ∈ as, a ∈ ids) → (∀ w ∈ work, w.2 = τ w.1 ∧ w.1 ∈ ids) →
    visited.Nodup → (∀ v ∈ visited, v ∈ ids) →
    (∀ w ∈ (pushSuccs as (as.map τ) work visited).1, w.2 = τ w.1 ∧ w.1 ∈ ids) ∧
    (pushSuccs as (as.map τ) work visited).2.Nodup ∧
    (∀ v ∈ (pushSuccs as (as.map τ) work visited).2, v ∈ ids) ∧
    (pushSuccs as (as.map τ) work visited).1.length + visited.length =
      work.length + (pushSuccs as (as.map τ) work visited).2.length
  | [], work, visited, _, hw, hn, hv => ⟨hw, hn, hv, rfl⟩
  | a :: as, work, visited, ha, hw, hn, hv => by
    rw [List.map_cons, pushSuccs]
    split
    · exact pushSuccs_copy (fun x hx => ha x (by simp [hx])) hw hn hv
    · rename_i hnot
      obtain ⟨h1, h2, h3, h4⟩ := pushSuccs_copy (ids := ids) (as := as)
        (work := (a, τ a) :: work) (visited := a :: visited)
        (fun x hx => ha x (by simp [hx]))
        (by
          intro w hw'
          rcases List.mem_cons.1 hw' with rfl | hw'
          · exact ⟨rfl, ha a (by simp)⟩
          · exact hw w hw')
        (List.nodup_cons.2 ⟨hnot, hn⟩)
        (by
          intro v hv'
          rcases List.mem_cons.1 hv' with rfl | hv'
          · exact ha v (by simp)
          · exact hv v hv')
      refine ⟨h1, h2, h3, ?_⟩
      simp only [List.length_cons] at h4
      omega

include hσ hτ in
theorem cmpLoop_same (lay : Layout) {f g : Fn} (hf : WellFormed f) (hc : CopyOf σ τ f g) :
    ∀ (n : Nat) (work : List (Nat × Nat)) (visited : List Nat) (l : List Key),
      (∀ w ∈ work, w.2 = τ w.1 ∧ w.1 ∈ f.blocks.map Block.id) → visited.Nodup →
      (∀ v ∈ visited, v ∈ f.blocks.map Block.id) →
      work.length + f.blocks.length ≤ n + visited.length →
      ∃ s, cmpLoop lay f g n work visited (copySt σ τ l) = some (0, s)
  | n, [], visited, l, _, _, _, _ => by cases n <;> exact ⟨_, rfl⟩
  | 0, w :: work, visited, l, _, hn, hv, hm => by
    have : visited.length ≤ f.blocks.length := by
      have := (List.subperm_of_subset hn hv).length_le
      simpa using this
    simp only [List.length_cons] at hm
    omega
  | n + 1, (b, b') :: work, visited, l, hw, hn, hv, hm => by
    obtain ⟨h1, h2⟩ := hw (b, b') (by simp)
    simp only at h1 h2
    subst h1
    obtain ⟨B, hB, hfB, hgB⟩ := copy_find hτ hf hc h2
    rw [cmpLoop, hfB, hgB]
    simp only
    have hs : Same σ τ (andThen (cmpKeys (.blk b) (.blk (τ b)) (copySt σ τ l))
        (cmpCode lay B.code (renameBlock σ τ B).code)) := by
      rw [code_rename]
      exact Same.andThen (cmpKeys_same hσ hτ (.blk b) l)
        (cmpCode_same hσ hτ lay B.code (hf.geps B hB))
    obtain ⟨l', hl'⟩ := hs
    rw [hl']
    simp only [if_true]
    have hts : (renameBlock σ τ B).term.succs = B.term.succs.map τ := succs_rename B.term
    rw [hts]
    obtain ⟨p1, p2, p3, p4⟩ := pushSuccs_copy (τ := τ) (hf.targets B hB)
      (fun w hw' => hw w (List.mem_cons_of_mem _ hw')) hn hv
    refine cmpLoop_same lay hf hc n _ _ l' p1 p2 p3 ?_
    simp only [List.length_cons] at hm
    omega

include hσ hτ in
theorem compareFns_copy (lay : Layout) {f g : Fn} (hf : WellFormed f) (hc : CopyOf σ τ f g) :
    compareFns lay f g = some 0 := by
  have hs : Same σ τ (cmpSignature lay f g ⟨[], []⟩) := by
    unfold cmpSignature
    rw [hc.args]
    refine Same.andThen ⟨[], ?_⟩ (cmpArgs_same hσ hτ f.args)
    refine Prod.ext ?_ rfl
    simp only [thenCmp_eq]
    have hty : f.ty = g.ty := by
      unfold Fn.ty
      rw [hc.ret, hc.args, hc.vararg]
      simp
    rw [hc.attrs, hc.gc, hc.sect, hc.vararg, hc.cc, hty]
    exact ⟨cmpAttrs_eq.2 rfl, cmpOptName_eq.2 rfl, cmpOptName_eq.2 rfl, cmpNum_refl _, cmpNum_refl _,
      cmpTypes_refl _ _⟩
  obtain ⟨l, hl⟩ := hs
  unfold compareFns
  rw [hl]
  simp only [if_true]
  have he : g.entry.id = τ f.entry.id := by rw [hc.entry]; rfl
  obtain ⟨s, hs⟩ := cmpLoop_same hσ hτ lay hf hc (f.blocks.length + 1) [(f.entry.id, g.entry.id)]
    [f.entry.id] l (by
      intro w hw
      simp only [List.mem_singleton] at hw
      subst hw
      exact ⟨he, by simp [Fn.blocks]⟩) (by simp) (by simp [Fn.blocks])
    (by simp only [List.length_singleton]; omega)
  rw [hs]
  rfl

end

end DK
