import Verif.Spec.DiffSem

/-!
Lemmas: checks that imply the assumptions about functions, for examples.
-/

set_option autoImplicit false

namespace DK
open Spec

def shapeB (i : DInst) : Bool :=
  match i.code, i.ops with
  | .jump, [.blk _] => true
  | .jump, _ => false
  | .branch, [c, .blk _, .blk _] => decide (i.ty = 0) && decide (c.ty = 1) && (c.key.isNone || (match c with | .ref _ _ => true | _ => false)) && (match c with | .blk _ => false | _ => true)
  | .branch, _ => false
  | .bin _, [x, y] => decide (x.ty = i.ty) && decide (y.ty = i.ty) && (match x, y with | .blk _, _ => false | _, .blk _ => false | _, _ => true)
  | .bin _, _ => false
  | .cmp _, [x, y] => decide (i.ty = 1) && decide (x.ty = y.ty) && (match x, y with | .blk _, _ => false | _, .blk _ => false | _, _ => true)
  | .cmp _, _ => false
  | _, ops => ops.all fun x => match x with | .blk _ => false | _ => true

theorem shapeB_ok {i : DInst} (h : shapeB i = true) : ShapeOk i := by
  unfold shapeB at h
  unfold ShapeOk
  split at h
  · next b hc ho => rw [hc]; exact ⟨b, ho⟩
  · cases h
  · next c x y hc ho =>
    rw [hc]
    simp only [Bool.and_eq_true, decide_eq_true_eq] at h
    refine ⟨c, x, y, ho, h.1.1.1, h.1.1.2, fun b e => ?_⟩
    rw [e] at h
    simp at h
  · cases h
  · next o x y hc ho =>
    rw [hc]
    simp only [Bool.and_eq_true, decide_eq_true_eq] at h
    refine ⟨x, y, ho, h.1.1, h.1.2, fun b => ⟨fun e => ?_, fun e => ?_⟩⟩
    · rw [e] at h; simp at h
    · rw [e] at h; cases x <;> simp at h
  · cases h
  · next o x y hc ho =>
    rw [hc]
    simp only [Bool.and_eq_true, decide_eq_true_eq] at h
    refine ⟨x, y, ho, h.1.1, h.1.2, fun b => ⟨fun e => ?_, fun e => ?_⟩⟩
    · rw [e] at h; simp at h
    · rw [e] at h; cases x <;> simp at h
  · cases h
  · next hj hb hbin hcmp =>
    have hno : ∀ b, DOp.blk b ∉ i.ops := by
      intro b hb
      have := List.all_eq_true.mp h _ hb
      simp at this
    split
    · next hc => exact absurd hc (by intro e; simp_all)
    · next hc => exact absurd hc (by intro e; simp_all)
    · next o hc => exact absurd hc (by intro e; simp_all)
    · next o hc => exact absurd hc (by intro e; simp_all)
    · exact hno

def wfB (f : DFun) : Bool :=
  decide (f.args.map Prod.fst ++ idsOf f.all).Nodup && decide (f.blocks.map DBlock.id).Nodup &&
  (f.blocks.all fun B => (match B.code.getLast? with | some t => isTerm t | none => false) &&
    B.code.dropLast.all fun i => !isTerm i) &&
  (f.all.all fun i => shapeB i && ((targets i).all fun b => decide (b ∈ f.blocks.map DBlock.id)) &&
    i.ops.all fun x => match x with
      | .ref a w => decide ((a, w) ∈ f.args) || f.all.any fun j => decide (j.id = a) && decide (j.ty = w)
      | _ => true)

theorem wfB_ok {f : DFun} (h : wfB f = true) : DWellFormed f := by
  simp only [wfB, Bool.and_eq_true, decide_eq_true_eq, List.all_eq_true] at h
  obtain ⟨⟨⟨h1, h2⟩, h3⟩, h4⟩ := h
  refine ⟨h1, h2, ?_, fun i hi => shapeB_ok (h4 i hi).1.1, ?_, ?_⟩
  · intro B hB
    obtain ⟨ht, hd⟩ := h3 B hB
    cases hl : B.code.getLast? with
    | none => rw [hl] at ht; simp at ht
    | some t =>
      rw [hl] at ht
      refine ⟨B.code.dropLast, t, ?_, ht, fun i hi => by simpa using hd i hi⟩
      exact (List.dropLast_append_getLast? t hl).symm
  · intro i hi b hb
    have := (h4 i hi).1.2 b hb
    obtain ⟨B, hB, e⟩ := List.mem_map.mp this
    exact ⟨B, hB, e⟩
  · intro i hi a w hw
    have := (h4 i hi).2 _ hw
    simp only [Bool.or_eq_true, decide_eq_true_eq, List.any_eq_true, Bool.and_eq_true] at this
    exact this

/-- `m` has for each block some blocks that are on every way to it. -/
def domB (f : DFun) (m : Nat → List Nat) : Bool :=
  (match f.blocks with | B :: _ => (m B.id).isEmpty | [] => true) &&
  (f.blocks.all fun B => ((B.succs []).all fun c => (m c).all fun x => decide (x ∈ B.id :: m B.id)) &&
    (List.range B.code.length).all fun k => match B.code[k]? with
      | none => true
      | some i => decide (i.code = .phi) || i.ops.all fun x => match x with
        | .ref a _ => decide (a ∈ f.args.map Prod.fst) || decide (a ∈ idsOf (B.code.take k)) ||
            (decide (a ∉ idsOf B.code) && (m B.id).any fun c => match f.find c with
              | some C => decide (a ∈ idsOf C.code)
              | none => false)
        | _ => true)

theorem domB_ok {f : DFun} (m : Nat → List Nat) (h : domB f m = true) : Dominated f := by
  simp only [domB, Bool.and_eq_true, List.all_eq_true] at h
  obtain ⟨h0, h⟩ := h
  have hm : ∀ way b, Way f way b → ∀ x ∈ m b, x ∈ way := by
    intro way b hw
    induction hw with
    | entry B rest e =>
      rw [e] at h0
      simp only [List.isEmpty_iff] at h0
      intro x hx
      rw [h0] at hx
      cases hx
    | step way b c B _ hB hc ih =>
      intro x hx
      have hBm : B ∈ f.blocks := List.mem_of_find?_eq_some hB
      have hid : B.id = b := by simpa using List.find?_some hB
      have := (h B hBm).1 c hc x hx
      simp only [decide_eq_true_eq, List.mem_cons, hid] at this
      rcases this with e | h
      · simp [e]
      · simp [ih x h]
  intro way b B hw hB pre i suf hc hphi a w ha
  have hBm : B ∈ f.blocks := List.mem_of_find?_eq_some hB
  have hid : B.id = b := by simpa using List.find?_some hB
  have hk := (h B hBm).2 pre.length (List.mem_range.mpr (by rw [hc]; simp))
  rw [hc] at hk
  simp only [List.getElem?_append_right (Nat.le_refl _), Nat.sub_self, List.getElem?_cons_zero, Bool.or_eq_true,
    decide_eq_true_eq, hphi, false_or, List.all_eq_true] at hk
  have := hk _ ha
  simp only [List.take_left, Bool.or_eq_true, decide_eq_true_eq, Bool.and_eq_true, List.any_eq_true] at this
  rcases this with (h | h) | ⟨h, c, hcm, hC⟩
  · exact .inl h
  · exact .inr (.inl h)
  · refine .inr (.inr ⟨by rw [hc]; exact h, c, hm way b hw c (hid ▸ hcm), ?_⟩)
    split at hC
    · next C hf => exact ⟨C, hf, by simpa using hC⟩
    · cases hC

def flowB (l r : DFun) (φ : Nat → Nat) : Bool :=
  (match l.blocks, r.blocks with | B :: _, C :: _ => decide (C.id = φ B.id) | _, _ => true) &&
  (l.blocks.all fun B => l.blocks.all fun C => decide (φ B.id ≠ φ C.id) || decide (B.id = C.id)) &&
  (l.blocks.all fun B => r.blocks.any fun C => decide (C.id = φ B.id) &&
    (match B.code.getLast?, C.code.getLast? with
     | some t, some u => decide ((targets t).map φ = if oppositeBranches l r t u then (targets u).reverse else targets u)
     | _, _ => true))

theorem flowB_ok {l r : DFun} {φ : Nat → Nat} (h : flowB l r φ = true) : SameFlow l r φ := by
  simp only [flowB, Bool.and_eq_true, List.all_eq_true, List.any_eq_true, Bool.or_eq_true, decide_eq_true_eq] at h
  obtain ⟨⟨h1, h2⟩, h3⟩ := h
  refine ⟨?_, ?_, ?_⟩
  · intro B Bs C Cs e e'
    rw [e, e'] at h1
    simpa using h1
  · intro B hB C hC e
    rcases h2 B hB C hC with h | h
    · exact absurd e h
    · exact h
  · intro B hB
    obtain ⟨C, hC, e, hh⟩ := h3 B hB
    refine ⟨C, hC, e, ?_⟩
    intro t u ht hu
    rw [ht, hu] at hh
    simpa using hh

def plainB (f : DFun) : Bool :=
  f.all.all fun i => (match i.code with | .phi => false | .cast _ => false | _ => true) &&
    !(decide (i.code = .bin .xor) && decide (i.ty = 1) && (match i.ops with | [_, .const _ v] => decide (v = -1) | _ => false))

theorem plainB_ok {f : DFun} (h : plainB f = true) : Plain f := by
  simp only [plainB, Bool.and_eq_true, List.all_eq_true] at h
  intro i hi
  obtain ⟨h1, h2⟩ := h i hi
  refine ⟨fun e => by rw [e] at h1; simp at h1, fun k e => by rw [e] at h1; simp at h1, ?_⟩
  rintro ⟨e1, e2, x, w, e3⟩
  simp [e1, e2, e3] at h2

def treesB (f : DFun) : Bool :=
  (f.blocks.all fun B => B.code.all fun i => match i.code with
    | .bin o => (i.ops.any fun x => match x with | .ref _ _ => true | _ => false) &&
      f.all.all fun j => decide (j.code ≠ .bin o) || decide (j ∈ B.code) ||
        i.ops.all fun x => match x with | .ref a _ => decide (a ≠ j.id) | _ => true
    | _ => true)

theorem treesB_ok {f : DFun} (h : treesB f = true) : Folded f ∧ LocalTrees f := by
  simp only [treesB, List.all_eq_true] at h
  constructor
  · intro i hi o hc
    obtain ⟨B, hB, hiB⟩ := List.mem_flatMap.mp hi
    have := h B hB i hiB
    rw [hc] at this
    simp only [Bool.and_eq_true, List.any_eq_true] at this
    obtain ⟨⟨x, hx, hb⟩, _⟩ := this
    cases x with
    | ref a w => exact ⟨a, w, hx⟩
    | _ => simp at hb
  · intro B hB i hi j hj o w hc hcj hw
    have := h B hB i hi
    rw [hc] at this
    simp only [Bool.and_eq_true, List.all_eq_true, Bool.or_eq_true, decide_eq_true_eq] at this
    rcases this.2 j hj with (h | h) | h
    · exact absurd hcj h
    · exact h
    · have := h _ hw
      simp at this

end DK
