import Verif.Props.DiffCmp
import Verif.Lemmas.DiffPhiSim

/-!
Properties of the comparison of functions with phis, without patterns (C155) and with the pattern for
inverse conditions (C42).
-/

set_option autoImplicit false

namespace DK
open Spec

/-! ### Checks for examples -/

/-- A way from the entry, the nearest block first. -/
def wayB (f : DFun) : List Nat → Nat → Bool
  | [], b => match f.blocks with | B :: _ => B.id == b | [] => false
  | c :: cs, b => wayB f cs c && match f.find c with | some C => decide (b ∈ C.succs []) | none => false

theorem wayB_ok {f : DFun} : ∀ (w : List Nat) (b : Nat), wayB f w b = true → Way f w.reverse b
  | [], b, h => by
    unfold wayB at h
    split at h
    · next B Bs e =>
      have : B.id = b := by simpa using h
      rw [← this]
      exact .entry B Bs e
    · cases h
  | c :: cs, b, h => by
    simp only [wayB, Bool.and_eq_true] at h
    obtain ⟨h1, h2⟩ := h
    split at h2
    · next C hC =>
      rw [List.reverse_cons]
      exact .step _ c b C (wayB_ok cs c h1) hC (by simpa using h2)
    · cases h2

theorem reached_ok {f : DFun} (m : Nat → List Nat) (h : (f.blocks.all fun B => wayB f (m B.id) B.id) = true) :
    AllReached f := fun B hB => ⟨_, wayB_ok _ _ (List.all_eq_true.mp h B hB)⟩

def equalFlowB (l r : DFun) (φ : Nat → Nat) : Bool :=
  (match l.blocks, r.blocks with | B :: _, C :: _ => decide (C.id = φ B.id) | _, _ => true) &&
  (l.blocks.all fun B => l.blocks.all fun C => decide (φ B.id ≠ φ C.id) || decide (B.id = C.id)) &&
  (l.blocks.all fun B => r.blocks.any fun C => decide (C.id = φ B.id) &&
    (match B.code.getLast?, C.code.getLast? with
     | some t, some u => decide ((targets t).map φ = targets u)
     | _, _ => true))

theorem equalFlowB_ok {l r : DFun} {φ : Nat → Nat} (h : equalFlowB l r φ = true) : EqualFlow l r φ := by
  simp only [equalFlowB, Bool.and_eq_true, List.all_eq_true, List.any_eq_true, Bool.or_eq_true, decide_eq_true_eq] at h
  obtain ⟨⟨h1, h2⟩, h3⟩ := h
  refine ⟨?_, ?_, ?_⟩
  · intro B Bs C Cs e e'
    rw [e, e'] at h1
    simpa using h1
  · intro B hB C hC e
    rcases h2 B hB C hC with h | h
    · exact absurd e h
    · exact h
  · intro B hB
    obtain ⟨C, hC, e, hh⟩ := h3 B hB
    refine ⟨C, hC, e, ?_⟩
    intro t u ht hu
    rw [ht, hu] at hh
    simpa using hh

def phisB (f : DFun) : Bool :=
  (match f.blocks with | B :: _ => B.code.all fun i => decide (i.code ≠ .phi) | [] => true) &&
  (f.blocks.all fun B => B.code.all fun i => decide (i.code ≠ .phi) ||
    (decide i.inc.Nodup && decide (i.inc.length = i.ops.length) &&
      (i.inc.all fun c => match f.find c with | some C => decide (B.id ∈ C.succs []) | none => false) &&
      f.blocks.all fun C => decide (B.id ∉ C.succs []) || decide (C.id ∈ i.inc)))

theorem phisB_ok {f : DFun} (h : phisB f = true) : PhisOk f := by
  simp only [phisB, Bool.and_eq_true, List.all_eq_true, Bool.or_eq_true, decide_eq_true_eq] at h
  obtain ⟨h1, h2⟩ := h
  have get : ∀ i ∈ f.all, i.code = .phi → ∃ B ∈ f.blocks, i ∈ B.code ∧ i.inc.Nodup ∧ i.inc.length = i.ops.length := by
    intro i hi hc
    obtain ⟨B, hB, hiB⟩ := List.mem_flatMap.mp hi
    rcases h2 B hB i hiB with h | h
    · exact absurd hc h
    · exact ⟨B, hB, hiB, h.1.1.1, h.1.1.2⟩
  refine ⟨?_, ?_, ?_, ?_⟩
  · intro B Bs e i hi
    rw [e] at h1
    simp only [List.all_eq_true, decide_eq_true_eq] at h1
    exact h1 i hi
  · intro i hi hc
    obtain ⟨_, _, _, h, _⟩ := get i hi hc
    exact h
  · intro i hi hc
    obtain ⟨_, _, _, _, h⟩ := get i hi hc
    exact h
  · intro B hB i hi hc c
    rcases h2 B hB i hi with h | ⟨⟨_, h3⟩, h4⟩
    · exact absurd hc h
    · constructor
      · intro hm
        have := h3 c hm
        split at this
        · next C hC => exact ⟨C, hC, by simpa using this⟩
        · cases this
      · rintro ⟨C, hC, hm⟩
        have h5 : C ∈ f.blocks := List.mem_of_find?_eq_some hC
        have h6 : C.id = c := by simpa using List.find?_some hC
        rcases h4 C h5 with h | h
        · exact absurd hm h
        · exact h6 ▸ h

def usedB (f : DFun) : Bool :=
  f.all.all fun i => decide (i.code ≠ .phi) ||
    ((f.all.all fun j => decide (j.code ≠ .phi) || !(j.ops.any fun x => match x with | .ref a _ => a == i.id | _ => false)) ||
      f.all.any fun k => decide (k.code ≠ .phi) && k.ops.any fun x => match x with | .ref a _ => a == i.id | _ => false)

theorem usedB_ok {f : DFun} (h : usedB f = true) : PhisUsed f := by
  simp only [usedB, List.all_eq_true, Bool.or_eq_true, decide_eq_true_eq, List.any_eq_true, Bool.and_eq_true] at h
  intro i hi j hj w ic jc hw
  rcases h i hi with h | h | ⟨k, hk, kc, x, hx, hb⟩
  · exact absurd ic h
  · rcases h j hj with h | h
    · exact absurd jc h
    · have : (j.ops.any fun x => match x with | .ref a _ => a == i.id | _ => false) = true :=
        List.any_eq_true.mpr ⟨_, hw, by simp⟩
      rw [this] at h
      cases h
  · refine ⟨k, hk, kc, ?_⟩
    cases x with
    | ref a w' =>
      have : a = i.id := by simpa using hb
      exact ⟨w', this ▸ hx⟩
    | const _ _ => cases hb
    | blk _ => cases hb

/-! ### Programs -/

/-- `p = c ? x : y; return d ? p : 0;`, with the values for `c` as given. -/
def innerPhi (x y : DOp) : DFun := ⟨[(0, 32), (1, 32), (2, 1), (3, 1)],
  [⟨0, [⟨10, .branch, 0, [r1 2, .blk 2, .blk 1], []⟩]⟩,
   ⟨1, [⟨11, .jump, 0, [.blk 3], []⟩]⟩,
   ⟨2, [⟨12, .jump, 0, [.blk 3], []⟩]⟩,
   ⟨3, [⟨13, .phi, 32, [x, y], [1, 2]⟩, ⟨14, .branch, 0, [r1 3, .blk 5, .blk 4], []⟩]⟩,
   ⟨4, [⟨15, .jump, 0, [.blk 6], []⟩]⟩,
   ⟨5, [⟨16, .jump, 0, [.blk 6], []⟩]⟩,
   ⟨6, [⟨17, .phi, 32, [r32 13, c32 0], [4, 5]⟩, ⟨18, .ret, 0, [r32 17], []⟩]⟩]⟩

/-- `do { i += s; f(i); } while (i < n); return i;` with other names, the blocks in another order and the
incoming values of the phi in another order. -/
def loopStep' (s : Int) : DFun := ⟨[(50, 32)],
  [⟨10, [⟨60, .jump, 0, [.blk 11], []⟩]⟩,
   ⟨12, [⟨61, .ret, 0, [r32 52], []⟩]⟩,
   ⟨11, [⟨51, .phi, 32, [r32 52, c32 0], [11, 10]⟩, ⟨52, .bin .add, 32, [r32 51, c32 s], []⟩,
        ⟨55, .call 7, 0, [r32 52], []⟩, ⟨53, .cmp .slt, 1, [r32 52, r32 50], []⟩,
        ⟨54, .branch, 0, [r1 53, .blk 12, .blk 11], []⟩]⟩]⟩

/-! ### C155 -/

/-- **C155** (fails): functions with phis, with the same control flow and without casts that are found
equal without patterns return the same, with the same effects. -/
def C155_statement : Prop :=
  ∀ (l r : DFun) (φ : Nat → Nat) (steps : Nat) (sw : List Nat), DWellFormed l → DWellFormed r →
    Dominated l → Dominated r → NoConversions l → NoConversions r → EqualFlow l r φ → AllReached l → AllReached r →
    PhisOk l → PhisOk r → compareD cfgNone steps l r [] = some (true, sw) → SameResults l r

theorem noConversions_of {f : DFun}
    (h : (f.all.all fun i => match i.code with | .cast _ => false | _ => true) = true) : NoConversions f :=
  noCasts_of h

/-- A phi that is used only by another phi is never compared. -/
theorem C155_fails : ¬ C155_statement := by
  intro h
  have := h (innerPhi (r32 0) (r32 1)) (innerPhi (r32 1) (r32 0)) id 50 [] (wfB_ok (by decide +kernel))
    (wfB_ok (by decide +kernel)) (domB_ok (fun _ => []) (by decide +kernel)) (domB_ok (fun _ => []) (by decide +kernel))
    (noConversions_of (by decide +kernel)) (noConversions_of (by decide +kernel)) (equalFlowB_ok (by decide +kernel))
    (reached_ok (fun b => if b = 1 ∨ b = 2 then [0] else if b = 3 then [1, 0] else
      if b = 4 ∨ b = 5 then [3, 1, 0] else if b = 6 then [4, 3, 1, 0] else []) (by decide +kernel))
    (reached_ok (fun b => if b = 1 ∨ b = 2 then [0] else if b = 3 then [1, 0] else
      if b = 4 ∨ b = 5 then [3, 1, 0] else if b = 6 then [4, 3, 1, 0] else []) (by decide +kernel))
    (phisB_ok (by decide +kernel)) (phisB_ok (by decide +kernel)) (by decide +kernel)
  exact not_same testMach (n := 9) (vals := [7, 8, -1, -1]) (mem := []) (a := ([some 7], []))
    (b := ([some 8], [])) (by decide +kernel) (by decide +kernel) (by decide) this

/-- The difference is found when the phi is returned instead. -/
example : compareD cfgNone 50
    ⟨[(0, 32), (1, 32), (2, 1)],
      [⟨0, [⟨10, .branch, 0, [r1 2, .blk 2, .blk 1], []⟩]⟩, ⟨1, [⟨11, .jump, 0, [.blk 3], []⟩]⟩,
       ⟨2, [⟨12, .jump, 0, [.blk 3], []⟩]⟩,
       ⟨3, [⟨13, .phi, 32, [r32 0, r32 1], [1, 2]⟩, ⟨14, .ret, 0, [r32 13], []⟩]⟩]⟩
    ⟨[(0, 32), (1, 32), (2, 1)],
      [⟨0, [⟨10, .branch, 0, [r1 2, .blk 2, .blk 1], []⟩]⟩, ⟨1, [⟨11, .jump, 0, [.blk 3], []⟩]⟩,
       ⟨2, [⟨12, .jump, 0, [.blk 3], []⟩]⟩,
       ⟨3, [⟨13, .phi, 32, [r32 1, r32 0], [1, 2]⟩, ⟨14, .ret, 0, [r32 13], []⟩]⟩]⟩ [] = some (false, []) := by
  decide +kernel

/-- **C155** (partial): it holds if every phi that is an incoming value of a phi is also used by another
instruction. Missing: phis that are used only by phis. -/
theorem C155_phis_partial (l r : DFun) (φ : Nat → Nat) (steps : Nat) (sw : List Nat) (wl : DWellFormed l)
    (wr : DWellFormed r) (dl : Dominated l) (dr : Dominated r) (cl : NoConversions l) (cr : NoConversions r)
    (hf : EqualFlow l r φ) (al : AllReached l) (ar : AllReached r) (pl : PhisOk l) (pr : PhisOk r)
    (ul : PhisUsed l) (ur : PhisUsed r) (h : compareD cfgNone steps l r [] = some (true, sw)) : SameResults l r :=
  phi_sound (v := false) ⟨wl, wr, dl, dr, cl, cr, fun h => (nomatch h), fun h => (nomatch h), hf.1, hf.2.1,
    fun B hB => by simpa using hf.2.2 B hB, al, ar, pl, pr⟩ ul ur steps sw h

/-- The theorem applies to a loop with other names, where the blocks and the incoming values of the phi are
in another order. -/
example : SameResults (loopStep 3) (loopStep' 3) :=
  C155_phis_partial (loopStep 3) (loopStep' 3) (· + 10) 50 [] (wfB_ok (by decide +kernel)) (wfB_ok (by decide +kernel))
    (domB_ok (fun b => if b = 1 then [0] else if b = 2 then [0, 1] else []) (by decide +kernel))
    (domB_ok (fun b => if b = 11 then [10] else if b = 12 then [10, 11] else []) (by decide +kernel))
    (noConversions_of (by decide +kernel)) (noConversions_of (by decide +kernel)) (equalFlowB_ok (by decide +kernel))
    (reached_ok (fun b => if b = 1 then [0] else if b = 2 then [1, 0] else []) (by decide +kernel))
    (reached_ok (fun b => if b = 11 then [10] else if b = 12 then [11, 10] else []) (by decide +kernel))
    (phisB_ok (by decide +kernel)) (phisB_ok (by decide +kernel)) (usedB_ok (by decide +kernel))
    (usedB_ok (by decide +kernel)) (by decide +kernel)

/-- Another start of the loop is found different. -/
example : compareD cfgNone 50 (loopStep 3) (loopStep' 4) [] = some (false, []) := by decide +kernel

/-! ### C42 -/

/-- The same loop with the inverse condition and the exchanged targets. -/
def loopInv' (s : Int) (p : Pred) (x y : Nat) : DFun := ⟨[(50, 32)],
  [⟨10, [⟨60, .jump, 0, [.blk 11], []⟩]⟩,
   ⟨12, [⟨61, .ret, 0, [r32 52], []⟩]⟩,
   ⟨11, [⟨51, .phi, 32, [r32 52, c32 0], [11, 10]⟩, ⟨52, .bin .add, 32, [r32 51, c32 s], []⟩,
        ⟨55, .call 7, 0, [r32 52], []⟩, ⟨53, .cmp p, 1, [r32 52, r32 50], []⟩,
        ⟨54, .branch, 0, [r1 53, .blk x, .blk y], []⟩]⟩]⟩

theorem noNegations_of {f : DFun} (h : (f.all.all fun i => !isNot i) = true) : NoNegations f := by
  rintro i hi ⟨h1, h2, x, w, h3⟩
  have := List.all_eq_true.mp h i hi
  simp [isNot, h1, h2, h3] at this

theorem isNot_of {f : DFun} (h : NoNegations f) (i : DInst) (hi : i ∈ f.all) : isNot i = false := by
  by_contra hne
  have hn : isNot i = true := by simpa using hne
  simp only [isNot, Bool.and_eq_true, decide_eq_true_eq] at hn
  obtain ⟨⟨h1, h2⟩, h3⟩ := hn
  refine h i hi ⟨h1, h2, ?_⟩
  split at h3
  · next x w v e =>
    have : v = -1 := by simpa using h3
    exact ⟨x, w, this ▸ e⟩
  · cases h3

/-- **C42** (partial): it holds for functions with phis, too, if there are no negations, all blocks are
reached, phis are as the compiler requires, and every phi that is an incoming value of a phi is also used
by another instruction. Missing: negations, and phis that are used only by phis. -/
theorem C42_phis_partial (l r : DFun) (φ : Nat → Nat) (steps : Nat) (sw : List Nat) (wl : DWellFormed l)
    (wr : DWellFormed r) (dl : Dominated l) (dr : Dominated r) (cl : NoConversions l) (cr : NoConversions r)
    (nl : NoNegations l) (nr : NoNegations r) (hf : SameFlow l r φ) (al : AllReached l) (ar : AllReached r)
    (pl : PhisOk l) (pr : PhisOk r) (ul : PhisUsed l) (ur : PhisUsed r)
    (h : compareD cfgInverse steps l r [] = some (true, sw)) : SameResults l r :=
  phi_sound (v := true) ⟨wl, wr, dl, dr, cl, cr, fun _ => isNot_of nl, fun _ => isNot_of nr, hf.1, hf.2.1,
    fun B hB => by simpa using hf.2.2 B hB, al, ar, pl, pr⟩ ul ur steps sw h

/-- The theorem applies to a loop with a phi whose condition was inverted together with the branch. -/
example : SameResults (loopStep 3) (loopInv' 3 .sge 11 12) :=
  C42_phis_partial (loopStep 3) (loopInv' 3 .sge 11 12) (· + 10) 50 [54] (wfB_ok (by decide +kernel))
    (wfB_ok (by decide +kernel))
    (domB_ok (fun b => if b = 1 then [0] else if b = 2 then [0, 1] else []) (by decide +kernel))
    (domB_ok (fun b => if b = 11 then [10] else if b = 12 then [10, 11] else []) (by decide +kernel))
    (noConversions_of (by decide +kernel)) (noConversions_of (by decide +kernel))
    (noNegations_of (by decide +kernel)) (noNegations_of (by decide +kernel)) (flowB_ok (by decide +kernel))
    (reached_ok (fun b => if b = 1 then [0] else if b = 2 then [1, 0] else []) (by decide +kernel))
    (reached_ok (fun b => if b = 11 then [10] else if b = 12 then [11, 10] else []) (by decide +kernel))
    (phisB_ok (by decide +kernel)) (phisB_ok (by decide +kernel)) (usedB_ok (by decide +kernel))
    (usedB_ok (by decide +kernel)) (by decide +kernel)

/-- Loops where only the condition or only the branch was changed are found different, and so is this one
without the pattern. -/
example : compareD cfgInverse 50 (loopStep 3) (loopInv' 3 .sge 12 11) [] = some (false, [54]) := by decide +kernel
example : compareD cfgInverse 50 (loopStep 3) (loopInv' 3 .slt 11 12) [] = some (false, []) := by decide +kernel
example : compareD cfgNone 50 (loopStep 3) (loopInv' 3 .sge 11 12) [] = some (false, []) := by decide +kernel

end DK
