import Verif.Spec.DiffSem
import Mathlib.Data.List.Forall2
import Mathlib.Data.List.Perm.Basic

/-!
Lemmas: functions whose blocks are matched instruction by instruction have the same results.
-/

set_option autoImplicit false

namespace DK
open Spec

/-! ### Trees of reorderable operations -/

/-- Leaves of a tree of operations of one kind; the inner operations are in a list. -/
inductive DTree (S : List DInst) (o : BOp) : DOp → List DOp → Prop where
  | leaf (v : DOp) : DTree S o v [v]
  | node (j : DInst) (x y : DOp) (s t : List DOp) : j ∈ S → j.code = .bin o → j.ops = [x, y] →
      x.ty = j.ty → y.ty = j.ty → DTree S o x s → DTree S o y t → DTree S o (.ref j.id j.ty) (s ++ t)

/-- Values of operations in a list are those of their operands. -/
def Consistent (env : DEnv) (S : List DInst) : Prop :=
  ∀ j ∈ S, ∀ o x y, j.code = .bin o → j.ops = [x, y] →
    env j.id = both (binInt o j.ty) (evalOp env x) (evalOp env y)

def bits (w : Nat) (v : Option Int) : Option (BitVec w) := v.map (BitVec.ofInt w)

def bothBits {w : Nat} (o : BOp) : Option (BitVec w) → Option (BitVec w) → Option (BitVec w)
  | some a, some b => some (binBits o a b)
  | _, _ => none

theorem binBits_comm {w : Nat} (o : BOp) (a b : BitVec w) : binBits o a b = binBits o b a := by
  cases o <;> simp only [binBits]
  · exact BitVec.add_comm a b
  · exact BitVec.mul_comm a b
  · exact BitVec.and_comm a b
  · exact BitVec.or_comm a b
  · exact BitVec.xor_comm a b

theorem binBits_assoc {w : Nat} (o : BOp) (a b c : BitVec w) :
    binBits o (binBits o a b) c = binBits o a (binBits o b c) := by
  cases o <;> simp only [binBits]
  · exact BitVec.add_assoc a b c
  · exact BitVec.mul_assoc a b c
  · exact BitVec.and_assoc a b c
  · exact BitVec.or_assoc a b c
  · exact BitVec.xor_assoc a b c

def unitBits {w : Nat} : BOp → BitVec w
  | .add => 0#w
  | .mul => 1#w
  | .band => BitVec.allOnes w
  | .bor => 0#w
  | .xor => 0#w

theorem unit_binBits {w : Nat} (o : BOp) (a : BitVec w) : binBits o (unitBits o) a = a := by
  cases o <;> simp [binBits, unitBits]

theorem bothBits_comm {w : Nat} (o : BOp) (a b : Option (BitVec w)) : bothBits o a b = bothBits o b a := by
  cases a <;> cases b <;> simp [bothBits, binBits_comm]

theorem bothBits_assoc {w : Nat} (o : BOp) (a b c : Option (BitVec w)) :
    bothBits o (bothBits o a b) c = bothBits o a (bothBits o b c) := by
  cases a <;> cases b <;> cases c <;> simp [bothBits, binBits_assoc]

theorem unit_bothBits {w : Nat} (o : BOp) (a : Option (BitVec w)) :
    bothBits o (some (unitBits o)) a = a := by
  cases a <;> simp [bothBits, unit_binBits]

theorem bits_both (o : BOp) (w : Nat) (a b : Option Int) :
    bits w (both (binInt o w) a b) = bothBits o (bits w a) (bits w b) := by
  cases a <;> cases b <;> simp [bits, both, bothBits, binInt, BitVec.ofInt_toInt]

theorem both_eq (o : BOp) (w : Nat) (a b : Option Int) :
    both (binInt o w) a b = (bothBits o (bits w a) (bits w b)).map BitVec.toInt := by
  cases a <;> cases b <;> rfl

/-- All leaves together. -/
def foldBits {w : Nat} (o : BOp) (l : List (Option (BitVec w))) : Option (BitVec w) :=
  l.foldr (bothBits o) (some (unitBits o))

theorem foldBits_append {w : Nat} (o : BOp) (l m : List (Option (BitVec w))) :
    foldBits o (l ++ m) = bothBits o (foldBits o l) (foldBits o m) := by
  induction l with
  | nil => exact (unit_bothBits o _).symm
  | cons a l ih =>
    show bothBits o a (foldBits o (l ++ m)) = _
    rw [ih, ← bothBits_assoc]; rfl

theorem foldBits_perm {w : Nat} (o : BOp) {l m : List (Option (BitVec w))} (h : l.Perm m) :
    foldBits o l = foldBits o m := by
  induction h with
  | nil => rfl
  | cons a _ ih => exact congrArg (bothBits o a) ih
  | swap a b l =>
    show bothBits o b (bothBits o a (foldBits o l)) = bothBits o a (bothBits o b (foldBits o l))
    rw [← bothBits_assoc, ← bothBits_assoc, bothBits_comm o b a]
  | trans _ _ ih ih' => exact ih.trans ih'

theorem foldBits_one {w : Nat} (o : BOp) (a : Option (BitVec w)) : foldBits o [a] = a := by
  show bothBits o a (some (unitBits o)) = a
  rw [bothBits_comm, unit_bothBits]

theorem dtree_bits {S : List DInst} {o : BOp} {v : DOp} {s : List DOp} (h : DTree S o v s) {env : DEnv}
    (hc : Consistent env S) : ∀ w, v.ty = w →
      bits w (evalOp env v) = foldBits o (s.map fun x => bits w (evalOp env x)) := by
  induction h with
  | leaf v => intro w _; exact (foldBits_one o _).symm
  | node j x y s t hj hcode hops hx hy _ _ ihx ihy =>
    intro w hw
    have hw : j.ty = w := hw
    subst hw
    show bits j.ty (env j.id) = _
    rw [hc j hj o x y hcode hops, bits_both, ihx _ hx, ihy _ hy, List.map_append, foldBits_append]

theorem dtree_leaf {S : List DInst} {o : BOp} {v : DOp} {s : List DOp} (h : DTree S o v s) :
    ∀ x ∈ s, x = v ∨ ∃ j ∈ S, j.code = .bin o ∧ x ∈ j.ops := by
  induction h with
  | leaf v => intro x hx; exact .inl (List.mem_singleton.mp hx)
  | node j x y s t hj hcode hops hx hy _ _ ihx ihy =>
    intro z hz
    rcases List.mem_append.mp hz with h | h
    · rcases ihx z h with h | h
      · exact .inr ⟨j, hj, hcode, by rw [hops, h]; simp⟩
      · exact .inr h
    · rcases ihy z h with h | h
      · exact .inr ⟨j, hj, hcode, by rw [hops, h]; simp⟩
      · exact .inr h

/-! ### Matched blocks -/

/-- Operands correspond. -/
inductive OpEq (ks : List (DKey × DKey)) : DOp → DOp → Prop where
  | const (w : Nat) (v : Int) : OpEq ks (.const w v) (.const w v)
  | ref (a b w : Nat) : (DKey.val a, DKey.val b) ∈ ks → OpEq ks (.ref a w) (.ref b w)

/-- Blocks are matched; the first two lists are the code before. -/
inductive Match (l r : DFun) (φ : Nat → Nat) (ks : List (DKey × DKey)) (ignL ignR : List Nat) :
    List DInst → List DInst → List DInst → List DInst → Prop where
  | nil (p q : List DInst) : Match l r φ ks ignL ignR p q [] []
  | skipL (p q : List DInst) (i : DInst) (ls rs : List DInst) (o : BOp) : i.code = .bin o → i.id ∈ ignL →
      Match l r φ ks ignL ignR (p ++ [i]) q ls rs → Match l r φ ks ignL ignR p q (i :: ls) rs
  | skipR (p q : List DInst) (j : DInst) (ls rs : List DInst) (o : BOp) : j.code = .bin o → j.id ∈ ignR →
      Match l r φ ks ignL ignR p (q ++ [j]) ls rs → Match l r φ ks ignL ignR p q ls (j :: rs)
  | same (p q : List DInst) (i j : DInst) (ls rs : List DInst) : i.code = j.code → i.ty = j.ty →
      isTerm i = false → i.code ≠ .phi → List.Forall₂ (OpEq ks) i.ops j.ops → (DKey.val i.id, DKey.val j.id) ∈ ks →
      Match l r φ ks ignL ignR (p ++ [i]) (q ++ [j]) ls rs →
      Match l r φ ks ignL ignR p q (i :: ls) (j :: rs)
  | inverse (p q : List DInst) (i j : DInst) (ls rs : List DInst) (c : Pred) : i.code = .cmp c.inverse →
      j.code = .cmp c → List.Forall₂ (OpEq ks) i.ops j.ops → (DKey.val i.id, DKey.val j.id) ∈ ks →
      Match l r φ ks ignL ignR (p ++ [i]) (q ++ [j]) ls rs →
      Match l r φ ks ignL ignR p q (i :: ls) (j :: rs)
  | reorder (p q : List DInst) (i j : DInst) (ls rs : List DInst) (o : BOp) (x y x' y' : DOp)
      (s t s' t' u : List DOp) : i.code = .bin o → j.code = .bin o → i.ty = j.ty →
      i.ops = [x, y] → j.ops = [x', y'] → x.ty = i.ty → y.ty = i.ty → x'.ty = j.ty → y'.ty = j.ty →
      DTree p o x s → DTree p o y t → DTree q o x' s' → DTree q o y' t' →
      (s ++ t).Perm u → List.Forall₂ (OpEq ks) u (s' ++ t') → (DKey.val i.id, DKey.val j.id) ∈ ks →
      Match l r φ ks ignL ignR (p ++ [i]) (q ++ [j]) ls rs →
      Match l r φ ks ignL ignR p q (i :: ls) (j :: rs)
  | ret (p q : List DInst) (i j : DInst) (ls rs : List DInst) : i.code = .ret → j.code = .ret →
      List.Forall₂ (OpEq ks) i.ops j.ops → Match l r φ ks ignL ignR p q (i :: ls) (j :: rs)
  | jump (p q : List DInst) (i j : DInst) (ls rs : List DInst) (b : Nat) : i.code = .jump →
      j.code = .jump → i.ops = [.blk b] → j.ops = [.blk (φ b)] →
      Match l r φ ks ignL ignR p q (i :: ls) (j :: rs)
  | branch (p q : List DInst) (i j : DInst) (ls rs : List DInst) (c d : DOp) (x y x' y' : Nat) :
      i.code = .branch → j.code = .branch → i.ops = [c, .blk x, .blk y] → j.ops = [d, .blk x', .blk y'] →
      OpEq ks c d → (if oppositeBranches l r i j then x' = φ y ∧ y' = φ x else x' = φ x ∧ y' = φ y) →
      Match l r φ ks ignL ignR p q (i :: ls) (j :: rs)

theorem OpEq.mono {ks ks' : List (DKey × DKey)} (h : ∀ p ∈ ks, p ∈ ks') {a b : DOp} (e : OpEq ks a b) :
    OpEq ks' a b := by
  cases e with
  | const w v => exact .const w v
  | ref a b w hm => exact .ref a b w (h _ hm)

/-- The negation of a truth value. -/
def negInt (v : Int) : Int := if v = 0 then -1 else 0

/-- Values of corresponding instructions are equal, those of opposite comparisons are negated. -/
def Related (l r : DFun) (ks : List (DKey × DKey)) (env env' : DEnv) : Prop :=
  ∀ a b, (DKey.val a, DKey.val b) ∈ ks →
    if opposite l r a b then env a = (env' b).map negInt ∧ (∀ v, env' b = some v → v = 0 ∨ v = -1)
    else env a = env' b

/-- What is known about the matching of whole functions. -/
structure Keys (l r : DFun) (ks : List (DKey × DKey)) (ignL ignR : List Nat) : Prop where
  left : (ks.map Prod.fst).Nodup
  right : (ks.map Prod.snd).Nodup
  ignL : ∀ a ∈ ignL, ∀ k, (DKey.val a, k) ∉ ks
  ignR : ∀ b ∈ ignR, ∀ k, (k, DKey.val b) ∉ ks
  users : ∀ a b, (DKey.val a, DKey.val b) ∈ ks → opposite l r a b = true →
    ∀ i ∈ l.all, ∀ w, DOp.ref a w ∈ i.ops → i.code = .branch

/-- Instructions of a block do not use themselves or later ones, and have different ids. -/
def Ordered (code : List DInst) : Prop :=
  (idsOf code).Nodup ∧
  ∀ pre i suf, code = pre ++ i :: suf → ∀ j ∈ pre ++ [i], ∀ w, DOp.ref i.id w ∉ j.ops

/-- The next blocks correspond. -/
def NextEq {Mem : Type} (l r : DFun) (φ : Nat → Nat) (ks : List (DKey × DKey)) : DNext Mem → DNext Mem → Prop
  | .done v m, .done v' m' => v = v' ∧ m = m'
  | .goto b e m, .goto b' e' m' => b' = φ b ∧ m = m' ∧ Related l r ks e e'
  | .stuck, .stuck => True
  | _, _ => False

theorem key_left {ks : List (DKey × DKey)} (h : (ks.map Prod.fst).Nodup) {a b c : DKey} (h1 : (a, b) ∈ ks)
    (h2 : (a, c) ∈ ks) : b = c := by
  induction ks with
  | nil => cases h1
  | cons p ks ih =>
    rw [List.map_cons, List.nodup_cons] at h
    rcases List.mem_cons.mp h1 with e1 | h1
    · rcases List.mem_cons.mp h2 with e2 | h2
      · rw [← e1] at e2; exact (congrArg Prod.snd e2).symm
      · exact absurd (List.mem_map_of_mem (f := Prod.fst) h2) (by rw [← e1] at h; exact h.1)
    · rcases List.mem_cons.mp h2 with e2 | h2
      · exact absurd (List.mem_map_of_mem (f := Prod.fst) h1) (by rw [← e2] at h; exact h.1)
      · exact ih h.2 h1 h2

theorem key_right {ks : List (DKey × DKey)} (h : (ks.map Prod.snd).Nodup) {a b c : DKey} (h1 : (b, a) ∈ ks)
    (h2 : (c, a) ∈ ks) : b = c := by
  induction ks with
  | nil => cases h1
  | cons p ks ih =>
    rw [List.map_cons, List.nodup_cons] at h
    rcases List.mem_cons.mp h1 with e1 | h1
    · rcases List.mem_cons.mp h2 with e2 | h2
      · rw [← e1] at e2; exact (congrArg Prod.fst e2).symm
      · exact absurd (List.mem_map_of_mem (f := Prod.snd) h2) (by rw [← e1] at h; exact h.1)
    · rcases List.mem_cons.mp h2 with e2 | h2
      · exact absurd (List.mem_map_of_mem (f := Prod.snd) h1) (by rw [← e2] at h; exact h.1)
      · exact ih h.2 h1 h2

theorem opEq_ty {ks : List (DKey × DKey)} {a b : DOp} (h : OpEq ks a b) : a.ty = b.ty := by
  cases h <;> rfl

/-- Operands of an instruction that is no branch have the same values. -/
theorem opEq_val {l r : DFun} {ks : List (DKey × DKey)} {ignL ignR : List Nat} (K : Keys l r ks ignL ignR)
    {env env' : DEnv} (hr : Related l r ks env env') {i : DInst} (hi : i ∈ l.all) (hb : i.code ≠ .branch)
    {a b : DOp} (ha : a ∈ i.ops) (h : OpEq ks a b) : evalOp env a = evalOp env' b := by
  cases h with
  | const w v => rfl
  | ref a b w hm =>
    have := hr a b hm
    cases ho : opposite l r a b with
    | true => exact absurd (K.users a b hm ho i hi w ha) hb
    | false => rw [ho] at this; exact this

theorem forall2_vals {l r : DFun} {ks : List (DKey × DKey)} {ignL ignR : List Nat}
    (K : Keys l r ks ignL ignR) {env env' : DEnv} (hr : Related l r ks env env') {i : DInst}
    (hi : i ∈ l.all) (hb : i.code ≠ .branch) : ∀ {s t : List DOp}, (∀ x ∈ s, x ∈ i.ops) →
      List.Forall₂ (OpEq ks) s t →
      s.map (evalOp env) = t.map (evalOp env') ∧ dEvalOps env s = dEvalOps env' t := by
  intro s t hs h
  induction h with
  | nil => exact ⟨rfl, rfl⟩
  | @cons a b s t hab _ ih =>
    have h1 := opEq_val K hr hi hb (hs a (by simp)) hab
    have h2 := ih fun x hx => hs x (by simp [hx])
    exact ⟨by simp [h1, h2.1], by simp only [dEvalOps, List.map_cons] at *; rw [h1, opEq_ty hab, h2.2]⟩

theorem exec_step {Mem : Type} (M : DMach Mem) {i : DInst} (ht : isTerm i = false) (hp : i.code ≠ .phi)
    (is : List DInst) (env : DEnv) (mem : Mem) :
    execBlock M (i :: is) env mem =
      execBlock M is (env.set i.id (evalInst M env mem i).1) (evalInst M env mem i).2 := by
  obtain ⟨id, code, ty, ops, inc⟩ := i
  cases code <;> first | rfl | exact absurd rfl hp | exact absurd ht (by simp [isTerm])

theorem bin_step {Mem : Type} (M : DMach Mem) {i : DInst} {o : BOp} {x y : DOp} (hc : i.code = .bin o)
    (ho : i.ops = [x, y]) (env : DEnv) (mem : Mem) :
    evalInst M env mem i = (both (binInt o i.ty) (evalOp env x) (evalOp env y), mem) := by
  simp only [evalInst, hc, ho, evalCode, dEvalOps, List.map_cons, List.map_nil]

theorem bin_mem {Mem : Type} (M : DMach Mem) {i : DInst} {o : BOp} (hc : i.code = .bin o) (env : DEnv)
    (mem : Mem) : (evalInst M env mem i).2 = mem := by
  simp only [evalInst, hc, evalCode]

theorem evalOp_set {env : DEnv} {a : Nat} {v : Option Int} {x : DOp} (h : ∀ w, x ≠ .ref a w) :
    evalOp (env.set a v) x = evalOp env x := by
  cases x with
  | const w v => rfl
  | blk b => rfl
  | ref b w =>
    have : b ≠ a := fun e => h w (by rw [e])
    simp [evalOp, DEnv.set, this]

theorem consistent_step {Mem : Type} (M : DMach Mem) {p : List DInst} {i : DInst} {ls : List DInst}
    (ho : Ordered (p ++ i :: ls)) {env : DEnv} (hc : Consistent env p) (mem : Mem) :
    Consistent (env.set i.id (evalInst M env mem i).1) (p ++ [i]) := by
  intro j hj o x y hcode hops
  have hno := ho.2 p i ls rfl j hj
  have hx : ∀ w, x ≠ .ref i.id w := fun w e => hno w (by rw [hops, e]; simp)
  have hy : ∀ w, y ≠ .ref i.id w := fun w e => hno w (by rw [hops, e]; simp)
  rw [evalOp_set hx, evalOp_set hy]
  rcases List.mem_append.mp hj with hj | hj
  · have hne : j.id ≠ i.id := by
      have := ho.1
      simp only [idsOf, List.map_append, List.map_cons, List.nodup_append] at this
      exact this.2.2 j.id (List.mem_map_of_mem hj) i.id (by simp)
    simp only [DEnv.set, if_neg hne]
    exact hc j hj o x y hcode hops
  · cases List.mem_singleton.mp hj
    simp only [DEnv.set, if_pos, bin_step M hcode hops]

theorem related_setL {l r : DFun} {ks : List (DKey × DKey)} {env env' : DEnv} (h : Related l r ks env env')
    {a : Nat} (ha : ∀ k, (DKey.val a, k) ∉ ks) (v : Option Int) : Related l r ks (env.set a v) env' := by
  intro c d hcd
  have hne : c ≠ a := fun e => ha _ (e ▸ hcd)
  simp only [DEnv.set, if_neg hne]
  exact h c d hcd

theorem related_setR {l r : DFun} {ks : List (DKey × DKey)} {env env' : DEnv} (h : Related l r ks env env')
    {b : Nat} (hb : ∀ k, (k, DKey.val b) ∉ ks) (v : Option Int) : Related l r ks env (env'.set b v) := by
  intro c d hcd
  have hne : d ≠ b := fun e => hb _ (e ▸ hcd)
  simp only [DEnv.set, if_neg hne]
  exact h c d hcd

theorem related_set {l r : DFun} {ks : List (DKey × DKey)} {ignL ignR : List Nat}
    (K : Keys l r ks ignL ignR) {env env' : DEnv} (h : Related l r ks env env') {a b : Nat}
    (hab : (DKey.val a, DKey.val b) ∈ ks) {v v' : Option Int}
    (hv : if opposite l r a b then v = v'.map negInt ∧ (∀ u, v' = some u → u = 0 ∨ u = -1) else v = v') :
    Related l r ks (env.set a v) (env'.set b v') := by
  intro c d hcd
  by_cases hc : c = a
  · subst hc
    have hd : d = b := by have := key_left K.left hcd hab; injection this
    subst hd
    simp only [DEnv.set, if_pos]
    exact hv
  · have hd : d ≠ b := fun e => hc (by
      have := key_right K.right hcd (e ▸ hab); injection this)
    simp only [DEnv.set, if_neg hc, if_neg hd]
    exact h c d hcd

/-- An inverse predicate holds when the predicate does not hold. -/
theorem holds_inverse (fcmp : Int → Int → FOrder) (p : Pred) (w : Nat) (a b : Int) :
    holdsPred fcmp p.inverse w a b = !holdsPred fcmp p w a b := by
  cases p <;> simp only [Pred.inverse, holdsPred]
  case f m =>
    cases fcmp a b <;> revert m <;> decide +kernel
  case eq => rfl
  case ne => simp [bne]
  all_goals simp only [BitVec.ule_eq_not_ult, BitVec.sle_eq_not_slt, Bool.not_not]

theorem truth_not (b : Bool) : truth (!b) = negInt (truth b) := by cases b <;> rfl

theorem truth_cases (b : Bool) : truth b = 0 ∨ truth b = -1 := by cases b <;> simp [truth]

theorem inverse_ne (p : Pred) : p.inverse ≠ p := by
  cases p <;> simp [Pred.inverse]
  case f m => revert m; decide +kernel

theorem find_id {f : DFun} (hn : (idsOf f.all).Nodup) {i : DInst} (hi : i ∈ f.all) :
    (f.all.find? fun j => j.id == i.id) = some i := by
  generalize f.all = all at hn hi
  induction all with
  | nil => cases hi
  | cons j all ih =>
    simp only [idsOf, List.map_cons, List.nodup_cons] at hn
    rcases List.mem_cons.mp hi with e | hi
    · subst e; simp
    · have : j.id ≠ i.id := fun e => hn.1 (e ▸ List.mem_map_of_mem hi)
      rw [List.find?_cons_of_neg (by simpa using this)]
      exact ih hn.2 hi

theorem predAt_eq {f : DFun} (hn : (idsOf f.all).Nodup) {i : DInst} (hi : i ∈ f.all) :
    predAt f i.id = match i.code with | .cmp p => some p | _ => none := by
  simp only [predAt, find_id hn hi, Option.bind_some]
  cases i.code <;> rfl

theorem opposite_same {l r : DFun} (hl : (idsOf l.all).Nodup) (hr : (idsOf r.all).Nodup) {i j : DInst}
    (hi : i ∈ l.all) (hj : j ∈ r.all) (h : i.code = j.code) : opposite l r i.id j.id = false := by
  simp only [opposite, predAt_eq hl hi, predAt_eq hr hj, h]
  cases j.code <;> simp

theorem opposite_inverse {l r : DFun} (hl : (idsOf l.all).Nodup) (hr : (idsOf r.all).Nodup) {i j : DInst}
    (hi : i ∈ l.all) (hj : j ∈ r.all) {c : Pred} (h : i.code = .cmp c.inverse) (h' : j.code = .cmp c) :
    opposite l r i.id j.id = true := by
  simp only [opposite, predAt_eq hl hi, predAt_eq hr hj, h, h']
  simpa using inverse_ne c

/-- The same instruction with the same operands. -/
theorem evalInst_same {Mem : Type} (M : DMach Mem) {l r : DFun} {ks : List (DKey × DKey)}
    {ignL ignR : List Nat} (K : Keys l r ks ignL ignR) {env env' : DEnv} (hr : Related l r ks env env')
    {i j : DInst} (hi : i ∈ l.all) (hb : i.code ≠ .branch) (hc : i.code = j.code) (hty : i.ty = j.ty)
    (ho : List.Forall₂ (OpEq ks) i.ops j.ops) (mem : Mem) :
    evalInst M env mem i = evalInst M env' mem j := by
  have h := forall2_vals K hr hi hb (fun x hx => hx) ho
  simp only [evalInst, hc, hty, h.2]

theorem forall2_leaves {l r : DFun} {ks : List (DKey × DKey)} {ignL ignR : List Nat}
    (K : Keys l r ks ignL ignR) {env env' : DEnv} (hr : Related l r ks env env') {s t : List DOp}
    (hs : ∀ x ∈ s, ∃ i ∈ l.all, i.code ≠ .branch ∧ x ∈ i.ops) (h : List.Forall₂ (OpEq ks) s t) :
    s.map (evalOp env) = t.map (evalOp env') := by
  induction h with
  | nil => rfl
  | @cons a b s t hab _ ih =>
    obtain ⟨i, hi, hb, ha⟩ := hs a (by simp)
    rw [List.map_cons, List.map_cons, opEq_val K hr hi hb ha hab, ih fun x hx => hs x (by simp [hx])]

/-- Matched code does the same. -/
theorem match_exec {Mem : Type} (M : DMach Mem) {l r : DFun} {φ : Nat → Nat} {ks : List (DKey × DKey)}
    {ignL ignR : List Nat} (K : Keys l r ks ignL ignR) (hnl : (idsOf l.all).Nodup)
    (hnr : (idsOf r.all).Nodup) {p q ls rs : List DInst} (h : Match l r φ ks ignL ignR p q ls rs) :
    ∀ (env env' : DEnv) (mem : Mem), Related l r ks env env' → Consistent env p → Consistent env' q →
      (∀ i ∈ p ++ ls, i ∈ l.all) → (∀ i ∈ q ++ rs, i ∈ r.all) → Ordered (p ++ ls) → Ordered (q ++ rs) →
      NextEq l r φ ks (execBlock M ls env mem) (execBlock M rs env' mem) := by
  have cons_eq : ∀ (p : List DInst) i ls, p ++ i :: ls = (p ++ [i]) ++ ls := by simp
  induction h with
  | nil p q => intro env env' mem hr _ _ _ _ _ _; trivial
  | skipL p q i ls rs o hc hi _ ih =>
    intro env env' mem hr h1 h2 hl hr' ol or'
    rw [exec_step M (by simp [isTerm, hc]) (by simp [hc]), bin_mem M hc]
    exact ih _ _ mem (related_setL hr (K.ignL _ hi) _) (consistent_step M ol h1 mem) h2
      (by rw [← cons_eq]; exact hl) hr' (by rw [← cons_eq]; exact ol) or'
  | skipR p q i ls rs o hc hi _ ih =>
    intro env env' mem hr h1 h2 hl hr' ol or'
    rw [exec_step M (i := i) (by simp [isTerm, hc]) (by simp [hc]), bin_mem M hc]
    exact ih _ _ mem (related_setR hr (K.ignR _ hi) _) h1 (consistent_step M or' h2 mem)
      hl (by rw [← cons_eq]; exact hr') ol (by rw [← cons_eq]; exact or')
  | same p q i j ls rs hc hty ht hp ho hm _ ih =>
    intro env env' mem hr h1 h2 hl hr' ol or'
    have hi : i ∈ l.all := hl i (by simp)
    have hj : j ∈ r.all := hr' j (by simp)
    have hb : i.code ≠ .branch := fun e => by simp [isTerm, e] at ht
    rw [exec_step M ht hp, exec_step M (i := j) (by simpa [isTerm, hc] using ht) (hc ▸ hp)]
    have he := evalInst_same M K hr hi hb hc hty ho mem
    have c1 := consistent_step M ol h1 mem
    have c2 := consistent_step M or' h2 mem
    rw [he] at c1 ⊢
    refine ih _ _ _ (related_set K hr hm ?_) c1 c2
      (by rw [← cons_eq]; exact hl) (by rw [← cons_eq]; exact hr') (by rw [← cons_eq]; exact ol)
      (by rw [← cons_eq]; exact or')
    simp [opposite_same hnl hnr hi hj hc]
  | inverse p q i j ls rs c hc hc' ho hm _ ih =>
    intro env env' mem hr h1 h2 hl hr' ol or'
    have hi : i ∈ l.all := hl i (by simp)
    have hj : j ∈ r.all := hr' j (by simp)
    have hv := (forall2_vals K hr hi (by simp [hc]) (fun x hx => hx) ho).2
    rw [exec_step M (by simp [isTerm, hc]) (by simp [hc]),
      exec_step M (i := j) (by simp [isTerm, hc']) (by simp [hc'])]
    have m1 : (evalInst M env mem i).2 = mem := by simp only [evalInst, hc, evalCode]
    have m2 : (evalInst M env' mem j).2 = mem := by simp only [evalInst, hc', evalCode]
    rw [m1, m2]
    refine ih _ _ _ (related_set K hr hm ?_) (consistent_step M ol h1 mem) (consistent_step M or' h2 mem)
      (by rw [← cons_eq]; exact hl) (by rw [← cons_eq]; exact hr') (by rw [← cons_eq]; exact ol)
      (by rw [← cons_eq]; exact or')
    rw [opposite_inverse hnl hnr hi hj hc hc', if_pos rfl]
    simp only [evalInst, hc, hc', evalCode, hv]
    generalize dEvalOps env' j.ops = vals
    rcases vals with _ | ⟨x, _ | ⟨y, _ | ⟨z, vals⟩⟩⟩ <;> try exact ⟨rfl, fun u hu => nomatch hu⟩
    obtain ⟨wx, vx⟩ := x
    obtain ⟨wy, vy⟩ := y
    cases vx with
    | none => exact ⟨rfl, fun u hu => nomatch hu⟩
    | some vx =>
      cases vy with
      | none => exact ⟨rfl, fun u hu => nomatch hu⟩
      | some vy =>
        refine ⟨?_, fun u hu => ?_⟩
        · simp only [both, Option.map_some, holds_inverse, truth_not]
        · simp only [both, Option.some.injEq] at hu
          rw [← hu]; exact truth_cases _
  | reorder p q i j ls rs o x y x' y' s t s' t' u hc hc' hty hop hop' hx hy hx' hy' d1 d2 d3 d4 hperm hu hm
      _ ih =>
    intro env env' mem hr h1 h2 hl hr' ol or'
    have hi : i ∈ l.all := hl i (by simp)
    have hj : j ∈ r.all := hr' j (by simp)
    have hleaf : ∀ z ∈ s ++ t, ∃ k ∈ l.all, k.code ≠ .branch ∧ z ∈ k.ops := by
      intro z hz
      rcases List.mem_append.mp hz with hz | hz
      · rcases dtree_leaf d1 z hz with e | ⟨k, hk, hkc, hko⟩
        · exact ⟨i, hi, by simp [hc], by rw [hop, e]; simp⟩
        · exact ⟨k, hl k (by simp [hk]), by simp [hkc], hko⟩
      · rcases dtree_leaf d2 z hz with e | ⟨k, hk, hkc, hko⟩
        · exact ⟨i, hi, by simp [hc], by rw [hop, e]; simp⟩
        · exact ⟨k, hl k (by simp [hk]), by simp [hkc], hko⟩
    have hvals : u.map (evalOp env) = (s' ++ t').map (evalOp env') :=
      forall2_leaves K hr (fun z hz => hleaf z (hperm.mem_iff.mpr hz)) hu
    have e1 : evalInst M env mem i = evalInst M env' mem j := by
      rw [bin_step M hc hop, bin_step M hc' hop', both_eq, both_eq, ← hty,
        dtree_bits d1 h1 i.ty hx, dtree_bits d2 h1 i.ty hy, dtree_bits d3 h2 i.ty (hx'.trans hty.symm),
        dtree_bits d4 h2 i.ty (hy'.trans hty.symm), ← foldBits_append, ← foldBits_append,
        ← List.map_append, ← List.map_append, foldBits_perm o (hperm.map _)]
      have : (fun x => bits i.ty (evalOp env x)) = (bits i.ty ∘ evalOp env) := rfl
      have h' : (fun x => bits i.ty (evalOp env' x)) = (bits i.ty ∘ evalOp env') := rfl
      rw [this, h', ← List.map_map, ← List.map_map, hvals]
    rw [exec_step M (by simp [isTerm, hc]) (by simp [hc]),
      exec_step M (i := j) (by simp [isTerm, hc']) (by simp [hc'])]
    have c1 := consistent_step M ol h1 mem
    have c2 := consistent_step M or' h2 mem
    rw [e1] at c1 ⊢
    refine ih _ _ _ (related_set K hr hm ?_) c1 c2
      (by rw [← cons_eq]; exact hl) (by rw [← cons_eq]; exact hr') (by rw [← cons_eq]; exact ol)
      (by rw [← cons_eq]; exact or')
    simp [opposite_same hnl hnr hi hj (hc.trans hc'.symm)]
  | ret p q i j ls rs hc hc' ho =>
    intro env env' mem hr h1 h2 hl hr' ol or'
    have hi : i ∈ l.all := hl i (by simp)
    have := (forall2_vals K hr hi (by simp [hc]) (fun x hx => hx) ho).1
    simp only [execBlock, hc, hc', NextEq, this, and_self]
  | jump p q i j ls rs b hc hc' ho ho' =>
    intro env env' mem hr h1 h2 hl hr' ol or'
    simp only [execBlock, hc, hc', ho, ho', NextEq, true_and]
    exact hr
  | branch p q i j ls rs c d x y x' y' hc hc' ho ho' hcd hif =>
    intro env env' mem hr h1 h2 hl hr' ol or'
    simp only [execBlock, hc, hc', ho, ho']
    have plain : evalOp env c = evalOp env' d → oppositeBranches l r i j = false →
        NextEq l r φ ks
          (match evalOp env c with
            | some v => .goto (if v = 0 then x else y) env mem
            | none => .stuck)
          (match evalOp env' d with
            | some v => .goto (if v = 0 then x' else y') env' mem
            | none => .stuck) := by
      intro he hop
      rw [hop, if_neg (by simp)] at hif
      rw [he, hif.1, hif.2]
      cases evalOp env' d with
      | none => trivial
      | some v => exact ⟨by split <;> rfl, rfl, hr⟩
    cases hcd with
    | const w v => exact plain rfl (by simp [oppositeBranches, hc, ho])
    | ref a b w hm =>
      have hob : oppositeBranches l r i j = opposite l r a b := by simp [oppositeBranches, hc, ho, ho']
      have hab := hr a b hm
      cases hopp : opposite l r a b with
      | false =>
        rw [hopp, if_neg (by simp)] at hab
        exact plain hab (hob.trans hopp)
      | true =>
        rw [hopp, if_pos rfl] at hab
        rw [hob, hopp, if_pos rfl] at hif
        simp only [evalOp]
        rw [hab.1, hif.1, hif.2]
        cases hv : env' b with
        | none => trivial
        | some v =>
          rcases hab.2 v hv with e | e <;> subst e
          · exact ⟨rfl, rfl, hr⟩
          · exact ⟨rfl, rfl, hr⟩

theorem enter_plain {f : DFun} (h : Plain f) {b : Nat} {B : DBlock} (hB : f.find b = some B)
    (from_ : Option Nat) (env : DEnv) : enterBlock from_ B.code env = env := by
  funext a
  have : (B.code.find? fun i => i.id == a && decide (i.code = .phi)) = none := by
    rw [List.find?_eq_none]
    intro i hi
    have := (h i (List.mem_flatMap.mpr ⟨B, List.mem_of_find?_eq_some hB, hi⟩)).1
    simp [this]
  simp only [enterBlock, this]

theorem exec_goto {Mem : Type} (M : DMach Mem) : ∀ (code : List DInst) (env : DEnv) (mem : Mem) {b : Nat}
    {e : DEnv} {m : Mem}, execBlock M code env mem = .goto b e m → ∃ t ∈ code, b ∈ targets t
  | [], _, _, _, _, _, h => by simp [execBlock] at h
  | i :: is, env, mem, b, e, m, h => by
    have rest : ∀ env mem, execBlock M is env mem = .goto b e m → ∃ t ∈ i :: is, b ∈ targets t := by
      intro env mem h
      obtain ⟨t, ht, hb⟩ := exec_goto M is env mem h
      exact ⟨t, by simp [ht], hb⟩
    by_cases hp : i.code = .phi
    · simp only [execBlock, hp] at h
      exact rest _ _ h
    · cases ht : isTerm i with
      | false => rw [exec_step M ht hp] at h; exact rest _ _ h
      | true =>
        have hc : i.code = .ret ∨ i.code = .jump ∨ i.code = .branch := by
          unfold isTerm at ht
          cases hc : i.code <;> simp [hc] at ht ⊢
        rcases hc with hc | hc | hc
        · simp [execBlock, hc] at h
        · simp only [execBlock, hc] at h
          split at h
          case h_3 b' heq ho =>
            cases h
            exact ⟨i, by simp, by simp [targets, ho]⟩
          all_goals first | cases h | simp_all
        · simp only [execBlock, hc] at h
          split at h <;> try simp_all
          rename_i c x y ho
          split at h <;> try simp_all
          obtain ⟨h1, _, _⟩ := h
          left
          rw [← h1]
          simp only [targets, ho]
          cases c <;> split <;> simp

/-- Matched functions take the same steps. -/
theorem match_runs {Mem : Type} (M : DMach Mem) {l r : DFun} {φ : Nat → Nat} {ks : List (DKey × DKey)}
    {ignL ignR : List Nat} (K : Keys l r ks ignL ignR) (hnl : (idsOf l.all).Nodup)
    (hnr : (idsOf r.all).Nodup) (hpl : Plain l) (hpr : Plain r) (V : List Nat)
    (hV : ∀ b ∈ V, ∃ B C, l.find b = some B ∧ r.find (φ b) = some C ∧
      Match l r φ ks ignL ignR [] [] B.code C.code ∧ Ordered B.code ∧ Ordered C.code ∧
      ∀ t ∈ B.code, ∀ c ∈ targets t, c ∈ V) :
    ∀ (n : Nat) (from_ from' : Option Nat) (b : Nat) (env env' : DEnv) (mem : Mem), b ∈ V →
      Related l r ks env env' → runBlocks M l n from_ b env mem = runBlocks M r n from' (φ b) env' mem
  | 0, _, _, _, _, _, _, _, _ => rfl
  | n + 1, from_, from', b, env, env', mem, hb, hr => by
    obtain ⟨B, C, hB, hC, hm, o1, o2, ht⟩ := hV b hb
    have key := match_exec M K hnl hnr hm env env' mem hr (by intro j hj; cases hj) (by intro j hj; cases hj)
      (fun i hi => List.mem_flatMap.mpr ⟨B, List.mem_of_find?_eq_some hB, hi⟩)
      (fun i hi => List.mem_flatMap.mpr ⟨C, List.mem_of_find?_eq_some hC, hi⟩) o1 o2
    simp only [runBlocks, hB, hC, enter_plain hpl hB, enter_plain hpr hC]
    cases h1 : execBlock M B.code env mem with
    | done v m =>
      cases h2 : execBlock M C.code env' mem with
      | done v' m' => rw [h1, h2] at key; simp only [NextEq] at key; simp [key.1, key.2]
      | goto b' e' m' => rw [h1, h2] at key; exact key.elim
      | stuck => rw [h1, h2] at key; exact key.elim
    | stuck =>
      cases h2 : execBlock M C.code env' mem with
      | done v' m' => rw [h1, h2] at key; exact key.elim
      | goto b' e' m' => rw [h1, h2] at key; exact key.elim
      | stuck => rfl
    | goto c e m =>
      cases h2 : execBlock M C.code env' mem with
      | done v' m' => rw [h1, h2] at key; exact key.elim
      | stuck => rw [h1, h2] at key; exact key.elim
      | goto c' e' m' =>
        rw [h1, h2] at key
        obtain ⟨k1, k2, k3⟩ := key
        subst k1 k2
        obtain ⟨t, htm, htc⟩ := exec_goto M _ _ _ h1
        exact match_runs M K hnl hnr hpl hpr V hV n _ _ c e e' m (ht t htm c htc) k3

theorem lookup_zip {ids : List Nat} (hn : ids.Nodup) : ∀ {k : Nat} {a : Nat} (vals : List Int),
    ids[k]? = some a → (ids.zip vals).lookup a = vals[k]? := by
  induction ids with
  | nil => intro k a vals h; simp at h
  | cons x ids ih =>
    rw [List.nodup_cons] at hn
    intro k a vals h
    cases vals with
    | nil => simp
    | cons v vals =>
      cases k with
      | zero => simp only [List.getElem?_cons_zero, Option.some.injEq] at h; simp [h]
      | succ k =>
        simp only [List.getElem?_cons_succ] at h
        have : a ≠ x := fun e => hn.1 (e ▸ List.mem_of_getElem? h)
        simp only [List.zip_cons_cons, List.lookup_cons, List.getElem?_cons_succ]
        rw [show (a == x) = false by simpa using this]
        exact ih hn.2 vals h

theorem lookup_zip_none {ids : List Nat} : ∀ {a : Nat} (vals : List Int), a ∉ ids →
    (ids.zip vals).lookup a = none := by
  induction ids with
  | nil => intro a vals _; simp
  | cons x ids ih =>
    intro a vals h
    simp only [List.mem_cons, not_or] at h
    cases vals with
    | nil => simp
    | cons v vals =>
      simp only [List.zip_cons_cons, List.lookup_cons]
      rw [show (a == x) = false by simpa using h.1]
      exact ih vals h.2

/-- Values are related when corresponding functions are called with the same arguments. -/
theorem related_args {l r : DFun} (hl : DWellFormed l) (hr : DWellFormed r) {ks : List (DKey × DKey)}
    (ho : ∀ a b, (DKey.val a, DKey.val b) ∈ ks →
      (∃ k : Nat, (l.args.map Prod.fst)[k]? = some a ∧ (r.args.map Prod.fst)[k]? = some b) ∨
        (a ∈ idsOf l.all ∧ b ∈ idsOf r.all)) (vals : List Int) :
    Related l r ks (argEnv l vals) (argEnv r vals) := by
  have nl := List.nodup_append.mp hl.ids
  have nr := List.nodup_append.mp hr.ids
  intro a b hab
  rcases ho a b hab with ⟨k, ha, hb⟩ | ⟨ha, hb⟩
  · have : opposite l r a b = false := by
      have : (l.all.find? fun i => i.id == a) = none := by
        rw [List.find?_eq_none]
        intro i hi
        have := nl.2.2 a (List.mem_of_getElem? ha) i.id (List.mem_map_of_mem hi)
        simpa using fun e => this e.symm
      simp [opposite, predAt, this]
    rw [this, if_neg (by simp)]
    simp only [argEnv, lookup_zip nl.1 vals ha, lookup_zip nr.1 vals hb]
  · have h1 : argEnv l vals a = none := lookup_zip_none vals fun h => nl.2.2 a h a ha rfl
    have h2 : argEnv r vals b = none := lookup_zip_none vals fun h => nr.2.2 b h b hb rfl
    rw [h1, h2]
    split
    · exact ⟨rfl, fun v h => nomatch h⟩
    · rfl

end DK
