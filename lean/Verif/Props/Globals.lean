import Verif.Spec.Globals
import Verif.Lemmas.FunCmp
import Mathlib.Data.List.Nodup
import Mathlib.Data.Finset.Prod
import Mathlib.Data.Finset.Card

/-!
C100 and C101: comparison of global values.
-/

set_option autoImplicit false

namespace DK
open Spec

variable {p : Nat} {G H : Nat → GVal}

/-- C100: global values that are found equal stand for the same: they are constants with the same content or the same
symbol. -/
def C100_statement : Prop :=
  ∀ (p : Nat) (G H : Nat → GVal) (fuel l r : Nat), cmpGlob p G H fuel [] l r = some true → SameContent id p G H l r

/-- Two static variables of a function, `f.x` and `f.x.1`. -/
def staticVars (i : Nat) : GVal :=
  { name := if i = 0 then str! "f.x" else str! "f.x.1", kind := .var false (some (.int 32 1)) }

/-- C100 fails: variables whose names differ in a number at the end are found equal. -/
theorem C100_fails : ¬ C100_statement := by
  intro h
  have h1 := h 64 staticVars staticVars 1 0 1 (by decide +kernel) 1
  simp [contentOf, staticVars] at h1

/-- `printk` and `sprintf`. -/
def printFuns (i : Nat) : GVal :=
  { name := if i = 0 then str! "printk" else str! "sprintf", kind := .func [] [] }

/-- C100 fails: all functions that print are found equal, also `sprintf`, which writes to memory. -/
theorem C100_fails_print : ∃ p G H l r, cmpGlob p G H 1 [] l r = some true ∧ ¬ SameContent id p G H l r := by
  refine ⟨64, printFuns, printFuns, 0, 1, by decide +kernel, fun h => ?_⟩
  have h1 := h 1
  simp [contentOf, printFuns, startsWith, List.isPrefixOf] at h1

/-- What the code distinguishes: names without the number at the end, and one class of functions that print. -/
def nameClass (s : Str) : Str := if isKernelPrint (stem s) then str! "printk" else stem s

/-- Constants without references and components. -/
def isLeaf : Const → Bool
  | .global _ => false
  | .aggr _ _ _ => false
  | .expr _ _ _ => false
  | _ => true

theorem treeOf_leaf {tl : Nat → CTree} : ∀ {c : Const}, isLeaf c = true → treeOf p tl c = .leaf (normConst p c)
  | .int _ _, _ | .fp _ _, _ | .null _, _ | .undef _, _ | .poison _, _ | .data _ _, _ => by simp only [treeOf]

theorem isLeaf_norm (p : Nat) : ∀ c : Const, isLeaf (normConst p c) = isLeaf c
  | .int _ _ | .fp _ _ => by simp only [normConst]; split <;> rfl
  | .null _ | .undef _ | .poison _ | .data _ _ | .global _ | .aggr _ _ _ | .expr _ _ _ => by simp [normConst, isLeaf]

/-- Same kind of compound constant. -/
def bothCompound : Const → Const → Bool
  | .global _, .global _ => true
  | .aggr _ _ _, .aggr _ _ _ => true
  | .expr _ _ _, .expr _ _ _ => true
  | _, _ => false

theorem cmpConstW_base {g : Nat → Nat → Option Bool} {a b : Const} (hab : bothCompound a b = false)
    (h : cmpConstW p g a b = some true) : cmpConst p a b = 0 := by
  rw [cmpConstW] at h
  case x_2 | x_3 | x_4 =>
    intros
    subst_vars
    simp [bothCompound] at hab
  cases hd : typesDecide p a.ty b.ty with
  | some r => simp [hd] at h
  | none =>
    simp only [hd] at h
    split at h
    · rename_i hn
      rw [cmpConst]
      simp only [hd, hn, if_true]
      simpa using h
    · split at h
      · simp at h
      · cases a <;> cases b <;> first | (simp [bothCompound] at hab; done) | simpa using h

theorem cmpConstW_leaf {g : Nat → Nat → Option Bool} {tl tr : Nat → CTree} {a b : Const} (hn : NoExpr a)
    (hab : bothCompound a b = false) (hl : isLeaf a = true ∨ isLeaf b = true)
    (h : cmpConstW p g a b = some true) : treeOf p tl a = treeOf p tr b := by
  have h1 := cmpConst_norm p a b hn (cmpConstW_base hab h)
  have h2 : isLeaf a = isLeaf b := by rw [← isLeaf_norm p a, h1, isLeaf_norm]
  have h3 : isLeaf a = true := by rcases hl with h | h; exacts [h, h2 ▸ h]
  rw [treeOf_leaf h3, treeOf_leaf (h2 ▸ h3), h1]

theorem cmpConstW_mixed {g : Nat → Nat → Option Bool} {a b : Const} (hn : NoExpr a)
    (hab : bothCompound a b = false) (hk : bothCompound (normConst p a) (normConst p b) = false)
    (hl : isLeaf a = false) (h : cmpConstW p g a b = some true) : False := by
  have h1 := cmpConst_norm p a b hn (cmpConstW_base hab h)
  rw [h1] at hk
  have h2 := isLeaf_norm p a
  rw [h1, hl] at h2
  cases h3 : normConst p b <;> rw [h3] at hk h2 <;> simp_all [isLeaf, bothCompound]

mutual
theorem cmpConstW_tree {g : Nat → Nat → Option Bool} {tl tr : Nat → CTree}
    (hg : ∀ a b, g a b = some true → tl a = tr b) :
    ∀ a b : Const, NoExpr a → cmpConstW p g a b = some true → treeOf p tl a = treeOf p tr b
  | .aggr k t es, .aggr k' t' es', hn, h => by
    rw [cmpConstW] at h
    cases hd : typesDecide p (Const.aggr k t es).ty (Const.aggr k' t' es').ty with
    | some r => simp [hd] at h
    | none =>
      have hc := contentTy_eq hd
      simp only [Const.ty] at hc
      simp only [hd, Const.isNull, Bool.false_and, Bool.or_self, Bool.false_eq_true, if_false] at h
      split at h
      · rename_i hk
        simp only [Bool.and_eq_true, decide_eq_true_eq] at hk
        rw [treeOf, treeOf, hk.1, hc, cmpConstListW_tree hg es es' hk.2 (by simpa [NoExpr] using hn) h]
      · simp at h
  | .global a, .global b, _, h => by
    rw [cmpConstW] at h
    simp [typesDecide, Const.ty, cmpTypes_refl, Const.isNull] at h
    rw [treeOf, treeOf]
    exact hg a b h
  | .expr _ _ _, b, hn, _ => by simp [NoExpr] at hn
  | .int _ _, b, _, h | .fp _ _, b, _, h | .null _, b, _, h | .undef _, b, _, h | .poison _, b, _, h
  | .data _ _, b, _, h => cmpConstW_leaf (by simp [NoExpr]) (by cases b <;> rfl) (.inl rfl) h
  | .global a, .int _ _, _, h | .global a, .fp _ _, _, h | .global a, .null _, _, h | .global a, .undef _, _, h
  | .global a, .poison _, _, h | .global a, .data _ _, _, h | .global a, .aggr _ _ _, _, h
  | .global a, .expr _ _ _, _, h => by
    refine (cmpConstW_mixed (by simp [NoExpr]) rfl ?_ rfl h).elim
    simp only [normConst]
    first | rfl | (split <;> rfl)
  | .aggr _ _ _, .int _ _, _, h | .aggr _ _ _, .fp _ _, _, h | .aggr _ _ _, .null _, _, h
  | .aggr _ _ _, .undef _, _, h | .aggr _ _ _, .poison _, _, h | .aggr _ _ _, .global _, _, h
  | .aggr _ _ _, .data _ _, _, h | .aggr _ _ _, .expr _ _ _, _, h => by
    refine (cmpConstW_mixed (by assumption) rfl ?_ rfl h).elim
    simp only [normConst]
    first | rfl | (split <;> rfl)
theorem cmpConstListW_tree {g : Nat → Nat → Option Bool} {tl tr : Nat → CTree}
    (hg : ∀ a b, g a b = some true → tl a = tr b) :
    ∀ as bs : List Const, as.length = bs.length → NoExprs as → cmpConstListW p g as bs = some true →
      treesOf p tl as = treesOf p tr bs
  | [], [], _, _, _ => rfl
  | a :: as, b :: bs, hl, hn, h => by
    rw [cmpConstListW] at h
    rw [NoExprs] at hn
    split at h
    · rename_i h1
      rw [treesOf, treesOf, cmpConstW_tree hg a b hn.1 h1, cmpConstListW_tree hg as bs (by simpa using hl) hn.2 h]
    · rename_i x hx
      exact absurd h (by simpa using hx)
end

theorem content?_some {g : GVal} {c : Const} (h : g.content? = some c) : g.kind = .var true (some c) := by
  unfold GVal.content? at h
  split at h
  · rename_i h1
    rw [h1, h]
  · simp at h

theorem content?_none {g : GVal} (h : g.content? = none) (c : Const) : g.kind ≠ .var true (some c) := by
  intro h1
  simp [GVal.content?, h1] at h

/-- What a global value that is no constant stands for. -/
theorem contentOf_sym {cls : Str → Str} {n g : Nat} (h : (G g).content? = none) :
    contentOf cls p G (n + 1) g =
      match (G g).asm? with
      | some (a, c) => .asm a c
      | none => .sym (cls (G g).name) := by
  rw [contentOf]
  cases hk : (G g).kind with
  | var k init =>
    cases k with
    | true =>
      cases init with
      | none => simp [GVal.asm?, hk]
      | some c => exact absurd hk (content?_none h c)
    | false => simp [GVal.asm?, hk]
  | func a c =>
    simp only [GVal.asm?, hk]
    show (if startsWith (G g).name asmPrefix = true then _ else _) = _
    split <;> simp_all

/-- What kind of thing a global value is: a constant with content, inline assembly, or a symbol. -/
def shape (g : GVal) : Nat :=
  match g.kind with
  | .var true (some _) => 0
  | .var _ _ => 2
  | .func _ _ => if startsWith g.name (str! "simpll__inlineasm.") then 1 else 2

/-- Values that the code identifies by name are of the same kind in both modules. -/
def SameShapes (G H : Nat → GVal) : Prop :=
  ∀ l r, nameClass (G l).name = nameClass (H r).name → shape (G l) = shape (H r)

theorem shape_content {g : GVal} : shape g = 0 ↔ g.content?.isSome = true := by
  unfold shape GVal.content?
  cases g.kind with
  | var k i => cases k <;> cases i <;> simp
  | func a c => simp only; split <;> simp

theorem shape_asm {g : GVal} : shape g = 1 ↔ g.asm?.isSome = true := by
  show (match g.kind with
    | .var true (some _) => 0
    | .var _ _ => 2
    | .func _ _ => if startsWith g.name asmPrefix then 1 else 2) = 1 ↔ _
  unfold GVal.asm?
  cases g.kind with
  | var k i => cases k <;> cases i <;> simp
  | func a c => simp only; split <;> simp

theorem cmpByName_class {l r : GVal} (h : cmpByName l r = true) :
    nameClass l.name = nameClass r.name ∧ ∀ a b, l.asm? = some a → r.asm? = some b → a = b := by
  unfold cmpByName at h
  split at h
  · split at h
    · rename_i h1
      refine ⟨?_, ?_⟩
      · simp only [Bool.or_eq_true, Bool.and_eq_true, decide_eq_true_eq] at h1
        unfold nameClass
        rcases h1 with h1 | ⟨h1, h2⟩
        · rw [h1]
        · rw [h1, h2]; rfl
      · intro a b ha hb
        simpa [ha, hb] using h
    · simp at h
  · simp at h

theorem cmpGlob_sound {cls : Str → Str} (hG : ∀ i c, (G i).kind = .var true (some c) → NoExpr c)
    (hs : SameShapes G H)
    (hcls : ∀ l r, nameClass (G l).name = nameClass (H r).name → cls (G l).name = cls (H r).name) :
    ∀ (n fuel : Nat) (A : List (Nat × Nat)) (l r : Nat),
      (∀ m ≤ n, ∀ q ∈ A, contentOf cls p G m q.1 = contentOf cls p H m q.2) → cmpGlob p G H fuel A l r = some true →
      contentOf cls p G n l = contentOf cls p H n r := by
  intro n
  induction n using Nat.strong_induction_on with
  | _ n ihn =>
    cases n with
    | zero => intros; rfl
    | succ n =>
      intro fuel A l r hA h
      cases fuel with
      | zero => simp [cmpGlob] at h
      | succ fuel =>
        have h0 := h
        rw [cmpGlob] at h
        split at h
        · rename_i hm
          exact hA _ (Nat.le_refl _) _ hm
        · have hname : cmpByName (G l) (H r) = true → (G l).content? = none ∨ (H r).content? = none →
              contentOf cls p G (n + 1) l = contentOf cls p H (n + 1) r := by
            intro h hno
            obtain ⟨h1, h2⟩ := cmpByName_class h
            have h3 := hs l r h1
            have hc : (G l).content?.isSome = (H r).content?.isSome := by
              rw [Bool.eq_iff_iff, ← shape_content, ← shape_content, h3]
            have ha : (G l).asm?.isSome = (H r).asm?.isSome := by
              rw [Bool.eq_iff_iff, ← shape_asm, ← shape_asm, h3]
            have hl : (G l).content? = none := by
              rcases hno with h | h
              · exact h
              · rw [h] at hc; simpa using hc
            have hr : (H r).content? = none := by rw [hl] at hc; simpa using hc.symm
            rw [contentOf_sym hl, contentOf_sym hr]
            cases hal : (G l).asm? with
            | none =>
              rw [hal] at ha
              have : (H r).asm? = none := by simpa using ha.symm
              rw [this]
              exact congrArg _ (hcls l r h1)
            | some a =>
              cases har : (H r).asm? with
              | none => rw [hal, har] at ha; simp at ha
              | some b => rw [h2 a b hal har]
          split at h
          · rename_i a b ha hb
            rw [contentOf, contentOf, content?_some ha, content?_some hb]
            simp only
            congr 1
            refine cmpConstW_tree (fun x y hxy => ihn n (by omega) fuel ((l, r) :: A) x y ?_ hxy) a b
              (hG l a (content?_some ha)) h
            intro m hm q hq
            rcases List.mem_cons.1 hq with rfl | hq
            · exact ihn m (by omega) (fuel + 1) A l r (fun k hk => hA k (by omega)) h0
            · exact hA m (by omega) q hq
          · rename_i hno
            refine hname (by simpa using h) ?_
            cases hl : (G l).content? with
            | none => exact .inl rfl
            | some a =>
              cases hr : (H r).content? with
              | none => exact .inr rfl
              | some b => exact (hno a b hl hr).elim

/-- C100, proved part: values that are found equal stand for the same, if names are only distinguished up to a number at
the end, and functions that print not at all. Missing: the distinction of such names (for which the property fails),
constant expressions (whose operators are not compared), and values that are constants with a known content in one
version only. -/
theorem C100_partial (hG : ∀ i c, (G i).kind = .var true (some c) → NoExpr c) (hs : SameShapes G H) (fuel l r : Nat)
    (h : cmpGlob p G H fuel [] l r = some true) : SameContent nameClass p G H l r :=
  fun n => cmpGlob_sound hG hs (fun _ _ h => h) n fuel [] l r (by simp) h

/-- C100, proved part: in modules whose names differ in more than a number at the end, and with at most one function
that prints, values that are found equal stand for the same. -/
theorem C100_names_partial (hG : ∀ i c, (G i).kind = .var true (some c) → NoExpr c) (hs : SameShapes G H)
    (hn : ∀ i j, nameClass (G i).name = nameClass (H j).name → (G i).name = (H j).name) (fuel l r : Nat)
    (h : cmpGlob p G H fuel [] l r = some true) : SameContent id p G H l r :=
  fun n => cmpGlob_sound hG hs hn n fuel [] l r (by simp) h

/-- `const int x = 5` and `int x = 6`. -/
def constVar (i : Nat) : GVal := { name := str! "x", kind := .var (i == 0) (some (.int 32 (5 + i))) }

/-- C100 fails: a constant is found equal to a variable with another value. -/
theorem C100_fails_const : ∃ p G H l r, cmpGlob p G H 1 [] l r = some true ∧ ¬ SameContent nameClass p G H l r := by
  refine ⟨64, constVar, constVar, 0, 1, by decide +kernel, fun h => ?_⟩
  have h1 := h 1
  simp [contentOf, constVar] at h1

/-- `a = {1, &b, f}`, `b = {2, &a}`, where the numbers of the values are given. -/
def cyclic (swap : Bool) (i : Nat) : GVal :=
  let a := if swap then 1 else 0
  if i = a then
    { name := str! "a", kind := .var true (some (.aggr 1 (.struct false [.int 32, .ptr 0, .ptr 0])
        [.int 32 1, .global (1 - a), .global 2])) }
  else if i = 1 - a then
    { name := str! "b", kind := .var true (some (.aggr 1 (.struct false [.int 32, .ptr 0]) [.int 32 2, .global a])) }
  else { name := str! "f", kind := .func [] [] }

/-- A case of `C100_partial` and `C100_names_partial`: constants that refer to each other. -/
example : (∀ i c, (cyclic false i).kind = .var true (some c) → NoExpr c) ∧ SameShapes (cyclic false) (cyclic true) ∧
    (∀ i j, nameClass (cyclic false i).name = nameClass (cyclic true j).name →
      (cyclic false i).name = (cyclic true j).name) ∧
    cmpGlob 64 (cyclic false) (cyclic true) 3 [] 0 1 = some true ∧
    cmpGlob 64 (cyclic false) (cyclic true) 3 [] 0 0 = some false := by
  have hc : ∀ b i, (cyclic b i).name = str! "a" ∧ shape (cyclic b i) = 0 ∨
      (cyclic b i).name = str! "b" ∧ shape (cyclic b i) = 0 ∨ (cyclic b i).name = str! "f" ∧ shape (cyclic b i) = 2 := by
    intro b i
    simp only [cyclic]
    generalize (if b = true then 1 else 0) = a
    split
    · left; exact ⟨rfl, rfl⟩
    · split
      · right; left; exact ⟨rfl, rfl⟩
      · right; right; exact ⟨rfl, by decide +kernel⟩
  refine ⟨?_, ?_, ?_, by decide +kernel, by decide +kernel⟩
  · intro i c h
    unfold cyclic at h
    simp only [Bool.false_eq_true, if_false] at h
    split at h
    · simp only [GKind.var.injEq, Option.some.injEq, true_and] at h
      subst h
      simp [NoExpr, NoExprs]
    · split at h
      · simp only [GKind.var.injEq, Option.some.injEq, true_and] at h
        subst h
        simp [NoExpr, NoExprs]
      · simp at h
  · intro i j h
    rcases hc false i with ⟨h1, h2⟩ | ⟨h1, h2⟩ | ⟨h1, h2⟩ <;> rcases hc true j with ⟨h3, h4⟩ | ⟨h3, h4⟩ | ⟨h3, h4⟩ <;>
      rw [h1, h3] at h <;> first | (rw [h2, h4]; done) | exact absurd h (by decide +kernel)
  · intro i j h
    rcases hc false i with ⟨h1, h2⟩ | ⟨h1, h2⟩ | ⟨h1, h2⟩ <;> rcases hc true j with ⟨h3, h4⟩ | ⟨h3, h4⟩ | ⟨h3, h4⟩ <;>
      rw [h1, h3] at h <;> first | (rw [h1, h3]; done) | exact absurd h (by decide +kernel)

/-! ### C101: the comparison ends and finds a module equal to itself -/

mutual
theorem cmpConstW_ends {m n : Nat} {g : Nat → Nat → Option Bool}
    (hg : ∀ a b, a < m → b < n → (g a b).isSome = true) :
    ∀ a b : Const, RefsBelow m a → RefsBelow n b → (cmpConstW p g a b).isSome = true
  | .aggr k t es, .aggr k' t' es', ha, hb => by
    rw [cmpConstW]
    split
    · rfl
    · simp only [Const.isNull, Bool.false_and, Bool.or_self, Bool.false_eq_true, if_false]
      split
      · exact cmpConstListW_ends hg es es' (by simpa [RefsBelow] using ha) (by simpa [RefsBelow] using hb)
      · rfl
  | .expr k t es, .expr k' t' es', ha, hb => by
    rw [cmpConstW]
    split
    · rfl
    · simp only [Const.isNull, Bool.false_and, Bool.or_self, Bool.false_eq_true, if_false]
      split
      · exact cmpConstListW_ends hg es es' (by simpa [RefsBelow] using ha) (by simpa [RefsBelow] using hb)
      · rfl
  | .global a, .global b, ha, hb => by
    rw [cmpConstW]
    split
    · rfl
    · simp only [Const.isNull, Bool.false_and, Bool.or_self, Bool.false_eq_true, if_false]
      exact hg a b (by simpa [RefsBelow] using ha) (by simpa [RefsBelow] using hb)
  | .int _ _, b, _, _ | .fp _ _, b, _, _ | .null _, b, _, _ | .undef _, b, _, _ | .poison _, b, _, _
  | .data _ _, b, _, _ => by
    rw [cmpConstW]
    case x_2 | x_3 | x_4 => simp
    split
    · rfl
    · split
      · rfl
      · split
        · rfl
        · cases b <;> rfl
  | .global a, .int _ _, _, _ | .global a, .fp _ _, _, _ | .global a, .null _, _, _ | .global a, .undef _, _, _
  | .global a, .poison _, _, _ | .global a, .data _ _, _, _ | .global a, .aggr _ _ _, _, _
  | .global a, .expr _ _ _, _, _
  | .aggr _ _ _, .int _ _, _, _ | .aggr _ _ _, .fp _ _, _, _ | .aggr _ _ _, .null _, _, _
  | .aggr _ _ _, .undef _, _, _ | .aggr _ _ _, .poison _, _, _ | .aggr _ _ _, .global _, _, _
  | .aggr _ _ _, .data _ _, _, _ | .aggr _ _ _, .expr _ _ _, _, _
  | .expr _ _ _, .int _ _, _, _ | .expr _ _ _, .fp _ _, _, _ | .expr _ _ _, .null _, _, _
  | .expr _ _ _, .undef _, _, _ | .expr _ _ _, .poison _, _, _ | .expr _ _ _, .global _, _, _
  | .expr _ _ _, .data _ _, _, _ | .expr _ _ _, .aggr _ _ _, _, _ => by
    rw [cmpConstW]
    case x_2 | x_3 | x_4 => simp
    split
    · rfl
    · split
      · rfl
      · split
        · rfl
        · rfl
theorem cmpConstListW_ends {m n : Nat} {g : Nat → Nat → Option Bool}
    (hg : ∀ a b, a < m → b < n → (g a b).isSome = true) :
    ∀ as bs : List Const, AllBelow m as → AllBelow n bs → (cmpConstListW p g as bs).isSome = true
  | [], _, _, _ => by simp [cmpConstListW]
  | _ :: _, [], _, _ => by simp [cmpConstListW]
  | a :: as, b :: bs, ha, hb => by
    rw [AllBelow] at ha hb
    rw [cmpConstListW]
    split
    · exact cmpConstListW_ends hg as bs ha.2 hb.2
    · exact cmpConstW_ends hg a b ha.1 hb.1
end

theorem pairs_length {m n : Nat} {A : List (Nat × Nat)} (hn : A.Nodup) (hA : ∀ q ∈ A, q.1 < m ∧ q.2 < n) :
    A.length ≤ m * n := by
  have h1 : A.toFinset ⊆ Finset.range m ×ˢ Finset.range n := by
    intro q hq
    simpa using hA q (by simpa using hq)
  have h2 := Finset.card_le_card h1
  rw [List.toFinset_card_of_nodup hn, Finset.card_product, Finset.card_range, Finset.card_range] at h2
  exact h2

/-- C101: with finitely many values that only refer to each other, the comparison of any two ends. -/
theorem C101_ends {m n : Nat} (hG : ∀ i c, (G i).kind = .var true (some c) → RefsBelow m c)
    (hH : ∀ i c, (H i).kind = .var true (some c) → RefsBelow n c) (l r : Nat) (hl : l < m) (hr : r < n) :
    ∃ fuel b, cmpGlob p G H fuel [] l r = some b := by
  have key : ∀ (fuel : Nat) (A : List (Nat × Nat)) (l r : Nat), A.Nodup → (∀ q ∈ A, q.1 < m ∧ q.2 < n) →
      m * n < fuel + A.length → l < m → r < n → (cmpGlob p G H fuel A l r).isSome = true := by
    intro fuel
    induction fuel with
    | zero =>
      intro A l r hA hb hlt _ _
      have := pairs_length hA hb
      omega
    | succ fuel ih =>
      intro A l r hA hb hlt hl hr
      rw [cmpGlob]
      split
      · rfl
      · rename_i hm
        split
        · rename_i a b ha hb'
          refine cmpConstW_ends (m := m) (n := n) (fun x y hx hy => ih _ x y (List.nodup_cons.2 ⟨hm, hA⟩) ?_ ?_ hx hy)
            a b (hG l a (content?_some ha)) (hH r b (content?_some hb'))
          · intro q hq
            rcases List.mem_cons.1 hq with rfl | hq
            · exact ⟨hl, hr⟩
            · exact hb q hq
          · simp only [List.length_cons]
            omega
        · rfl
  obtain ⟨b, hb⟩ := Option.isSome_iff_exists.1
    (key (m * n + 1) [] l r List.nodup_nil (by simp) (by simp) hl hr)
  exact ⟨_, b, hb⟩

mutual
theorem cmpConstW_refl {g : Nat → Nat → Option Bool} (hg : ∀ a, g a a ≠ some false) :
    ∀ a : Const, cmpConstW p g a a ≠ some false
  | .aggr k t es => by
    rw [cmpConstW]
    simpa [typesDecide, cmpTypes_refl, Const.isNull] using cmpConstListW_refl hg es
  | .expr k t es => by
    rw [cmpConstW]
    simpa [typesDecide, cmpTypes_refl, Const.isNull] using cmpConstListW_refl hg es
  | .global a => by
    rw [cmpConstW]
    simpa [typesDecide, cmpTypes_refl, Const.isNull] using hg a
  | .int _ _ | .fp _ _ | .null _ | .undef _ | .poison _ | .data _ _ => by
    rw [cmpConstW]
    case x_2 | x_3 | x_4 => simp
    simp only [typesDecide, cmpTypes_refl, if_true, Bool.and_self, Bool.or_self, decide_true]
    split <;> simp_all [cmpConst_refl]
theorem cmpConstListW_refl {g : Nat → Nat → Option Bool} (hg : ∀ a, g a a ≠ some false) :
    ∀ as : List Const, cmpConstListW p g as as ≠ some false
  | [] => by simp [cmpConstListW]
  | a :: as => by
    rw [cmpConstListW]
    split
    · exact cmpConstListW_refl hg as
    · exact cmpConstW_refl hg a
end

/-- C101: every value is found equal to itself, if values that are no constants have names. -/
theorem C101_refl (hG : ∀ i, (G i).name = [] → ∃ c, (G i).kind = .var true (some c)) (fuel l : Nat) :
    cmpGlob p G G fuel [] l l ≠ some false := by
  have key : ∀ (fuel : Nat) (A : List (Nat × Nat)) (l : Nat), cmpGlob p G G fuel A l l ≠ some false := by
    intro fuel
    induction fuel with
    | zero => intro A l; simp [cmpGlob]
    | succ fuel ih =>
      intro A l
      rw [cmpGlob]
      split
      · simp
      · split
        · rename_i a b ha hb
          rw [ha] at hb
          cases hb
          exact cmpConstW_refl (fun x => ih _ x) a
        · rename_i hno
          have hname : (G l).name ≠ [] := by
            intro h
            obtain ⟨c, hc⟩ := hG l h
            have : (G l).content? = some c := by simp [GVal.content?, hc]
            exact hno c c this this
          have : cmpByName (G l) (G l) = true := by
            unfold cmpByName
            simp only [hname, ne_eq, not_false_eq_true, decide_true, Bool.and_self, if_true, Bool.true_or]
            split
            · rename_i a b ha hb
              rw [ha] at hb
              simpa using hb
            · rfl
          simp [this]
  exact key fuel [] l

/-- A case of `C101_ends` and `C101_refl`. -/
example : (∀ i c, (cyclic false i).kind = .var true (some c) → RefsBelow 3 c) ∧
    (∀ i, (cyclic false i).name = [] → ∃ c, (cyclic false i).kind = .var true (some c)) ∧
    cmpGlob 64 (cyclic false) (cyclic false) 4 [] 0 0 = some true := by
  refine ⟨?_, ?_, by decide +kernel⟩
  · intro i c h
    unfold cyclic at h
    simp only [Bool.false_eq_true, if_false] at h
    split at h
    · simp only [GKind.var.injEq, Option.some.injEq, true_and] at h
      subst h
      simp [RefsBelow, AllBelow]
    · split at h
      · simp only [GKind.var.injEq, Option.some.injEq, true_and] at h
        subst h
        simp [RefsBelow, AllBelow]
      · simp at h
  · intro i h
    unfold cyclic at h
    simp only [Bool.false_eq_true, if_false] at h
    split at h
    · simp at h
    · split at h <;> simp at h

end DK
