import Verif.Lemmas.LoadRun
import Mathlib.Logic.Encodable.Basic

/-!
Properties of the alias check (C46) and of skipped loads (C90).
-/

set_option autoImplicit false

namespace DK
open Spec

/-! ### C46: the alias check is conservative -/

/-- C46: if the check says that two pointers do not alias, accesses through them have no byte in common,
whatever the values of the indices are (within the bounds of the types). -/
def C46_statement : Prop :=
  ∀ (l r : MPtr) (e : MEnv) (v w : Nat), mayAlias l r = false → accessIn e v l → accessIn e w r →
    Apart (addrOf e l) v (addrOf e r) w

/-- `&a[0][1]` of `char a[2][2]` as one address computation, … -/
def rowPtr : MPtr := .gep 1 (.arr 2 (.arr 2 (.cell 1))) (.alloca 0) [.const 0, .const 1]

/-- … and its first element, computed from it. -/
def elemPtr : MPtr := .gep 2 (.arr 2 (.cell 1)) rowPtr [.const 0, .const 0]

/-- C46 fails for address computations on top of each other: `&a[1]` and `&(&a[1])[0]` are the same byte but
are said not to alias, because their indices are compared although they start at different addresses. -/
theorem C46_fails : ¬ C46_statement := by
  intro h
  have h1 := h rowPtr elemPtr (fun _ => (none, 0)) 1 1 (by decide)
    (by simp [rowPtr, accessIn, idxVal, pathIn, idxIn, selectTy, pathTy, tySize])
    (by simp [elemPtr, accessIn, idxVal, pathIn, idxIn, selectTy, pathTy, tySize])
  simp [Apart, addrOf, elemPtr, rowPtr, gepOffset, idxVal, pathOffset, selectTy, tySize] at h1

/-- C46 for pointers that start at the same base with the same type if they point into the same alloca. All
allocas, all types, all lists of indices, all values of indices. -/
theorem C46_same_base_partial (l r : MPtr) (e : MEnv) (v w : Nat) (h : mayAlias l r = false)
    (hs : SameBase l r) (hl : accessIn e v l) (hr : accessIn e w r) :
    Apart (addrOf e l) v (addrOf e r) w := alias_apart h hs hl hr

/-- Fields 0 and 1 of elements of an array with unknown indices. -/
def fieldPtr (id : Nat) (x : Nat) (k : Int) : MPtr :=
  .gep id (.arr 8 (.struct (.cons 0 (.cell 4) (.cons 4 (.cell 8) .nil)))) (.alloca 0) [.const 0, .var x, .const k]

example : mayAlias (fieldPtr 1 5 0) (fieldPtr 2 6 1) = false ∧ SameBase (fieldPtr 1 5 0) (fieldPtr 2 6 1) ∧
    accessIn (fun _ => (none, 3)) 4 (fieldPtr 1 5 0) ∧ accessIn (fun _ => (none, 3)) 8 (fieldPtr 2 6 1) ∧
    mayAlias (fieldPtr 1 5 0) (fieldPtr 2 6 0) = true := by
  refine ⟨by decide, by simp [SameBase, fieldPtr], ?_, ?_, by decide⟩
  · simp [fieldPtr, accessIn, idxVal, pathIn, idxIn, selectTy, pathTy, tySize, fieldAt]
  · simp [fieldPtr, accessIn, idxVal, pathIn, idxIn, selectTy, pathTy, tySize, fieldAt]

/-- The check is symmetric. -/
theorem C46_symmetric (l r : MPtr) : mayAlias l r = mayAlias r l := by
  have hd : ∀ is js : List PIdx, indicesDiverge is js = indicesDiverge js is := by
    intro is
    induction is with
    | nil => intro js; cases js with
      | nil => rfl
      | cons j js => cases j <;> rfl
    | cons i is ih =>
      intro js
      cases js with
      | nil => cases i <;> rfl
      | cons j js =>
        cases i <;> cases j <;> simp only [indicesDiverge, ih js]
        rename_i m n
        by_cases hmn : m = n
        · subst hmn; rfl
        · have : n ≠ m := fun h => hmn h.symm
          simp [hmn, this]
  unfold mayAlias
  cases hl : getAllocaFromPtr l <;> cases hr : getAllocaFromPtr r <;> simp only
  rename_i a b
  by_cases hab : a = b
  · subst hab
    simp only [ne_eq, not_true, if_false]
    cases l <;> cases r <;> simp only [hd]
  · have : b ≠ a := fun h => hab h.symm
    simp [hab, this]

/-- A pointer aliases itself. -/
theorem C46_reflexive (p : MPtr) : mayAlias p p = true := by
  have hd : ∀ is : List PIdx, indicesDiverge is is = false := by
    intro is
    induction is with
    | nil => rfl
    | cons i is ih => cases i <;> simp [indicesDiverge, ih]
  unfold mayAlias
  cases hl : getAllocaFromPtr p with
  | none => simp
  | some a => cases p <;> simp [hd]

/-- Second part of C46: an instruction of which the check says that it does not store to the memory of a
pointer leaves that memory unchanged. -/
def C46_store_statement : Prop :=
  ∀ (i : MInst) (p : MPtr) (w : Nat) (M : MMach) (s : MSt), M.Faithful → mayStoreTo i p = false →
    (∀ q v, accessOf i = some (q, v) → 0 < v ∧ accessIn s.env v q ∧ SameBase q p) → accessIn s.env w p →
    readBytes (stepM M s i).mem (addrOf s.env p) w = readBytes s.mem (addrOf s.env p) w

/-- A machine whose values are stored as numbers and whose atomic instructions increment a byte. -/
def countMach : MMach where
  enc := fun w v => (Encodable.encode v + 1) :: List.replicate (w - 1) 0
  dec := fun l => match l with
    | (n + 1) :: _ => (Encodable.decode (α := MV) n).getD (none, 0)
    | _ => (none, 0)
  call := fun _ _ m => ((none, 0), m)
  op := fun _ _ => (none, 0)
  rmw := fun _ a m => ((none, 0), fun o x => if o = a.1 ∧ x = a.2 then m o x + 1 else m o x)

theorem count_faithful : countMach.Faithful := by
  intro w v hw
  refine ⟨?_, ?_⟩
  · simp [countMach]; omega
  · simp only [countMach]
    rw [Encodable.encodek]
    rfl

/-- The second part of C46 fails for atomic read-modify-write instructions: only stores and calls are
looked at. -/
theorem C46_fails_atomic : ¬ C46_store_statement := by
  intro h
  have h1 := h (.atomic 1 (.alloca 0) 1) (.alloca 0) 1 countMach ⟨fun _ => (none, 0), fun _ _ => 0⟩
    count_faithful rfl (by intro q v hq; simp [accessOf] at hq; obtain ⟨rfl, rfl⟩ := hq; simp [accessIn, SameBase])
    (by simp [accessIn])
  simp [readBytes, stepM, countMach, addrOf] at h1

/-- The second part of C46 for all other instructions. -/
theorem C46_store_partial (i : MInst) (p : MPtr) (w : Nat) (M : MMach) (s : MSt) (hM : M.Faithful)
    (h : mayStoreTo i p = false)
    (ha : ∀ id u q v, i = .store id u q v → 0 < v ∧ accessIn s.env v q ∧ SameBase q p)
    (hp : accessIn s.env w p) (hna : ∀ id q v, i ≠ .atomic id q v) :
    readBytes (stepM M s i).mem (addrOf s.env p) w = readBytes s.mem (addrOf s.env p) w := by
  cases i with
  | load id q v => rfl
  | op id args => rfl
  | atomic id q v => exact absurd rfl (hna id q v)
  | call id debug args =>
    simp only [mayStoreTo, Bool.not_eq_eq_eq_not, Bool.not_false] at h
    simp [stepM, h]
  | store id v q n =>
    obtain ⟨h1, h2, h3⟩ := ha id v q n rfl
    simp only [stepM]
    apply read_write_apart
    rw [(hM n (valOf s.env v) h1).1]
    exact alias_apart (by simpa [mayStoreTo] using h) h3 h2 hp

example : mayStoreTo (.store 9 (.const 7) (fieldPtr 1 5 0) 4) (fieldPtr 2 6 1) = false := by decide

/-! ### C90: skipped loads -/

/-- C90: when a load is skipped, then whenever it is executed it reads the current value of its replacement:
for every function in SSA form, every run from the entry without accesses out of bounds, every machine. -/
def C90_statement : Prop :=
  ∀ (f : MFun) (args : List Nat) (ign : Nat → Bool) (b j id w : Nat) (p : MPtr) (v : MVal),
    SSA f args → TypedPtrs f → (f.insts b)[j]? = some (.load id p w) →
    maySkipLoad f ign b j = some (some v) →
    ∀ (M : MMach) (s : MSt) (path : List Nat), M.Faithful → RunTo f path b →
      BoundsKept M s (executed f path b j) →
      M.dec (readBytes (runM M s (executed f path b j)).mem
          (addrOf (runM M s (executed f path b j)).env p) w) =
        valOf (runM M s (executed f path b j)).env v

/-- `x = *p; while (…) { y = *p; *p = 1; }` -/
def loopLoads : MFun :=
  [⟨[.load 10 (.alloca 0) 1], [1]⟩,
   ⟨[.load 11 (.alloca 0) 1, .store 12 (.const 1) (.alloca 0) 1], [1, 2]⟩,
   ⟨[], []⟩]

theorem loopLoads_at {a j : Nat} {i : MInst} (h : (loopLoads.insts a)[j]? = some i) :
    (a = 0 ∧ j = 0 ∧ i = .load 10 (.alloca 0) 1) ∨ (a = 1 ∧ j = 0 ∧ i = .load 11 (.alloca 0) 1) ∨
    (a = 1 ∧ j = 1 ∧ i = .store 12 (.const 1) (.alloca 0) 1) := by
  rcases a with _ | _ | _ | a
  · rcases j with _ | j <;> simp [MFun.insts, loopLoads] at h ⊢
    exact h.symm
  · rcases j with _ | _ | j <;> simp [MFun.insts, loopLoads] at h ⊢ <;> exact h.symm
  · simp [MFun.insts, loopLoads] at h
  · simp [MFun.insts, loopLoads] at h

theorem loopLoads_ssa : SSA loopLoads [] := by
  refine ⟨?_, ?_, ?_, ?_⟩
  · intro a ha h
    rcases a with _ | _ | _ | a <;> simp [MFun.succs, loopLoads] at h
  · intro a j b k i i' x h1 h2 h3 h4
    rcases loopLoads_at h1 with ⟨rfl, rfl, rfl⟩ | ⟨rfl, rfl, rfl⟩ | ⟨rfl, rfl, rfl⟩ <;>
      rcases loopLoads_at h2 with ⟨rfl, rfl, rfl⟩ | ⟨rfl, rfl, rfl⟩ | ⟨rfl, rfl, rfl⟩ <;>
      simp [defines] at h3 h4 ⊢ <;> omega
  · intro a j i x h1 h2; simp
  · intro path b j i _ h x hx
    rcases loopLoads_at h with ⟨rfl, rfl, rfl⟩ | ⟨rfl, rfl, rfl⟩ | ⟨rfl, rfl, rfl⟩ <;>
      simp [usedBy, leaves, valLeaves] at hx

theorem loopLoads_typed : TypedPtrs loopLoads := by
  intro a j b k i i' p q v w h1 h2 h3 h4
  rcases loopLoads_at h1 with ⟨rfl, rfl, rfl⟩ | ⟨rfl, rfl, rfl⟩ | ⟨rfl, rfl, rfl⟩ <;>
    rcases loopLoads_at h2 with ⟨rfl, rfl, rfl⟩ | ⟨rfl, rfl, rfl⟩ | ⟨rfl, rfl, rfl⟩ <;>
    simp [accessOf] at h3 h4 <;> obtain ⟨rfl, rfl⟩ := h3 <;> obtain ⟨rfl, rfl⟩ := h4 <;> simp

/-- C90 fails for loops: the block of the load counts as visited, so what follows the load in its own block
is never looked at. In the second iteration the loop reads the stored value, but the load is replaced by the
load before the loop. -/
theorem C90_fails : ¬ C90_statement := by
  intro h
  have h1 := h loopLoads [] (fun _ => false) 1 0 11 1 (.alloca 0) (.val (.other 10)) loopLoads_ssa
    loopLoads_typed rfl (by rfl) countMach ⟨fun _ => (none, 0), fun _ _ => 0⟩ [0, 1] count_faithful
    (.next (path := [0]) (.next (path := []) .entry (by decide) (by decide)) (by decide) (by decide))
    (by
      intro pre i post p w he ha
      have hm : i ∈ executed loopLoads [0, 1] 1 0 := by rw [he]; simp
      simp [executed, MFun.insts, loopLoads] at hm
      rcases hm with rfl | rfl | rfl <;> simp [accessOf] at ha <;> obtain ⟨rfl, rfl⟩ := ha <;> simp [accessIn])
  simp [executed, MFun.insts, loopLoads, runM, stepM, readBytes, writeBytes, addrOf, valOf, countMach] at h1

/-- C90 when nothing after the load in its own block may store to the pointer, there are no atomic
read-modify-write instructions, and pointers into the variable start at the same base. Any control flow, in
particular loops, any number of blocks, ignored stores, all machines and runs. -/
theorem C90_tail_partial (f : MFun) (args : List Nat) (ign : Nat → Bool) (b j id w : Nat) (p : MPtr) (v : MVal)
    (ssa : SSA f args) (typed : TypedPtrs f) (hl : (f.insts b)[j]? = some (.load id p w))
    (hskip : maySkipLoad f ign b j = some (some v))
    (htail : ∀ i ∈ (f.insts b).drop (j + 1), mayStoreTo i p = false)
    (hatom : ∀ (a k : Nat) id q n, (f.insts a)[k]? ≠ some (.atomic id q n))
    (hbase : ∀ (a k : Nat) id u q n, (f.insts a)[k]? = some (.store id u q n) → SameBase q p)
    (M : MMach) (s : MSt) (path : List Nat) (hM : M.Faithful) (hrun : RunTo f path b)
    (hb : BoundsKept M s (executed f path b j)) :
    M.dec (readBytes (runM M s (executed f path b j)).mem
        (addrOf (runM M s (executed f path b j)).env p) w) =
      valOf (runM M s (executed f path b j)).env v := by
  obtain ⟨vis, K, k, C, cov⟩ := skip_covered hl hskip
  have hjlt := (List.getElem?_eq_some_iff.1 hl).1
  have htail' : ∀ i ∈ (f.insts b).drop j, mayStoreTo i p = false := by
    intro i hi
    rw [List.drop_eq_getElem_cons hjlt] at hi
    rcases List.mem_cons.1 hi with rfl | hi
    · rw [(List.getElem?_eq_some_iff.1 hl).2]; rfl
    · exact htail i hi
  have hC : (f.insts K)[k]? = some C ∧ (K = b → k < j) := by
    have h := cov.cand.1
    unfold region at h
    split at h
    · rw [List.getElem?_take] at h
      split at h
      · rename_i hk; exact ⟨h, fun _ => hk⟩
      · cases h
    · rename_i hne; exact ⟨h, fun h => absurd h hne⟩
  have hw : Walkable b j vis K k b j := ⟨cov.load, fun h => ⟨hC.2 h.symm, fun _ => Nat.le_refl _⟩⟩
  obtain ⟨pathK, S2, hrunK, hex, hclean, hpos⟩ :=
    walk_back cov ssa.entry htail' hrun j (Nat.le_of_lt hjlt) hw
  -- nothing used by the candidate is computed anew
  have hredef : ∀ x ∈ usedBy C, ∀ i ∈ S2, defines i ≠ some x := by
    intro x hx i hi hdef
    obtain ⟨A, B, hAB⟩ := List.append_of_mem hi
    obtain ⟨p2, Y, n, h1, h2, h3⟩ := hpos A i B hAB
    exact no_redefinition ssa cov htail' hC.1 hx h2 hdef (Or.inl h3) h1
  have hself : ∀ x ∈ usedBy C, defines C ≠ some x := fun x hx hdef =>
    no_redefinition ssa cov htail' hC.1 hx hC.1 hdef (Or.inr ⟨rfl, rfl⟩) hrunK
  have hown : ∀ x, defines C = some x → ∀ i ∈ S2, defines i ≠ some x := by
    intro x hx i hi hdef
    obtain ⟨A, B, hAB⟩ := List.append_of_mem hi
    obtain ⟨p2, Y, n, h1, h2, h3⟩ := hpos A i B hAB
    obtain ⟨rfl, rfl⟩ := ssa.once Y n K k i C x h2 hC.1 hdef hx
    have := (h3.2 rfl).1
    omega
  -- the candidate accesses the pointer
  have hcp : accessOf C = some (p, w) ∧ ∀ x ∈ leaves p, x ∈ usedBy C := by
    have hc := cov.cand.2.1
    cases C with
    | load id' q n =>
      simp only [replacementCandidate] at hc
      split at hc
      · rename_i hid
        obtain ⟨rfl, rfl⟩ := (typed b j K k _ _ p q w n hl hC.1 rfl rfl).2 hid
        exact ⟨rfl, fun x hx => hx⟩
      · cases hc
    | store id' u q n =>
      simp only [replacementCandidate] at hc
      split at hc
      · rename_i hid
        obtain ⟨rfl, rfl⟩ := (typed b j K k _ _ p q w n hl hC.1 rfl rfl).2 hid.2.symm
        exact ⟨rfl, fun x hx => by simp [usedBy, hx]⟩
      · cases hc
    | call _ _ _ => simp [replacementCandidate] at hc
    | atomic _ _ _ => simp [replacementCandidate] at hc
    | op _ _ => simp [replacementCandidate] at hc
  -- states
  rw [hex]
  rw [hex] at hb
  have hwpos : 0 < w := (typed b j b j _ _ p p w w hl hl rfl rfl).1
  let s1 := runM M s (executed f pathK K k)
  let s2 := stepM M s1 C
  have hsplit : ∀ A : List MInst, runM M s (executed f pathK K k ++ C :: A) = runM M s2 A := by
    intro A
    simp only [runM, List.foldl_append, List.foldl_cons]
    rfl
  have hp1 : accessIn s1.env w p := hb (executed f pathK K k) C S2 p w rfl hcp.1
  have henv2 : ∀ x ∈ usedBy C, s2.env x = s1.env x := fun x hx => env_step (hself x hx)
  have henv : ∀ A B : List MInst, S2 = A ++ B → ∀ x ∈ usedBy C, (runM M s2 A).env x = s1.env x := by
    intro A B hAB x hx
    rw [env_run A s2 (fun i hi => hredef x hx i (by rw [hAB]; exact List.mem_append_left _ hi))]
    exact henv2 x hx
  have hmem : ∀ A B : List MInst, S2 = A ++ B →
      readBytes (runM M s2 A).mem (addrOf s1.env p) w = readBytes s2.mem (addrOf s1.env p) w := by
    intro A
    induction A using List.reverseRecOn with
    | nil => intro B _; rfl
    | append_singleton A i ih =>
      intro B hAB
      have hAB' : S2 = A ++ (i :: B) := by rw [hAB]; simp
      have hrec := ih (i :: B) hAB'
      have hst : runM M s2 (A ++ [i]) = stepM M (runM M s2 A) i := by
        simp [runM, List.foldl_append]
      rw [hst, ← hrec]
      have ha : addrOf (runM M s2 A).env p = addrOf s1.env p :=
        addr_congr p fun x hx => henv A (i :: B) hAB' x (hcp.2 x hx)
      have hacc : accessIn (runM M s2 A).env w p :=
        access_congr (fun x hx => (henv A (i :: B) hAB' x (hcp.2 x hx)).symm) hp1
      obtain ⟨p2, Y, n, _, hget, _⟩ := hpos A i B hAB'
      rw [← ha]
      apply C46_store_partial i p w M (runM M s2 A) hM
      · exact hclean i (by rw [hAB']; simp)
      · intro id' u' q u hi
        have hq : accessOf i = some (q, u) := by rw [hi]; rfl
        refine ⟨(typed Y n Y n _ _ q q u u hget hget hq hq).1, ?_, ?_⟩
        · have := hb (executed f pathK K k ++ C :: A) i B q u (by rw [hAB']; simp) hq
          rw [hsplit] at this
          exact this
        · exact hbase Y n id' u' q u (by rw [hget, hi])
      · exact hacc
      · intro id' q u he
        exact hatom Y n id' q u (by rw [hget, he])
  rw [hsplit]
  have hfin : addrOf (runM M s2 S2).env p = addrOf s1.env p :=
    addr_congr p fun x hx => henv S2 [] (by simp) x (hcp.2 x hx)
  rw [hfin, hmem S2 [] (by simp)]
  have hc := cov.cand.2.1
  cases C with
  | load id' q n =>
    simp only [accessOf, Option.some.injEq, Prod.mk.injEq] at hcp
    obtain ⟨⟨rfl, rfl⟩, _⟩ := hcp
    simp only [replacementCandidate, if_true, Option.some.injEq] at hc
    subst hc
    have h1 : (runM M s2 S2).env id' = s2.env id' := env_run S2 s2 (hown id' rfl)
    simp only [valOf, addrOf, h1]
    simp [s2, stepM]
  | store id' u q n =>
    simp only [accessOf, Option.some.injEq, Prod.mk.injEq] at hcp
    obtain ⟨⟨rfl, rfl⟩, _⟩ := hcp
    simp only [replacementCandidate, and_true] at hc
    split at hc
    · cases hc
      have hv : valOf (runM M s2 S2).env v = valOf s1.env v :=
        val_congr fun x hx => henv S2 [] (by simp) x (by simp [usedBy, hx])
      have hs2 : s2.mem = writeBytes s1.mem (addrOf s1.env q) (M.enc n (valOf s1.env v)) := rfl
      obtain ⟨e1, e2⟩ := hM n (valOf s1.env v) hwpos
      have := read_write_same s1.mem (addrOf s1.env q) (M.enc n (valOf s1.env v))
      rw [e1] at this
      rw [hs2, this, e2, hv]
    · cases hc
  | call _ _ _ => simp [replacementCandidate] at hc
  | atomic _ _ _ => simp [replacementCandidate] at hc
  | op _ _ => simp [replacementCandidate] at hc

/-- A loop `x[i] = 5; while (…) { use(x[i]); }` with an ignored store: `x` is an array, `i` an argument. -/
def loopStore : MFun :=
  let p : MPtr := .gep 3 (.arr 4 (.cell 2)) (.alloca 0) [.const 0, .var 7]
  let q : MPtr := .gep 4 (.arr 4 (.cell 2)) (.alloca 1) [.const 0, .const 2]
  [⟨[.store 12 (.val (.other 8)) p 2], [1]⟩,
   ⟨[.store 13 (.const 6) q 2, .op 14 [.val (.other 8)], .load 11 p 2, .op 15 [.val (.other 11)]], [1, 2]⟩,
   ⟨[], []⟩]

/-- The load of the loop is skipped, its replacement is the stored argument. -/
example : maySkipLoad loopStore (fun x => x == 12) 1 2 = some (some (.val (.other 8))) := by rfl

theorem loopStore_at {a j : Nat} {i : MInst} (h : (loopStore.insts a)[j]? = some i) :
    (a = 0 ∧ j = 0) ∨ (a = 1 ∧ j < 4) := by
  rcases a with _ | _ | _ | a
  · rcases j with _ | j <;> simp [MFun.insts, loopStore] at h ⊢
  · rcases j with _ | _ | _ | _ | j <;> simp [MFun.insts, loopStore] at h ⊢
  · simp [MFun.insts, loopStore] at h
  · simp [MFun.insts, loopStore] at h

/-- The hypotheses of `C90_tail_partial` hold for it. -/
example : SSA loopStore [7, 8] ∧ TypedPtrs loopStore ∧
    (∀ p, ∀ i ∈ (loopStore.insts 1).drop 3, mayStoreTo i p = false) := by
  have cases4 : ∀ j : Nat, j < 4 → j = 0 ∨ j = 1 ∨ j = 2 ∨ j = 3 := by omega
  refine ⟨⟨?_, ?_, ?_, ?_⟩, ?_, ?_⟩
  · intro a ha h
    rcases a with _ | _ | _ | a <;> simp [MFun.succs, loopStore] at h
  · intro a j b k i i' x h1 h2 h3 h4
    rcases loopStore_at h1 with ⟨rfl, rfl⟩ | ⟨rfl, hj⟩ <;>
      rcases loopStore_at h2 with ⟨rfl, rfl⟩ | ⟨rfl, hk⟩
    · exact ⟨rfl, rfl⟩
    · rcases cases4 k hk with rfl | rfl | rfl | rfl <;> simp [MFun.insts, loopStore] at h1 h2 <;>
        subst h1 <;> subst h2 <;> simp [defines] at h3 h4
    · rcases cases4 j hj with rfl | rfl | rfl | rfl <;> simp [MFun.insts, loopStore] at h1 h2 <;>
        subst h1 <;> subst h2 <;> simp [defines] at h3 h4
    · rcases cases4 j hj with rfl | rfl | rfl | rfl <;> rcases cases4 k hk with rfl | rfl | rfl | rfl <;>
        simp [MFun.insts, loopStore] at h1 h2 <;>
        subst h1 <;> subst h2 <;> simp [defines] at h3 h4 ⊢ <;> omega
  · intro a j i x h1 h2
    rcases loopStore_at h1 with ⟨rfl, rfl⟩ | ⟨rfl, hj⟩
    · simp [MFun.insts, loopStore] at h1; subst h1; simp [defines] at h2
    · rcases cases4 j hj with rfl | rfl | rfl | rfl <;> simp [MFun.insts, loopStore] at h1 <;>
        subst h1 <;> simp [defines] at h2 <;> subst h2 <;> decide
  · intro path b j i _ h x hx
    rcases loopStore_at h with ⟨rfl, rfl⟩ | ⟨rfl, hj⟩
    · simp [MFun.insts, loopStore] at h; subst h
      simp [usedBy, valLeaves, leaves] at hx
      left
      rcases hx with rfl | rfl <;> decide
    · rcases cases4 j hj with rfl | rfl | rfl | rfl <;> simp [MFun.insts, loopStore] at h <;> subst h <;>
        simp [usedBy, valLeaves, leaves] at hx
      · left; subst hx; decide
      · left; subst hx; decide
      · right
        subst hx
        refine ⟨.load 11 (.gep 3 (.arr 4 (.cell 2)) (.alloca 0) [.const 0, .var 7]) 2, ?_, rfl⟩
        simp [executed, MFun.insts, loopStore]
  · intro a j b k i i' p q v w h1 h2 h3 h4
    rcases loopStore_at h1 with ⟨rfl, rfl⟩ | ⟨rfl, hj⟩ <;>
      rcases loopStore_at h2 with ⟨rfl, rfl⟩ | ⟨rfl, hk⟩
    · simp [MFun.insts, loopStore] at h1 h2; subst h1; subst h2
      simp [accessOf] at h3 h4
      obtain ⟨rfl, rfl⟩ := h3
      obtain ⟨rfl, rfl⟩ := h4
      simp
    · rcases cases4 k hk with rfl | rfl | rfl | rfl <;> simp [MFun.insts, loopStore] at h1 h2 <;>
        subst h1 <;> subst h2 <;> simp [accessOf] at h3 h4 <;> obtain ⟨rfl, rfl⟩ := h3 <;>
        obtain ⟨rfl, rfl⟩ := h4 <;> simp [MPtr.id]
    · rcases cases4 j hj with rfl | rfl | rfl | rfl <;> simp [MFun.insts, loopStore] at h1 h2 <;>
        subst h1 <;> subst h2 <;> simp [accessOf] at h3 h4 <;> obtain ⟨rfl, rfl⟩ := h3 <;>
        obtain ⟨rfl, rfl⟩ := h4 <;> simp [MPtr.id]
    · rcases cases4 j hj with rfl | rfl | rfl | rfl <;> rcases cases4 k hk with rfl | rfl | rfl | rfl <;>
        simp [MFun.insts, loopStore] at h1 h2 <;>
        subst h1 <;> subst h2 <;> simp [accessOf] at h3 h4 <;> obtain ⟨rfl, rfl⟩ := h3 <;>
        obtain ⟨rfl, rfl⟩ := h4 <;> simp [MPtr.id]
  · intro p i hi
    simp [MFun.insts, loopStore] at hi
    subst hi
    rfl

/-- The search always ends (the number of rounds is at most the number of blocks). -/
theorem C90_ends (f : MFun) (ign : Nat → Bool) (b j : Nat) : (maySkipLoad f ign b j).isSome = true := by
  unfold maySkipLoad
  split
  · apply search_ends
    have : unvisited f [b] ≤ f.length := by
      unfold unvisited
      exact Nat.le_trans (List.length_filter_le _ _) (by simp)
    simp only [List.length_singleton]
    omega
  · rfl

/-- A load is only replaced by an earlier load of the function from the same pointer, or by the value of an
ignored store to the same pointer. -/
theorem C90_replacement (f : MFun) (ign : Nat → Bool) (b j id w : Nat) (p : MPtr) (v : MVal)
    (hl : (f.insts b)[j]? = some (.load id p w)) (h : maySkipLoad f ign b j = some (some v)) :
    ∃ (a k : Nat) (C : MInst), (f.insts a)[k]? = some C ∧ (a, k) ≠ (b, j) ∧
      ((∃ id' q n, C = .load id' q n ∧ q.id = p.id ∧ v = .val (.other id')) ∨
       (∃ id' q n, C = .store id' v q n ∧ q.id = p.id ∧ ign id' = true)) := by
  obtain ⟨vis, K, k, C, cov⟩ := skip_covered hl h
  have hC : (f.insts K)[k]? = some C ∧ (K = b → k < j) := by
    have h := cov.cand.1
    unfold region at h
    split at h
    · rw [List.getElem?_take] at h
      split at h
      · rename_i hk; exact ⟨h, fun _ => hk⟩
      · cases h
    · rename_i hne; exact ⟨h, fun h => absurd h hne⟩
  refine ⟨K, k, C, hC.1, ?_, ?_⟩
  · intro he
    simp only [Prod.mk.injEq] at he
    have := hC.2 he.1
    omega
  · have hc := cov.cand.2.1
    cases C with
    | load id' q n =>
      simp only [replacementCandidate] at hc
      split at hc
      · rename_i hid
        exact Or.inl ⟨id', q, n, rfl, hid.symm, by cases hc; rfl⟩
      · cases hc
    | store id' u q n =>
      simp only [replacementCandidate] at hc
      split at hc
      · rename_i hid
        cases hc
        exact Or.inr ⟨id', q, n, rfl, hid.2, hid.1⟩
      · cases hc
    | call _ _ _ => simp [replacementCandidate] at hc
    | atomic _ _ _ => simp [replacementCandidate] at hc
    | op _ _ => simp [replacementCandidate] at hc

end DK
