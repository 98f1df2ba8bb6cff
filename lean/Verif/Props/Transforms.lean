import Verif.Lemmas.Transforms

/-!
C95-C97, C99: the transformations of modules before their comparison.
-/

set_option autoImplicit false

namespace DK
open Spec

variable {V S : Type}

/-! ### C95: unification of memcpy -/

/-- C95: replacing calls of `__memcpy` by the intrinsic does not change what functions do. -/
def C95_statement : Prop :=
  ∀ (V S : Type) (M : PMach V S) (P : PMod), MemcpyLaw M → MemcpyMod P →
    ∀ n, SameCalls M P (P.map unifyMemcpy) n

/-- A machine whose state is the list of copies. -/
def copyMach : PMach Int (List (List Int)) :=
  { const := id, null := 0, undef := 0, addr := fun _ => 0, target := fun _ => none, isTrue := fun v => v ≠ 0
    op := fun _ _ s => (0, s)
    ext := fun n a s =>
      if n = str! "__memcpy" then (a.headD 0, s ++ [a.take 3])
      else if n = str! "llvm.memcpy" then (0, s ++ [a.take 3]) else (0, s)
    asm := fun _ _ _ s => (0, s) }

theorem copyMach_law : MemcpyLaw copyMach := by
  intro d s n m
  simp [copyMach]

/-- `f(a, b) { c = __memcpy(a, b, 8); return c; }` -/
def copyFun (ret : PValue) : PFun :=
  { name := str! "f", sig := ⟨str! "ptr", [str! "ptr", str! "ptr"], false⟩
    blocks := [⟨[.call 0 (.fn (str! "__memcpy")) ⟨str! "ptr", [], false⟩ [.arg 0, .arg 1, .const 8]], .ret (some ret)⟩] }

theorem copyFun_mod (r : PValue) : MemcpyMod [copyFun r] := by
  constructor
  · intro f hf i c s as hi _
    simp only [List.mem_singleton] at hf
    subst hf
    simp only [copyFun, PFun.insts, List.flatMap_cons, List.flatMap_nil, List.append_nil, List.mem_singleton,
      PInst.call.injEq] at hi
    rw [hi.2.2.2]
    rfl
  · intro f hf h
    simp only [List.mem_singleton] at hf
    subst hf
    simp [copyFun] at h

/-- C95 fails: the uses of the result are replaced by the source, although `__memcpy` returns the destination. -/
theorem C95_fails : ¬ C95_statement := by
  intro h
  have h1 := (h Int _ copyMach [copyFun (.inst 0)] copyMach_law (copyFun_mod _) (str! "f") [1, 2] [] 1 [[1, 2, 8]]).1
    ⟨2, by decide +kernel⟩
  obtain ⟨k, hk⟩ := h1
  have : ∀ k, callFn copyMach (List.map unifyMemcpy [copyFun (.inst 0)]) k (str! "f") [1, 2] [] ≠
      some (1, [[1, 2, 8]]) := by
    intro k
    match k with
    | 0 => decide +kernel
    | 1 => decide +kernel
    | k + 2 =>
      have : List.map unifyMemcpy [copyFun (.inst 0)] =
          [{ name := str! "f", sig := ⟨str! "ptr", [str! "ptr", str! "ptr"], false⟩
             blocks := [⟨[.call 0 (.fn (str! "llvm.memcpy")) ⟨str! "void", [str! "i1"], false⟩
               [.arg 0, .arg 1, .const 8, .const 0]], .ret (some (.arg 1))⟩] }] := by decide +kernel
      rw [this]
      intro h
      simp [callFn, PMod.fn?, runPBlocks, runInsts, runInst, callAny, copyMach, evalP] at h
  exact this k hk

theorem map_same {A : Type} {l : List A} {g : A → A} (h : ∀ x ∈ l, g x = x) : l.map g = l := by
  induction l with
  | nil => rfl
  | cons x l ih => simp only [List.map_cons, h x (by simp), ih fun y hy => h y (by simp [hy])]

theorem substInst_same {n : Nat} {v : PValue} {i : PInst} (h : ∀ w ∈ i.operands, substVal n v w = w) :
    substInst n v i = i := by
  cases i with
  | call k c sg as =>
    have h1 : as.map (substVal n v) = as := map_same fun w hw => h w (by cases c <;> simp [PInst.operands, hw])
    have h2 : substCallee n v c = c := by
      cases c with
      | ptr w => simp only [substCallee]; rw [h w (by simp [PInst.operands])]
      | _ => rfl
    simp only [substInst, h1, h2]
  | op k c as => simp only [substInst, map_same (l := as) h]
  | phi k inc =>
    simp only [substInst]
    rw [map_same]
    intro x hx
    rw [h x.2 (List.mem_map.2 ⟨x, hx, rfl⟩)]

theorem substFun_unused {f : PFun} {n : Nat} (h : f.uses n = false) (v : PValue) : substFun n v f = f := by
  have hv : ∀ w ∈ f.operands, substVal n v w = w := by
    intro w hw
    cases w with
    | inst m =>
      simp only [substVal]
      split
      · rename_i he
        subst he
        have := uses_iff.2 hw
        rw [h] at this
        simp at this
      · rfl
    | _ => rfl
  have hb : f.blocks.map (fun b => (⟨b.insts.map (substInst n v), substTerm n v b.term⟩ : PBlock)) = f.blocks := by
    apply map_same
    intro b hb
    have hi : b.insts.map (substInst n v) = b.insts := by
      apply map_same
      intro i hi
      apply substInst_same
      intro w hw
      exact hv w (List.mem_flatMap.2 ⟨b, hb, List.mem_append_left _ (List.mem_flatMap.2 ⟨i, hi, hw⟩)⟩)
    have ht : substTerm n v b.term = b.term := by
      have hvt : ∀ w ∈ b.term.operands, substVal n v w = w := fun w hw =>
        hv w (List.mem_flatMap.2 ⟨b, hb, List.mem_append_right _ hw⟩)
      cases hbt : b.term with
      | ret w =>
        cases w with
        | none => rfl
        | some w => simp only [substTerm]; rw [hvt w (by simp [hbt, PTerm.operands])]
      | br c x y => simp only [substTerm]; rw [hvt c (by simp [hbt, PTerm.operands])]
      | _ => rfl
    rw [hi, ht]
  cases f
  simp only [substFun] at hb ⊢
  rw [hb]

theorem unifyMemcpy_unused {f : PFun}
    (h : ∀ i c sg as, PInst.call i (.fn c) sg as ∈ f.insts → c = str! "__memcpy" → f.uses i = false) :
    unifyMemcpy f = f.mapInsts memcpyInst := by
  have hl : ∀ n ∈ (f.insts.filter isMemcpyCall).map PInst.id, f.uses n = false := by
    intro n hn
    obtain ⟨i, hi, rfl⟩ := List.mem_map.1 hn
    obtain ⟨hi, hm⟩ := List.mem_filter.1 hi
    cases i with
    | call k c sg as =>
      cases c with
      | fn c => exact h k c sg as hi (by simpa [isMemcpyCall] using hm)
      | _ => simp [isMemcpyCall] at hm
    | _ => simp [isMemcpyCall] at hm
  simp only [unifyMemcpy]
  generalize (f.insts.filter isMemcpyCall).map PInst.id = l at hl
  congr 1
  induction l with
  | nil => rfl
  | cons n l ih =>
    have : unifyStep f n = f := by
      simp only [unifyStep]
      split
      · exact substFun_unused (hl n (by simp)) _
      · rfl
    rw [List.foldl_cons, this]
    exact ih fun m hm => hl m (by simp [hm])

theorem mem_insts {f : PFun} {b : PBlock} (hb : b ∈ f.blocks) {i : PInst} (hi : i ∈ b.insts) : i ∈ f.insts :=
  List.mem_flatMap.2 ⟨b, hb, hi⟩

theorem operands_used {f : PFun} {b : PBlock} (hb : b ∈ f.blocks) {i : PInst} (hi : i ∈ b.insts) :
    ∀ n, PValue.inst n ∈ i.operands → ¬ Unused f n := by
  intro n hn hu
  have := inst_operand hb hi hn
  simp only [Unused] at hu
  rw [this] at hu
  simp at hu

/-- Calls of functions whose bodies are changed instruction by instruction. -/
theorem callFn_map {M : PMach V S} {P : PMod} {g : PFun → PInst → PInst}
    (h : ∀ fuel, (∀ n a s, callFn M P fuel n a s = callFn M (P.map fun f => f.mapInsts (g f)) fuel n a s) →
      ∀ args, ∀ f ∈ P, ∀ b ∈ f.blocks, ∀ i ∈ b.insts,
        ISim M M (callFn M P fuel) (callFn M (P.map fun f => f.mapInsts (g f)) fuel) args (Agree (Unused f)) i (g f i)) :
    ∀ fuel n a s, callFn M P fuel n a s = callFn M (P.map fun f => f.mapInsts (g f)) fuel n a s := by
  intro fuel
  induction fuel with
  | zero => intros; rfl
  | succ fuel ih =>
    intro n a s
    rw [callFn_succ, callFn_succ]
    simp only [callBody]
    rw [fn?_map (P := P) (g := fun f => f.mapInsts (g f)) (fun _ => rfl) n]
    cases hf : P.fn? n with
    | none => rfl
    | some f =>
      simp only [Option.map_some, PFun.mapInsts]
      cases hab : f.abs with
      | some x =>
        cases x with
        | asm t c => rfl
        | indirect =>
          simp only
          split
          · simp only [callValue]
            split
            · exact ih _ _ _
            · rfl
          · rfl
      | none =>
        simp only
        have hb := bsim_map (f := f) (g := g f) (h fuel ih a f (fn?_mem hf).1)
        simp only [PFun.mapInsts] at hb
        cases hbl : f.blocks with
        | nil => rfl
        | cons b l =>
          rw [hbl] at hb
          exact orel_eq (runBlocks_sim hb fuel 0 0 _ _ s (fun _ _ => rfl))

theorem callFn_ext {M : PMach V S} {P : PMod} {n : Str} (h : ∀ f ∈ P, f.name = n → f.blocks = [] ∧ f.abs = none)
    (fuel : Nat) (a : List V) (s : S) : callFn M P (fuel + 1) n a s = some (M.ext n a s) := by
  rw [callFn_succ]
  simp only [callBody]
  cases hf : P.fn? n with
  | none => rfl
  | some f =>
    obtain ⟨h1, h2⟩ := h f (fn?_mem hf).1 (fn?_mem hf).2
    simp only [h2, h1]

/-- C95, proved part: if no result of `__memcpy` is used, the functions do the same. Missing: used results, for
which the property fails. -/
theorem C95_partial (M : PMach V S) (P : PMod) (hM : MemcpyLaw M) (hP : MemcpyMod P)
    (hu : ∀ f ∈ P, ∀ i c sg as, PInst.call i (.fn c) sg as ∈ f.insts → c = str! "__memcpy" → f.uses i = false)
    (n : Str) : SameCalls M P (P.map unifyMemcpy) n := by
  have hmap : P.map unifyMemcpy = P.map fun f => f.mapInsts memcpyInst :=
    List.map_congr_left fun f hf => unifyMemcpy_unused (hu f hf)
  rw [hmap]
  apply same_of_eq
  intro fuel
  refine callFn_map (g := fun _ => memcpyInst) ?_ fuel n
  intro fuel ih args f hf b hb i hi
  cases i with
  | call k c sg as =>
    cases c with
    | fn c =>
      simp only [memcpyInst]
      split
      · rename_i hc
        subst hc
        apply isim_unused
        · exact hu f hf k _ sg as (mem_insts hb hi) rfl
        · intro env env' s hR
          have hlen := hP.args f hf k _ sg as (mem_insts hb hi) rfl
          have hop := operands_used hb hi
          have ha : as.map (evalP M args env) = as.map (evalP M args env') := evalPs_agree hR (fun n hn => hop n hn)
          match as, hlen with
          | [x, y, z], _ =>
            cases fuel with
            | zero => exact .none
            | succ fuel =>
              simp only [callAny]
              rw [ha]
              rw [callFn_ext (fun f hf hn => hP.ext f hf (Or.inl hn)), callFn_ext (fun f' hf' hn => by
                obtain ⟨g, hg, rfl⟩ := List.mem_map.1 hf'
                have := hP.ext g hg (Or.inr hn)
                exact ⟨by simp [PFun.mapInsts, this.1], this.2⟩)]
              refine .some ⟨trivial, ?_⟩
              simp only [List.map_cons, List.map_nil, List.take, List.append_eq, List.nil_append, List.cons_append, evalP]
              rw [hM]
      · exact isim_same (operands_used hb hi) (callsEq_all ih)
    | _ => exact isim_same (operands_used hb hi) (callsEq_all ih)
  | _ => exact isim_same (operands_used hb hi) (callsEq_all ih)

/-- A case of `C95_partial`: the function returns its first argument and not the result of the copy. -/
example : MemcpyLaw copyMach ∧ MemcpyMod [copyFun (.arg 0)] ∧
    (∀ f ∈ [copyFun (.arg 0)], ∀ i c sg as, PInst.call i (.fn c) sg as ∈ f.insts → c = str! "__memcpy" →
      f.uses i = false) ∧
    [copyFun (.arg 0)].map unifyMemcpy ≠ [copyFun (.arg 0)] := by
  refine ⟨copyMach_law, copyFun_mod _, ?_, by decide +kernel⟩
  intro f hf i c sg as hi _
  simp only [List.mem_singleton] at hf
  subst hf
  simp only [copyFun, PFun.insts, List.flatMap_cons, List.flatMap_nil, List.append_nil, List.mem_singleton,
    PInst.call.injEq] at hi
  rw [hi.1]
  decide +kernel

/-! ### C99: hiding the arguments of printing functions -/

/-- The printing and warning functions are not defined in the module. -/
def PrintMod (P : PMod) : Prop :=
  ∀ f ∈ P, isKernelPrint f.name = true ∨ isKernelWarn f.name = true → f.blocks = [] ∧ f.abs = none

/-- C99: hiding what is printed changes nothing else. -/
def C99_statement : Prop :=
  ∀ (V S : Type) (M : PMach V S) (P : PMod) (isPtr : PValue → Bool), PrintLaw M → PrintMod P →
    ∀ n, SameCalls M P (P.map (simplifyPrints isPtr)) n

/-- A machine in which `sprintf` writes its second argument. -/
def sprintfMach : PMach Int Int :=
  { const := id, null := 0, undef := 0, addr := fun _ => 0, target := fun _ => none, isTrue := fun v => v ≠ 0
    op := fun _ _ s => (s, s)
    ext := fun n a s => if n = str! "sprintf" then (1, (a[1]?).getD 0) else (0, s)
    asm := fun _ _ _ s => (0, s) }

theorem sprintfMach_law : PrintLaw sprintfMach := by
  constructor
  · intro n hn a b s
    have : n ≠ str! "sprintf" := by
      intro h
      subst h
      revert hn
      decide +kernel
    simp [sprintfMach, this]
  · intro n hn a a' b b' l s
    have : n ≠ str! "sprintf" := by
      intro h
      subst h
      revert hn
      decide +kernel
    simp [sprintfMach, this]
  · intros; rfl
  · intros; rfl

/-- `f(buf, x) { name(buf, x); return state; }` -/
def printFun (name : Str) : PFun :=
  { name := str! "f", sig := ⟨str! "i32", [str! "ptr", str! "ptr"], false⟩
    blocks := [⟨[.call 0 (.fn name) ⟨str! "i32", [], false⟩ [.arg 0, .arg 1], .op 1 0 []], .ret (some (.inst 1))⟩] }

theorem printFun_mod (n : Str) : PrintMod [printFun n] := by
  intro f hf h
  simp only [List.mem_singleton] at hf
  subst hf
  have hn : (printFun n).name = str! "f" := rfl
  rw [hn] at h
  exact absurd h (by decide +kernel)

/-- C99 fails: `sprintf` writes to memory, and its arguments are hidden as well. -/
theorem C99_fails : ¬ C99_statement := by
  intro h
  have h1 := (h Int Int sprintfMach [printFun (str! "sprintf")] (fun _ => true) sprintfMach_law (printFun_mod _)
    (str! "f") [1, 7] 0 7 7).1 ⟨2, by decide +kernel⟩
  obtain ⟨k, hk⟩ := h1
  match k with
  | 0 => exact absurd hk (by decide +kernel)
  | 1 => exact absurd hk (by decide +kernel)
  | k + 2 =>
    have : List.map (simplifyPrints fun _ => true) [printFun (str! "sprintf")] =
        [{ name := str! "f", sig := ⟨str! "i32", [str! "ptr", str! "ptr"], false⟩
           blocks := [⟨[.call 0 (.fn (str! "sprintf")) ⟨str! "i32", [], false⟩ [.null, .null], .op 1 0 []],
             .ret (some (.inst 1))⟩] }] := by decide +kernel
    rw [this] at hk
    simp [callFn, PMod.fn?, runPBlocks, runInsts, runInst, callAny, sprintfMach, evalP] at hk

/-- C99, proved part: it holds when `sprintf` is not called. Missing: `sprintf`, for which the property fails. -/
theorem C99_partial (M : PMach V S) (P : PMod) (isPtr : PValue → Bool) (hM : PrintLaw M) (hP : PrintMod P)
    (hs : ∀ f ∈ P, ∀ i c sg as, PInst.call i (.fn c) sg as ∈ f.insts → c ≠ str! "sprintf") (n : Str) :
    SameCalls M P (P.map (simplifyPrints isPtr)) n := by
  apply same_of_eq
  intro fuel
  refine callFn_map (g := fun _ => hidePrints isPtr) ?_ fuel n
  intro fuel ih args f hf b hb i hi
  have hsame : ISim M M (callFn M P fuel) (callFn M (P.map fun f => f.mapInsts (hidePrints isPtr)) fuel) args
      (Agree (Unused f)) i i := isim_same (operands_used hb hi) (callsEq_all ih)
  have hext : ∀ c, isKernelPrint c = true ∨ isKernelWarn c = true → ∀ a s,
      callFn M (P.map fun f => f.mapInsts (hidePrints isPtr)) (fuel) c a s =
        if fuel = 0 then none else some (M.ext c a s) := by
    intro c hc a s
    cases fuel with
    | zero => rfl
    | succ fuel =>
      rw [callFn_ext (fun f' hf' hn => by
        obtain ⟨g, hg, rfl⟩ := List.mem_map.1 hf'
        have hn : g.name = c := hn
        have := hP g hg (by rw [hn]; exact hc)
        exact ⟨by simp [PFun.mapInsts, this.1], this.2⟩)]
      rfl
  cases i with
  | op k c as => exact hsame
  | phi k inc => exact hsame
  | call k c sg as =>
    have hop := operands_used hb hi
    have ha : ∀ env env', Agree (Unused f) env env' → as.map (evalP M args env) = as.map (evalP M args env') :=
      fun env env' hR => evalPs_agree hR (fun n hn => hop n (by cases c <;> simp [PInst.operands, hn]))
    cases c with
    | ptr v => exact hsame
    | fn c =>
      simp only [hidePrints]
      split
      · rename_i hp
        apply isim_call
        intro env env' s hR
        simp only [callAny]
        rw [ih, hext c (Or.inl hp), hext c (Or.inl hp)]
        rw [hM.print c (by
          have := hs f hf k c sg as (mem_insts hb hi)
          simp only [isKernelPrint, List.contains_iff_mem, List.mem_cons, List.not_mem_nil, or_false] at hp ⊢
          rcases hp with h | h | h | h | h
          · exact Or.inl h
          · exact Or.inr (Or.inl h)
          · exact Or.inr (Or.inr (Or.inl h))
          · exact absurd h this
          · exact Or.inr (Or.inr (Or.inr h)))]
      · split
        · rename_i hw
          apply isim_call
          intro env env' s hR
          simp only [callAny]
          rw [ih, hext c (Or.inr hw), hext c (Or.inr hw), ha env env' hR]
          match as with
          | [] => rfl
          | [x] => rfl
          | x :: y :: l =>
            simp only [hideArgs, List.map_cons]
            rw [hM.warn c (by simpa [isKernelWarn] using hw)]
        · exact hsame
    | asm t c =>
      simp only [hidePrints]
      apply isim_call
      intro env env' s hR
      simp only [callAny]
      rw [ha env env' hR]
      have h1 : M.asm t c (as.map (evalP M args env')) s =
          M.asm t c ((if hasText (str! "__bug_table") t then hideArgs isPtr as else as).map (evalP M args env')) s := by
        split
        · rename_i hb
          match as with
          | [] => rfl
          | [x] => rfl
          | x :: y :: l =>
            simp only [hideArgs, List.map_cons]
            exact hM.bug t c hb _ _ _ _ _ _
        · rfl
      rw [h1]
      generalize (if hasText (str! "__bug_table") t then hideArgs isPtr as else as) = as1
      congr 1
      split
      · rename_i hd
        rw [Bool.or_eq_true] at hd
        match as1 with
        | [] => rfl
        | x :: l =>
          simp only [List.map_cons]
          exact hM.discard t c hd _ _ _ _
      · rfl

/-- A case of `C99_partial` in which an argument is hidden. -/
example : PrintLaw sprintfMach ∧ PrintMod [printFun (str! "printk")] ∧
    (∀ f ∈ [printFun (str! "printk")], ∀ i c sg as, PInst.call i (.fn c) sg as ∈ f.insts → c ≠ str! "sprintf") ∧
    [printFun (str! "printk")].map (simplifyPrints fun _ => true) ≠ [printFun (str! "printk")] := by
  refine ⟨sprintfMach_law, printFun_mod _, ?_, by decide +kernel⟩
  intro f hf i c sg as hi
  simp only [List.mem_singleton] at hf
  subst hf
  simp only [printFun, PFun.insts, List.flatMap_cons, List.flatMap_nil, List.append_nil, List.mem_cons,
    PInst.call.injEq, List.not_mem_nil, or_false, reduceCtorEq, PCallee.fn.injEq] at hi
  rw [hi.2.1]
  decide +kernel

/-! ### C97: removal of unused results -/

/-- The name of the variant without result. -/
def voidName (uniq : List Str → Str → Str) (names : List Str) (n : Str) : Str :=
  if names.contains (n ++ str! ".void") then uniq names (n ++ str! ".void") else n ++ str! ".void"

/-- Modules as LLVM has them: distinct names, and all called functions are declared. -/
structure ModOk (P : PMod) : Prop where
  nodup : P.names.Nodup
  closed : ∀ f ∈ P, ∀ i c sg as, PInst.call i (.fn c) sg as ∈ f.insts → c ∈ P.names

theorem fn?_of_mem {P : PMod} (hn : P.names.Nodup) {f : PFun} (hf : f ∈ P) : P.fn? f.name = some f := by
  induction P with
  | nil => cases hf
  | cons g P ih =>
    simp only [PMod.names, List.map_cons, List.nodup_cons] at hn
    simp only [PMod.fn?, List.find?_cons]
    rcases List.mem_cons.1 hf with rfl | hf
    · simp
    · have : g.name ≠ f.name := fun he => hn.1 (he ▸ List.mem_map.2 ⟨f, hf, rfl⟩)
      simp only [this, decide_false]
      exact ih hn.2 hf

theorem fn?_none_iff {P : PMod} {n : Str} : P.fn? n = none ↔ n ∉ P.names := by
  simp only [PMod.fn?, List.find?_eq_none, PMod.names, List.mem_map, not_exists, not_and, decide_eq_true_eq]

theorem splitVoid_cons (f : PFun) (P : PMod) (n new : Str) :
    splitVoid (f :: P) n new = (if f.name = n then [f, voidFun n new f] else [voidCalls n new f]) ++ splitVoid P n new := by
  simp only [splitVoid, List.flatMap_cons]

theorem splitVoid_other {P : PMod} {n new m : Str} (hm : m ≠ n) (hw : m ≠ new) :
    PMod.fn? (splitVoid P n new) m = (P.fn? m).map (voidCalls n new) := by
  induction P with
  | nil => rfl
  | cons f P ih =>
    rw [splitVoid_cons]
    simp only [PMod.fn?, List.find?_append] at ih ⊢
    by_cases hf : f.name = n
    · simp only [hf, if_true, List.find?_cons, voidFun]
      have h1 : n ≠ m := fun h => hm h.symm
      have h2 : new ≠ m := fun h => hw h.symm
      simp only [h1, h2, decide_false, List.find?_nil, Option.none_or]
      exact ih
    · simp only [hf, if_false, List.find?_cons, voidCalls, PFun.mapInsts]
      by_cases h : f.name = m
      · simp only [h, decide_true, Option.some_or, Option.map_some, voidCalls, PFun.mapInsts]
      · simp only [h, decide_false, List.find?_nil, Option.none_or]
        exact ih

theorem splitVoid_self {P : PMod} {n new : Str} (hw : new ∉ P.names) :
    PMod.fn? (splitVoid P n new) n = P.fn? n := by
  induction P with
  | nil => rfl
  | cons f P ih =>
    simp only [PMod.names, List.map_cons, List.mem_cons, not_or] at hw
    rw [splitVoid_cons]
    simp only [PMod.fn?, List.find?_append] at ih ⊢
    by_cases hf : f.name = n
    · simp [hf]
    · simp only [hf, if_false, List.find?_cons, voidCalls, PFun.mapInsts, decide_false, List.find?_nil,
        Option.none_or]
      exact ih hw.2

theorem splitVoid_new {P : PMod} {n new : Str} (hw : new ∉ P.names) :
    PMod.fn? (splitVoid P n new) new = (P.fn? n).map (voidFun n new) := by
  induction P with
  | nil => rfl
  | cons f P ih =>
    simp only [PMod.names, List.map_cons, List.mem_cons, not_or] at hw
    rw [splitVoid_cons]
    simp only [PMod.fn?, List.find?_append] at ih ⊢
    have h1 : f.name ≠ new := fun h => hw.1 h.symm
    by_cases hf : f.name = n
    · simp only [hf] at h1
      simp [hf, h1, voidFun]
    · simp only [hf, if_false, List.find?_cons, voidCalls, PFun.mapInsts, h1, decide_false, List.find?_nil,
        Option.none_or]
      exact ih hw.2

/-- The calls before and after the split. -/
theorem splitVoid_sim {M : PMach V S} {P : PMod} {n new : Str} (hP : ModOk P) (hn : n ∈ P.names)
    (hw : new ∉ P.names) (ht : ∀ v, M.target v ≠ some new)
    (hx : ∀ a s, (M.ext new a s).2 = (M.ext n a s).2) :
    ∀ fuel, (∀ m, m ≠ new → ∀ a s, callFn M P fuel m a s = callFn M (splitVoid P n new) fuel m a s) ∧
      ∀ a s, ORel (fun _ _ => True) (callFn M P fuel n a s) (callFn M (splitVoid P n new) fuel new a s) := by
  intro fuel
  induction fuel with
  | zero => exact ⟨fun _ _ _ _ => rfl, fun _ _ => .none⟩
  | succ fuel ih =>
    have hval : ∀ v a s, callValue M (callFn M P fuel) v a s = callValue M (callFn M (splitVoid P n new) fuel) v a s := by
      intro v a s
      simp only [callValue]
      split
      · rename_i m hm
        exact ih.1 m (fun h => ht v (h ▸ hm)) _ _
      · rfl
    have hsame : ∀ args, ∀ f ∈ P, ∀ b ∈ f.blocks, ∀ i ∈ b.insts,
        ISim M M (callFn M P fuel) (callFn M (splitVoid P n new) fuel) args (Agree (Unused f)) i i := by
      intro args f hf b hb i hi
      refine isim_same (operands_used hb hi) ⟨?_, ?_⟩
      · intro k m sg as he
        subst he
        exact ih.1 m fun h => hw (h ▸ hP.closed f hf k m sg as (mem_insts hb hi))
      · intro v m hm
        exact ih.1 m fun h => ht v (h ▸ hm)
    have hvoid : ∀ args, ∀ f ∈ P, ∀ b ∈ f.blocks, ∀ i ∈ b.insts,
        ISim M M (callFn M P fuel) (callFn M (splitVoid P n new) fuel) args (Agree (Unused f)) i (voidCall f n new i) := by
      intro args f hf b hb i hi
      cases i with
      | call k c sg as =>
        cases c with
        | fn c =>
          simp only [voidCall]
          split
          · rename_i hc
            obtain ⟨rfl, hu⟩ := hc
            apply isim_unused hu
            intro env env' s hR
            simp only [callAny]
            rw [evalPs_agree hR (l := as) (fun n hn => operands_used hb hi n hn)]
            exact ih.2 _ _
          · exact hsame args f hf b hb _ hi
        | _ => exact hsame args f hf b hb _ hi
      | _ => exact hsame args f hf b hb _ hi
    constructor
    · intro m hm a s
      rw [callFn_succ, callFn_succ]
      simp only [callBody]
      by_cases hmn : m = n
      · subst hmn
        rw [splitVoid_self hw]
        cases hf : P.fn? m with
        | none => rfl
        | some f =>
          simp only
          cases hab : f.abs with
          | some x =>
            cases x with
            | asm t c => rfl
            | indirect =>
              simp only
              split
              · exact hval _ _ _
              · rfl
          | none =>
            simp only
            have hb := bsim_map (f := f) (g := id) (hsame a f (fn?_mem hf).1)
            have hid : (f.mapInsts id).blocks = f.blocks := by
              simp only [PFun.mapInsts]
              exact map_same fun b _ => by simp [PBlock.mapInsts]
            rw [hid] at hb
            cases hbl : f.blocks with
            | nil => rfl
            | cons b l =>
              rw [hbl] at hb
              exact orel_eq (runBlocks_sim hb fuel 0 0 _ _ s (fun _ _ => rfl))
      · rw [splitVoid_other hmn hm]
        cases hf : P.fn? m with
        | none => rfl
        | some f =>
          simp only [Option.map_some, voidCalls, PFun.mapInsts]
          cases hab : f.abs with
          | some x =>
            cases x with
            | asm t c => rfl
            | indirect =>
              simp only
              split
              · exact hval _ _ _
              · rfl
          | none =>
            simp only
            have hb := bsim_map (f := f) (g := voidCall f n new) (hvoid a f (fn?_mem hf).1)
            simp only [PFun.mapInsts] at hb
            cases hbl : f.blocks with
            | nil => rfl
            | cons b l =>
              rw [hbl] at hb
              exact orel_eq (runBlocks_sim hb fuel 0 0 _ _ s (fun _ _ => rfl))
    · intro a s
      rw [callFn_succ, callFn_succ]
      simp only [callBody]
      rw [splitVoid_new hw]
      cases hf : P.fn? n with
      | none => exact absurd hn (fn?_none_iff.1 hf)
      | some f =>
        simp only [Option.map_some, voidFun]
        cases hab : f.abs with
        | some x =>
          cases x with
          | asm t c => exact .some ⟨trivial, rfl⟩
          | indirect =>
            simp only
            split
            · rw [hval]
              cases callValue M (callFn M (splitVoid P n new) fuel) _ a.dropLast s with
              | none => exact .none
              | some r => exact .some ⟨trivial, rfl⟩
            · exact .none
        | none =>
          simp only [voidCalls, PFun.mapInsts, List.map_map]
          have hb : List.Forall₂ (BSim M M (callFn M P fuel) (callFn M (splitVoid P n new) fuel) a (Agree (Unused f))
              (fun _ _ => True)) f.blocks
              (f.blocks.map ((fun b => ({ b with term := voidTerm b.term } : PBlock)) ∘ PBlock.mapInsts (voidCall f n new))) := by
            rw [List.forall₂_map_right_iff, List.forall₂_same]
            intro b hb
            refine ⟨?_, ?_⟩
            · simp only [Function.comp, PBlock.mapInsts]
              rw [List.forall₂_map_right_iff, List.forall₂_same]
              exact hvoid a f (fn?_mem hf).1 b hb
            · intro env env' hR
              simp only [Function.comp, PBlock.mapInsts]
              have he := termOut_agree (M := M) (args := a) hR (t := b.term) (fun k hk hu => by
                have := term_operand hb hk
                simp only [Unused] at hu
                rw [this] at hu
                simp at hu)
              cases hbt : b.term with
              | ret v => cases v <;> exact .ret trivial
              | br c x y =>
                rw [hbt] at he
                simp only [voidTerm]
                rw [he]
                exact .goto
              | jmp x => exact .goto
              | stop => exact .stop
          cases hbl : f.blocks with
          | nil => exact .some ⟨trivial, (hx a s).symm⟩
          | cons b l =>
            rw [hbl] at hb
            exact runBlocks_sim hb fuel 0 0 _ _ s (fun _ _ => rfl)

theorem splitVoid_names_mem {P : PMod} {n new m : Str} (hn : n ∈ P.names) :
    m ∈ PMod.names (splitVoid P n new) ↔ m ∈ P.names ∨ m = new := by
  simp only [PMod.names, splitVoid, List.mem_map, List.mem_flatMap] at hn ⊢
  constructor
  · rintro ⟨g, ⟨f, hf, hg⟩, rfl⟩
    split at hg
    · simp only [List.mem_cons, List.not_mem_nil, or_false] at hg
      rcases hg with rfl | rfl
      · exact Or.inl ⟨_, hf, rfl⟩
      · exact Or.inr rfl
    · simp only [List.mem_singleton] at hg
      subst hg
      exact Or.inl ⟨f, hf, rfl⟩
  · rintro (⟨f, hf, rfl⟩ | rfl)
    · by_cases h : f.name = n
      · exact ⟨f, ⟨f, hf, by simp [h]⟩, rfl⟩
      · exact ⟨voidCalls n new f, ⟨f, hf, by simp [h]⟩, rfl⟩
    · obtain ⟨f, hf, he⟩ := hn
      exact ⟨voidFun n m f, ⟨f, hf, by simp [he]⟩, rfl⟩

theorem splitVoid_names {P : PMod} {n new : Str} : PMod.names (splitVoid P n new) =
    P.names.flatMap fun m => if m = n then [m, new] else [m] := by
  induction P with
  | nil => rfl
  | cons f P ih =>
    rw [splitVoid_cons]
    simp only [PMod.names, List.map_append, List.map_cons, List.flatMap_cons] at ih ⊢
    rw [ih]
    congr 1
    split <;> rfl

theorem nodup_insert {l : List Str} {n new : Str} (h : l.Nodup) (hw : new ∉ l) :
    (l.flatMap fun m => if m = n then [m, new] else [m]).Nodup := by
  induction l with
  | nil => simp
  | cons x l ih =>
    simp only [List.nodup_cons, List.mem_cons, not_or] at h hw
    have hmem : ∀ l : List Str, ∀ y, y ∈ (l.flatMap fun m => if m = n then [m, new] else [m]) → y ∈ l ∨ (y = new ∧ n ∈ l) := by
      intro l y hy
      obtain ⟨m, hm, hy⟩ := List.mem_flatMap.1 hy
      split at hy
      · rename_i he
        simp only [List.mem_cons, List.not_mem_nil, or_false] at hy
        rcases hy with rfl | rfl
        · exact Or.inl hm
        · exact Or.inr ⟨rfl, he ▸ hm⟩
      · simp only [List.mem_singleton] at hy
        exact Or.inl (hy ▸ hm)
    rw [List.flatMap_cons, List.nodup_append]
    refine ⟨?_, ih h.2 hw.2, ?_⟩
    · split
      · simp only [List.nodup_cons, List.mem_singleton, List.not_mem_nil, not_false_eq_true, List.nodup_nil, and_true]
        exact fun he => hw.1 he.symm
      · simp
    · intro a ha b hb he
      subst he
      rcases hmem l a hb with hb' | ⟨rfl, hb'⟩
      · split at ha
        · simp only [List.mem_cons, List.not_mem_nil, or_false] at ha
          rcases ha with rfl | rfl
          · exact h.1 hb'
          · exact hw.2 hb'
        · simp only [List.mem_singleton] at ha
          subst ha
          exact h.1 hb'
      · split at ha
        · rename_i he
          exact h.1 (he ▸ hb')
        · simp only [List.mem_singleton] at ha
          exact hw.1 ha

theorem splitVoid_ok {P : PMod} {n new : Str} (hP : ModOk P) (hn : n ∈ P.names) (hw : new ∉ P.names) :
    ModOk (splitVoid P n new) := by
  constructor
  · rw [splitVoid_names]
    exact nodup_insert hP.nodup hw
  · intro g hg i c sg as hi
    rw [splitVoid_names_mem hn]
    have hvc : ∀ f ∈ P, ∀ j ∈ (voidCalls n new f).insts, j = .call i (.fn c) sg as → c ∈ P.names ∨ c = new := by
      intro f hf j hj he
      simp only [voidCalls, PFun.insts, PFun.mapInsts, List.mem_flatMap, List.mem_map] at hj
      obtain ⟨b, ⟨b0, hb0, rfl⟩, hj⟩ := hj
      simp only [PBlock.mapInsts, List.mem_map] at hj
      obtain ⟨j0, hj0, rfl⟩ := hj
      cases j0 with
      | call k d sg0 as0 =>
        cases d with
        | fn d =>
          simp only [voidCall] at he
          split at he
          · simp only [PInst.call.injEq, PCallee.fn.injEq] at he
            exact Or.inr he.2.1.symm
          · simp only [PInst.call.injEq, PCallee.fn.injEq] at he
            exact Or.inl (he.2.1 ▸ hP.closed f hf k d sg0 as0 (mem_insts hb0 hj0))
        | _ => simp [voidCall] at he
      | _ => simp [voidCall] at he
    obtain ⟨f, hf, hg⟩ := List.mem_flatMap.1 hg
    split at hg
    · simp only [List.mem_cons, List.not_mem_nil, or_false] at hg
      rcases hg with rfl | rfl
      · exact Or.inl (hP.closed _ hf i c sg as hi)
      · refine hvc f hf _ ?_ rfl
        simp only [voidFun, PFun.insts, List.mem_flatMap, List.mem_map] at hi ⊢
        obtain ⟨b, ⟨b0, hb0, rfl⟩, hi⟩ := hi
        exact ⟨b0, hb0, hi⟩
    · simp only [List.mem_singleton] at hg
      subst hg
      exact hvc f hf _ hi rfl

/-- What is assumed of the machine: only functions of the module have addresses, and a variant of an external
function without result does the same as the function. -/
structure VoidMach (uniq : List Str → Str → Str) (M : PMach V S) (P : PMod) : Prop where
  target : ∀ v m, M.target v = some m → m ∈ P.names
  ext : ∀ n ∈ P.names, ∀ names, n ∈ names → ∀ a s, (M.ext (voidName uniq names n) a s).2 = (M.ext n a s).2

/-- C97: removing unused results succeeds and does not change what the functions of the module do (for functions
without a suffix in the name, which are not renamed). -/
def C97_statement : Prop :=
  ∀ (V S : Type) (uniq : List Str → Str → Str) (other : PMod) (called : Str → Bool) (M : PMach V S) (P : PMod),
    (∀ l n, uniq l n ∉ l) → ModOk P → VoidMach uniq M P → (∀ n ∈ P.names, hasSuffix n = false) →
    ∃ P', removeUnused uniq other called P = some P' ∧ ∀ n ∈ P.names, SameCalls M P P' n

theorem splitVoid_args {P : PMod} {names : List Str} {n new : Str} (hw : new ∉ names)
    (h : ∀ f ∈ P, ∀ i c sg as, PInst.call i (.fn c) sg as ∈ f.insts → c ∈ names → PValue.fn c ∉ as) :
    ∀ f ∈ splitVoid P n new, ∀ i c sg as, PInst.call i (.fn c) sg as ∈ f.insts → c ∈ names → PValue.fn c ∉ as := by
  intro g hg i c sg as hi hc
  have hvc : ∀ f ∈ P, ∀ j ∈ (voidCalls n new f).insts, j = .call i (.fn c) sg as → PValue.fn c ∉ as := by
    intro f hf j hj he
    simp only [voidCalls, PFun.insts, PFun.mapInsts, List.mem_flatMap, List.mem_map] at hj
    obtain ⟨b, ⟨b0, hb0, rfl⟩, hj⟩ := hj
    simp only [PBlock.mapInsts, List.mem_map] at hj
    obtain ⟨j0, hj0, rfl⟩ := hj
    cases j0 with
    | call k d sg0 as0 =>
      cases d with
      | fn d =>
        simp only [voidCall] at he
        split at he
        · simp only [PInst.call.injEq, PCallee.fn.injEq] at he
          exact absurd (he.2.1 ▸ hc) hw
        · simp only [PInst.call.injEq, PCallee.fn.injEq] at he
          obtain ⟨_, rfl, _, rfl⟩ := he
          exact h f hf k d sg0 as0 (mem_insts hb0 hj0) hc
      | _ => simp [voidCall] at he
    | _ => simp [voidCall] at he
  obtain ⟨f, hf, hg⟩ := List.mem_flatMap.1 hg
  split at hg
  · simp only [List.mem_cons, List.not_mem_nil, or_false] at hg
    rcases hg with rfl | rfl
    · exact h _ hf i c sg as hi hc
    · refine hvc f hf _ ?_ rfl
      simp only [voidFun, PFun.insts, List.mem_flatMap, List.mem_map] at hi ⊢
      obtain ⟨b, ⟨b0, hb0, rfl⟩, hi⟩ := hi
      exact ⟨b0, hb0, hi⟩
  · simp only [List.mem_singleton] at hg
    subst hg
    exact hvc f hf _ hi rfl

/-- C97, proved part: it holds if no function is passed to itself. Missing: such calls, for which the property fails;
functions with a suffix, which lose it (so the module is only equal up to renaming); LLVM's simplification of the new
function. -/
theorem C97_partial (uniq : List Str → Str → Str) (hu : ∀ l n, uniq l n ∉ l) (other : PMod) (called : Str → Bool)
    (M : PMach V S) (P : PMod) (hP : ModOk P) (hM : VoidMach uniq M P) (hs : ∀ n ∈ P.names, hasSuffix n = false)
    (hself : ∀ f ∈ P, ∀ i c sg as, PInst.call i (.fn c) sg as ∈ f.insts → PValue.fn c ∉ as) :
    ∃ P', removeUnused uniq other called P = some P' ∧ ∀ n ∈ P.names, SameCalls M P P' n := by
  have key : ∀ (l : List Str) (Q : PMod), (∀ n ∈ l, n ∈ P.names) → ModOk Q → (∀ n ∈ P.names, n ∈ Q.names) →
      (∀ f ∈ Q, ∀ i c sg as, PInst.call i (.fn c) sg as ∈ f.insts → c ∈ P.names → PValue.fn c ∉ as) →
      (∀ n ∈ P.names, SameCalls M P Q n) →
      ∃ P', l.foldlM (removeStep uniq other called) Q = some P' ∧ ∀ n ∈ P.names, SameCalls M P P' n := by
    intro l
    induction l with
    | nil => intro Q _ _ _ _ h; exact ⟨Q, rfl, h⟩
    | cons n l ih =>
      intro Q hl hQ hsub hargs hsame
      rw [List.foldlM_cons]
      have hnP := hl n (by simp)
      have hn := hsub n hnP
      have hl' : ∀ m ∈ l, m ∈ P.names := fun m hm => hl m (by simp [hm])
      have hst : stem n = n := by simp [stem, hs n hnP]
      simp only [removeStep]
      cases hf : Q.fn? n with
      | none => exact ih Q hl' hQ hsub hargs hsame
      | some f =>
        simp only
        split
        · have hno : (Q.any fun g => g.insts.any (isErasedTwice g n)) = false := by
            rw [Bool.eq_false_iff]
            intro hc
            simp only [List.any_eq_true] at hc
            obtain ⟨g, hg, i, hi, hc⟩ := hc
            simp only [isErasedTwice, Bool.and_eq_true, List.contains_iff_mem] at hc
            cases i with
            | call k c sg as =>
              cases c with
              | fn c =>
                simp only [isUnusedCall, Bool.and_eq_true, decide_eq_true_eq] at hc
                obtain ⟨⟨rfl, _⟩, h2⟩ := hc
                exact hargs g hg k c sg as hi hnP h2
              | _ => simp [isUnusedCall] at hc
            | _ => simp [isUnusedCall] at hc
          rw [if_neg (by rw [hno]; simp)]
          have h1 : newName uniq Q n (stem n) = n := by rw [hst]; simp [newName]
          have h2 : setName uniq Q n (stem n) = Q := by rw [hst]; simp [setName]
          rw [h1, h2, hst]
          have hv : (if Q.names.contains (n ++ str! ".void") = true then uniq Q.names (n ++ str! ".void")
              else n ++ str! ".void") = voidName uniq Q.names n := rfl
          rw [hv]
          have hw : voidName uniq Q.names n ∉ Q.names := by
            simp only [voidName]
            split
            · exact hu _ _
            · rename_i h
              simpa using h
          have hsim := splitVoid_sim (M := M) hQ hn hw
            (fun v h => hw (hsub _ (hM.target v _ h))) (hM.ext n hnP Q.names hn)
          refine ih _ hl' (splitVoid_ok hQ hn hw) (fun m hm => (splitVoid_names_mem hn).2 (Or.inl (hsub m hm)))
            (splitVoid_args (fun h => hw (hsub _ h)) hargs) ?_
          intro m hm a s v s'
          rw [hsame m hm a s v s']
          exact same_of_eq (fun fuel a s => (hsim fuel).1 m (fun h => hw (h ▸ hsub m hm)) a s) a s v s'
        · exact ih Q hl' hQ hsub hargs hsame
  exact key P.names P (fun _ h => h) hP (fun _ h => h) (fun f hf i c sg as hi _ => hself f hf i c sg as hi)
    (fun _ _ _ _ _ _ => Iff.rfl)

/-- A case of `C97_partial`: `g` is called by `f`, its result is not used, and it has no result in the other
module. -/
def voidMod : PMod :=
  [{ name := str! "f", sig := ⟨str! "i32", [], false⟩
     blocks := [⟨[.call 0 (.fn (str! "g")) ⟨str! "i32", [], false⟩ [.const 1]], .ret (some (.const 0))⟩] },
   { name := str! "g", sig := ⟨str! "i32", [str! "i32"], false⟩
     blocks := [⟨[.op 0 1 [.arg 0]], .ret (some (.inst 0))⟩] }]

/-- A machine that counts operations. -/
def stepMach : PMach Int Int :=
  { const := id, null := 0, undef := 0, addr := fun _ => 0, target := fun _ => none, isTrue := fun v => v ≠ 0
    op := fun _ a s => (s, s + a.headD 0), ext := fun _ _ s => (0, s), asm := fun _ _ _ s => (0, s) }

example : ModOk voidMod ∧ (∀ uniq, VoidMach uniq stepMach voidMod) ∧ (∀ n ∈ voidMod.names, hasSuffix n = false) ∧
    PEnds stepMach voidMod (str! "f") [] 0 0 1 ∧
    (∀ f ∈ voidMod, ∀ i c sg as, PInst.call i (.fn c) sg as ∈ f.insts → PValue.fn c ∉ as) ∧
    (removeUnused (fun _ _ => []) [{ name := str! "g", sig := ⟨str! "void", [str! "i32"], false⟩, blocks := [] }]
      (fun _ => true) voidMod).map PMod.names = some [str! "f", str! "g", str! "g.void"] := by
  refine ⟨⟨by decide +kernel, ?_⟩, ?_, by decide +kernel, ⟨4, by decide +kernel⟩, ?_, by decide +kernel⟩
  · intro f hf i c sg as hi
    simp only [voidMod, List.mem_cons, List.not_mem_nil, or_false] at hf
    rcases hf with rfl | rfl
    · simp only [PFun.insts, List.flatMap_cons, List.flatMap_nil, List.append_nil, List.mem_singleton,
        PInst.call.injEq, PCallee.fn.injEq] at hi
      rw [hi.2.1]
      decide +kernel
    · simp [PFun.insts] at hi
  · intro uniq
    exact ⟨fun v m h => by simp [stepMach] at h, fun _ _ _ _ _ _ => rfl⟩
  · intro f hf i c sg as hi
    simp only [voidMod, List.mem_cons, List.not_mem_nil, or_false] at hf
    rcases hf with rfl | rfl
    · simp only [PFun.insts, List.flatMap_cons, List.flatMap_nil, List.append_nil, List.mem_singleton,
        PInst.call.injEq, PCallee.fn.injEq] at hi
      rw [hi.2.2.2]
      simp
    · simp [PFun.insts] at hi

/-- `f() { g(g); }`, where `g` has a result. -/
def selfMod : PMod :=
  [{ name := str! "f", sig := ⟨str! "i32", [], false⟩
     blocks := [⟨[.call 0 (.fn (str! "g")) ⟨str! "i32", [str! "ptr"], false⟩ [.fn (str! "g")]], .ret (some (.const 0))⟩] },
   { name := str! "g", sig := ⟨str! "i32", [str! "ptr"], false⟩
     blocks := [⟨[], .ret (some (.const 1))⟩] }]

/-- A name that does not occur: longer than all others. -/
def longName (l : List Str) (_ : Str) : Str := List.replicate ((l.map List.length).sum + 1) 'x'

theorem longName_fresh (l : List Str) (n : Str) : longName l n ∉ l := by
  intro h
  have : ∀ l : List Str, ∀ x ∈ l, x.length ≤ (l.map List.length).sum := by
    intro l
    induction l with
    | nil => intro x hx; cases hx
    | cons y l ih =>
      intro x hx
      simp only [List.map_cons, List.sum_cons]
      rcases List.mem_cons.1 hx with rfl | hx
      · omega
      · have := ih x hx; omega
  have := this l _ h
  simp only [longName, List.length_replicate] at this
  omega

/-- C97 fails: a call that passes the called function as argument is erased twice. -/
theorem C97_fails : ¬ C97_statement := by
  intro h
  obtain ⟨P', h1, _⟩ := h Int Int longName [{ name := str! "g", sig := ⟨str! "void", [str! "ptr"], false⟩, blocks := [] }]
    (fun _ => true) stepMach selfMod longName_fresh
    ⟨by decide +kernel, fun f hf i c sg as hi => by
      simp only [selfMod, List.mem_cons, List.not_mem_nil, or_false] at hf
      rcases hf with rfl | rfl
      · simp only [PFun.insts, List.flatMap_cons, List.flatMap_nil, List.append_nil, List.mem_singleton,
          PInst.call.injEq, PCallee.fn.injEq] at hi
        rw [hi.2.1]
        decide +kernel
      · simp [PFun.insts] at hi⟩
    ⟨fun v m h => by simp [stepMach] at h, fun _ _ _ _ _ _ => rfl⟩ (by decide +kernel)
  have h2 : removeUnused longName [{ name := str! "g", sig := ⟨str! "void", [str! "ptr"], false⟩, blocks := [] }]
      (fun _ => true) selfMod = none := by decide +kernel
  rw [h2] at h1
  cases h1

end DK
