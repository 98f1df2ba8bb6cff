import Verif.Spec.Transforms
import Mathlib.Data.Option.Basic
import Mathlib.Data.List.Forall2

/-! Lemmas about the semantics of modules: simulations between functions and modules. -/

set_option autoImplicit false

namespace DK
open Spec

variable {V S : Type}

/-! ### Simulations of bodies -/

/-- What a terminator does. -/
inductive TOut (V : Type) where
  | ret (v : V)
  | goto (n : Nat)
  | stop

def termOut (M : PMach V S) (args : List V) (env : Nat → V) : PTerm → TOut V
  | .ret (some v) => .ret (evalP M args env v)
  | .ret none => .ret M.undef
  | .br c t e => .goto (if M.isTrue (evalP M args env c) then t else e)
  | .jmp t => .goto t
  | .stop => .stop

theorem runPBlocks_succ (M : PMach V S) (call : Str → List V → S → Option (V × S)) (blocks : List PBlock)
    (args : List V) (fuel prev cur : Nat) (env : Nat → V) (s : S) :
    runPBlocks M call blocks args (fuel + 1) prev cur env s =
      (blocks[cur]?).bind fun b => (runInsts M call args prev b.insts env s).bind fun r =>
        match termOut M args r.1 b.term with
        | .ret v => some (v, r.2)
        | .goto n => runPBlocks M call blocks args fuel cur n r.1 r.2
        | .stop => none := by
  simp only [runPBlocks]
  cases hb : blocks[cur]? with
  | none => rfl
  | some b =>
    simp only [Option.bind_some]
    cases hr : runInsts M call args prev b.insts env s with
    | none => rfl
    | some r =>
      simp only [Option.bind_some]
      cases ht : b.term with
      | ret v => cases v <;> rfl
      | br c t e => rfl
      | jmp t => rfl
      | stop => rfl

/-- Related outcomes: related values and equal states. -/
def ORel {A B : Type} (Q : A → B → Prop) : Option (A × S) → Option (B × S) → Prop :=
  Option.Rel (fun r r' => Q r.1 r'.1 ∧ r.2 = r'.2)

theorem orel_cases {A B : Type} {Q : A → B → Prop} {x : Option (A × S)} {y : Option (B × S)} (h : ORel Q x y) :
    (x = none ∧ y = none) ∨ ∃ r r', x = some r ∧ y = some r' ∧ Q r.1 r'.1 ∧ r.2 = r'.2 := by
  cases h with
  | none => exact Or.inl ⟨rfl, rfl⟩
  | some h => exact Or.inr ⟨_, _, rfl, rfl, h.1, h.2⟩

theorem orel_eq {A : Type} {x y : Option (A × S)} (h : ORel (· = ·) x y) : x = y := by
  cases h with
  | none => rfl
  | some h =>
    obtain ⟨h1, h2⟩ := h
    congr 1
    exact Prod.ext h1 h2

theorem orel_refl {A : Type} (x : Option (A × S)) : ORel (· = ·) x x := by
  cases x with
  | none => exact .none
  | some r => exact .some ⟨rfl, rfl⟩

/-- Related outcomes of terminators. -/
inductive TRel (Q : V → V → Prop) : TOut V → TOut V → Prop
  | ret {v v' : V} : Q v v' → TRel Q (.ret v) (.ret v')
  | goto {n : Nat} : TRel Q (.goto n) (.goto n)
  | stop : TRel Q .stop .stop

/-- Instructions that do the same in related environments. -/
def ISim (M M' : PMach V S) (call call' : Str → List V → S → Option (V × S)) (args : List V)
    (R : (Nat → V) → (Nat → V) → Prop) (i i' : PInst) : Prop :=
  ∀ prev env env' s, R env env' → ORel R (runInst M call args prev i env s) (runInst M' call' args prev i' env' s)

/-- Blocks that do the same. -/
structure BSim (M M' : PMach V S) (call call' : Str → List V → S → Option (V × S)) (args : List V)
    (R : (Nat → V) → (Nat → V) → Prop) (Q : V → V → Prop) (b b' : PBlock) : Prop where
  insts : List.Forall₂ (ISim M M' call call' args R) b.insts b'.insts
  term : ∀ env env', R env env' → TRel Q (termOut M args env b.term) (termOut M' args env' b'.term)

theorem runInsts_sim {M M' : PMach V S} {call call' : Str → List V → S → Option (V × S)} {args : List V}
    {R : (Nat → V) → (Nat → V) → Prop} {prev : Nat} {l l' : List PInst}
    (h : List.Forall₂ (ISim M M' call call' args R) l l') : ∀ {env env' : Nat → V} {s : S}, R env env' →
      ORel R (runInsts M call args prev l env s) (runInsts M' call' args prev l' env' s) := by
  induction h with
  | nil => intro env env' s hR; exact .some ⟨hR, rfl⟩
  | cons hi _ ih =>
    intro env env' s hR
    simp only [runInsts]
    rcases orel_cases (hi prev env env' s hR) with ⟨h1, h2⟩ | ⟨r, r', h1, h2, h3, h4⟩
    · rw [h1, h2]; exact .none
    · rw [h1, h2]
      simp only
      rw [h4]
      exact ih h3

theorem runBlocks_sim {M M' : PMach V S} {call call' : Str → List V → S → Option (V × S)} {args : List V}
    {R : (Nat → V) → (Nat → V) → Prop} {Q : V → V → Prop} {bs bs' : List PBlock}
    (h : List.Forall₂ (BSim M M' call call' args R Q) bs bs') : ∀ (fuel prev cur : Nat) (env env' : Nat → V) (s : S),
      R env env' →
      ORel Q (runPBlocks M call bs args fuel prev cur env s) (runPBlocks M' call' bs' args fuel prev cur env' s) := by
  intro fuel
  induction fuel with
  | zero => intros; exact .none
  | succ fuel ih =>
    intro prev cur env env' s hR
    rw [runPBlocks_succ, runPBlocks_succ]
    have hl := h.length_eq
    cases hb : bs[cur]? with
    | none =>
      rw [List.getElem?_eq_none_iff] at hb
      rw [List.getElem?_eq_none (by omega)]
      exact .none
    | some b =>
      obtain ⟨hlt, hb⟩ := List.getElem?_eq_some_iff.1 hb
      rw [List.getElem?_eq_getElem (by omega)]
      have hs := List.forall₂_iff_get.1 h |>.2 cur hlt (by omega)
      simp only [List.get_eq_getElem, hb] at hs
      simp only [Option.bind_some]
      rcases orel_cases (runInsts_sim (prev := prev) hs.insts (s := s) hR) with ⟨h1, h2⟩ | ⟨r, r', h3, h4, h1, h2⟩
      · rw [h1, h2]; exact .none
      · rw [h3, h4]
        simp only [Option.bind_some]
        generalize ht : termOut M args r.1 b.term = t
        generalize ht' : termOut M' args r'.1 bs'[cur].term = t'
        have := hs.term r.1 r'.1 h1
        rw [ht, ht'] at this
        cases this with
        | ret hq => exact .some ⟨hq, h2⟩
        | goto => simp only; rw [h2]; exact ih _ _ _ _ _ h1
        | stop => exact .none

/-! ### Changes of instructions whose results are not used -/

/-- The environments agree where `D` does not hold. -/
def Agree (D : Nat → Prop) (env env' : Nat → V) : Prop := ∀ n, ¬ D n → env n = env' n

theorem agree_set {D : Nat → Prop} {env env' : Nat → V} {n : Nat} {v : V} (h : Agree D env env') :
    Agree D (setEnv env n v) (setEnv env' n v) := by
  intro m hm
  simp only [setEnv]
  split
  · rfl
  · exact h m hm

theorem agree_set_unused {D : Nat → Prop} {env env' : Nat → V} {n : Nat} {v v' : V} (h : Agree D env env') (hn : D n) :
    Agree D (setEnv env n v) (setEnv env' n v') := by
  intro m hm
  simp only [setEnv]
  split
  · rename_i he; subst he; exact absurd hn hm
  · exact h m hm

theorem evalP_agree {M : PMach V S} {args : List V} {D : Nat → Prop} {env env' : Nat → V} (h : Agree D env env')
    {v : PValue} (hv : ∀ n, v = .inst n → ¬ D n) : evalP M args env v = evalP M args env' v := by
  cases v with
  | inst n => exact h n (hv n rfl)
  | _ => rfl

theorem evalPs_agree {M : PMach V S} {args : List V} {D : Nat → Prop} {env env' : Nat → V} (h : Agree D env env')
    {l : List PValue} (hv : ∀ n, PValue.inst n ∈ l → ¬ D n) : l.map (evalP M args env) = l.map (evalP M args env') := by
  apply List.map_congr_left
  intro v hm
  exact evalP_agree h fun n hn => hv n (hn ▸ hm)

theorem orel_map {A B A' B' : Type} {Q : A → B → Prop} {Q' : A' → B' → Prop} {x : Option (A × S)} {y : Option (B × S)}
    {f : A → A'} {g : B → B'} (h : ORel Q x y) (hf : ∀ a b, Q a b → Q' (f a) (g b)) :
    ORel Q' (x.map fun r => (f r.1, r.2)) (y.map fun r => (g r.1, r.2)) := by
  cases h with
  | none => exact .none
  | some h => exact .some ⟨hf _ _ h.1, h.2⟩

/-- The functions that an instruction may call do the same. -/
def CallsEq (M : PMach V S) (call call' : Str → List V → S → Option (V × S)) (i : PInst) : Prop :=
  (∀ k m sg as, i = .call k (.fn m) sg as → ∀ a s, call m a s = call' m a s) ∧
    ∀ v m, M.target v = some m → ∀ a s, call m a s = call' m a s

theorem callsEq_all {M : PMach V S} {call call' : Str → List V → S → Option (V × S)} {i : PInst}
    (h : ∀ n a s, call n a s = call' n a s) : CallsEq M call call' i :=
  ⟨fun _ m _ _ _ => h m, fun _ m _ => h m⟩

/-- An unchanged instruction, when calls do the same. -/
theorem isim_same {M : PMach V S} {call call' : Str → List V → S → Option (V × S)} {args : List V} {D : Nat → Prop}
    {i : PInst} (hi : ∀ n, PValue.inst n ∈ i.operands → ¬ D n)
    (hc : CallsEq M call call' i) : ISim M M call call' args (Agree D) i i := by
  intro prev env env' s hR
  cases i with
  | call k c sg as =>
    have ha : as.map (evalP M args env) = as.map (evalP M args env') := by
      apply evalPs_agree hR
      intro n hn
      apply hi
      cases c <;> simp [PInst.operands, hn]
    have : callAny M call args env c (as.map (evalP M args env)) s =
        callAny M call' args env' c (as.map (evalP M args env')) s := by
      rw [ha]
      cases c with
      | fn m => exact hc.1 _ _ _ _ rfl _ _
      | asm t c => rfl
      | ptr v =>
        simp only [callAny, callValue]
        rw [evalP_agree hR (v := v) (fun n hn => hi n (by simp [PInst.operands, hn]))]
        split
        · rename_i h; exact hc.2 _ _ h _ _
        · rfl
    simp only [runInst]
    rw [this]
    cases callAny M call' args env' c (as.map (evalP M args env')) s with
    | none => exact .none
    | some r => exact .some ⟨agree_set hR, rfl⟩
  | op k c as =>
    have ha : as.map (evalP M args env) = as.map (evalP M args env') := evalPs_agree hR hi
    simp only [runInst]
    rw [ha]
    exact .some ⟨agree_set hR, rfl⟩
  | phi k inc =>
    simp only [runInst]
    cases hf : inc.find? (fun x => x.1 = prev) with
    | none => exact .none
    | some x =>
      simp only
      rw [evalP_agree hR (v := x.2) (fun n hn => hi n (by
        rw [← hn]
        exact List.mem_map.2 ⟨x, List.mem_of_find?_eq_some hf, rfl⟩))]
      exact .some ⟨agree_set hR, rfl⟩

/-- A changed call with the same outcome. -/
theorem isim_call {M : PMach V S} {call call' : Str → List V → S → Option (V × S)} {args : List V}
    {D : Nat → Prop} {k : Nat} {c c' : PCallee} {sg sg' : PSig} {as as' : List PValue}
    (hc : ∀ env env' s, Agree D env env' →
      callAny M call args env c (as.map (evalP M args env)) s =
      callAny M call' args env' c' (as'.map (evalP M args env')) s) :
    ISim M M call call' args (Agree D) (.call k c sg as) (.call k c' sg' as') := by
  intro prev env env' s hR
  simp only [runInst]
  rw [hc env env' s hR]
  cases callAny M call' args env' c' (as'.map (evalP M args env')) s with
  | none => exact .none
  | some r => exact .some ⟨agree_set hR, rfl⟩

/-- A changed call whose result is not used. -/
theorem isim_unused {M : PMach V S} {call call' : Str → List V → S → Option (V × S)} {args : List V}
    {D : Nat → Prop} {k : Nat} {c c' : PCallee} {sg sg' : PSig} {as as' : List PValue} (hk : D k)
    (hc : ∀ env env' s, Agree D env env' → ORel (fun _ _ => True)
      (callAny M call args env c (as.map (evalP M args env)) s)
      (callAny M call' args env' c' (as'.map (evalP M args env')) s)) :
    ISim M M call call' args (Agree D) (.call k c sg as) (.call k c' sg' as') := by
  intro prev env env' s hR
  simp only [runInst]
  rcases orel_cases (hc env env' s hR) with ⟨h1, h2⟩ | ⟨r, r', h1, h2, _, h4⟩
  · rw [h1, h2]; exact .none
  · rw [h1, h2]; exact .some ⟨agree_set_unused hR hk, h4⟩

theorem termOut_agree {M : PMach V S} {args : List V} {D : Nat → Prop} {env env' : Nat → V} (h : Agree D env env')
    {t : PTerm} (ht : ∀ n, PValue.inst n ∈ t.operands → ¬ D n) : termOut M args env t = termOut M args env' t := by
  cases t with
  | ret v =>
    cases v with
    | none => rfl
    | some v => simp only [termOut]; rw [evalP_agree h (fun n hn => ht n (by simp [PTerm.operands, hn]))]
  | br c a b => simp only [termOut]; rw [evalP_agree h (fun n hn => ht n (by simp [PTerm.operands, hn]))]
  | _ => rfl

theorem trel_refl (t : TOut V) : TRel (· = ·) t t := by
  cases t with
  | ret v => exact .ret rfl
  | goto n => exact .goto
  | stop => exact .stop

theorem uses_iff {f : PFun} {n : Nat} : f.uses n = true ↔ PValue.inst n ∈ f.operands := by
  simp [PFun.uses]

theorem inst_operand {f : PFun} {b : PBlock} (hb : b ∈ f.blocks) {i : PInst} (hi : i ∈ b.insts) {n : Nat}
    (hn : PValue.inst n ∈ i.operands) : f.uses n = true := by
  rw [uses_iff]
  exact List.mem_flatMap.2 ⟨b, hb, List.mem_append_left _ (List.mem_flatMap.2 ⟨i, hi, hn⟩)⟩

theorem term_operand {f : PFun} {b : PBlock} (hb : b ∈ f.blocks) {n : Nat}
    (hn : PValue.inst n ∈ b.term.operands) : f.uses n = true := by
  rw [uses_iff]
  exact List.mem_flatMap.2 ⟨b, hb, List.mem_append_right _ hn⟩

/-- The result is not used in `f`. -/
def Unused (f : PFun) (n : Nat) : Prop := f.uses n = false

/-- A body whose instructions are changed one by one. -/
theorem bsim_map {M : PMach V S} {call call' : Str → List V → S → Option (V × S)} {args : List V} {f : PFun}
    {g : PInst → PInst} (h : ∀ b ∈ f.blocks, ∀ i ∈ b.insts, ISim M M call call' args (Agree (Unused f)) i (g i)) :
    List.Forall₂ (BSim M M call call' args (Agree (Unused f)) (· = ·)) f.blocks (f.mapInsts g).blocks := by
  simp only [PFun.mapInsts]
  rw [List.forall₂_map_right_iff, List.forall₂_same]
  intro b hb
  refine ⟨?_, ?_⟩
  · simp only [PBlock.mapInsts]
    rw [List.forall₂_map_right_iff, List.forall₂_same]
    exact h b hb
  · intro env env' hR
    simp only [PBlock.mapInsts]
    rw [termOut_agree hR (t := b.term) (fun n hn => by
      have := term_operand hb hn
      simp only [Unused]
      rw [this]
      simp)]
    exact trel_refl _

/-! ### Modules -/

/-- One level of a call. -/
def callBody (M : PMach V S) (P : PMod) (call : Str → List V → S → Option (V × S)) (fuel : Nat) (n : Str)
    (args : List V) (s : S) : Option (V × S) :=
  match P.fn? n with
  | none => some (M.ext n args s)
  | some f =>
    match f.abs with
    | some (.asm t c) => some (M.asm t c args s)
    | some .indirect =>
      match args.getLast? with
      | some v => callValue M call v args.dropLast s
      | none => none
    | none =>
      match f.blocks with
      | [] => some (M.ext n args s)
      | _ => runPBlocks M call f.blocks args fuel 0 0 (fun _ => M.undef) s

theorem callFn_succ (M : PMach V S) (P : PMod) (fuel : Nat) (n : Str) (args : List V) (s : S) :
    callFn M P (fuel + 1) n args s = callBody M P (callFn M P fuel) fuel n args s := rfl

theorem fn?_map {P : PMod} {g : PFun → PFun} (hg : ∀ f, (g f).name = f.name) (n : Str) :
    PMod.fn? (List.map g P) n = (P.fn? n).map g := by
  induction P with
  | nil => rfl
  | cons f P ih =>
    simp only [PMod.fn?, List.map_cons, List.find?_cons, hg] at ih ⊢
    split
    · rfl
    · exact ih

theorem fn?_mem {P : PMod} {n : Str} {f : PFun} (h : P.fn? n = some f) : f ∈ P ∧ f.name = n :=
  ⟨List.mem_of_find?_eq_some h, by simpa using List.find?_some h⟩

/-- Calls with the same outcome at every depth. -/
theorem same_of_eq {M : PMach V S} {P P' : PMod} {n : Str}
    (h : ∀ fuel args s, callFn M P fuel n args s = callFn M P' fuel n args s) : SameCalls M P P' n := by
  intro args s v s'
  exact ⟨fun ⟨k, hk⟩ => ⟨k, by rw [← h]; exact hk⟩, fun ⟨k, hk⟩ => ⟨k, by rw [h]; exact hk⟩⟩

end DK
