import Verif.Props.Transforms
import Verif.Lemmas.Dict

/-!
C98: functions that stand for indirect calls and inline assembly.
-/

set_option autoImplicit false

namespace DK
open Spec

variable {V S : Type}

/-! ### Simulations in one direction -/

/-- `y` has the outcome of `x`. -/
def OLe {A : Type} (x y : Option A) : Prop := ∀ r, x = some r → y = some r

theorem ole_refl {A : Type} (x : Option A) : OLe x x := fun _ h => h

theorem ole_trans {A : Type} {x y z : Option A} (h : OLe x y) (h' : OLe y z) : OLe x z := fun r hr => h' r (h r hr)

theorem ole_map {A B : Type} {x y : Option A} (f : A → B) (h : OLe x y) : OLe (x.map f) (y.map f) := by
  intro r hr
  cases hx : x with
  | none => rw [hx] at hr; cases hr
  | some a => rw [h a hx]; rw [hx] at hr; exact hr

theorem runInsts_le {M : PMach V S} {call call' : Str → List V → S → Option (V × S)} {args : List V} {prev : Nat}
    {l l' : List PInst}
    (h : List.Forall₂ (fun i i' => ∀ env s, OLe (runInst M call args prev i env s) (runInst M call' args prev i' env s)) l l') :
    ∀ env s, OLe (runInsts M call args prev l env s) (runInsts M call' args prev l' env s) := by
  induction h with
  | nil => intro env s; exact ole_refl _
  | @cons i i' l l' hi _ ih =>
    intro env s r hr
    simp only [runInsts] at hr ⊢
    cases hx : runInst M call args prev i env s with
    | none => rw [hx] at hr; cases hr
    | some a =>
      rw [hx] at hr
      rw [hi env s a hx]
      exact ih _ _ r hr

theorem runBlocks_le {M : PMach V S} {call call' : Str → List V → S → Option (V × S)} {args : List V}
    {bs bs' : List PBlock}
    (h : List.Forall₂ (fun b b' => b.term = b'.term ∧ ∀ prev, List.Forall₂ (fun i i' => ∀ env s,
      OLe (runInst M call args prev i env s) (runInst M call' args prev i' env s)) b.insts b'.insts) bs bs') :
    ∀ (fuel fuel' : Nat), fuel ≤ fuel' → ∀ (prev cur : Nat) (env : Nat → V) (s : S),
      OLe (runPBlocks M call bs args fuel prev cur env s) (runPBlocks M call' bs' args fuel' prev cur env s) := by
  intro fuel
  induction fuel with
  | zero => intro _ _ _ _ _ _ r hr; simp [runPBlocks] at hr
  | succ fuel ih =>
    intro fuel' hle prev cur env s r hr
    obtain ⟨fuel', rfl⟩ : ∃ k, fuel' = k + 1 := ⟨fuel' - 1, by omega⟩
    rw [runPBlocks_succ] at hr ⊢
    have hl := h.length_eq
    cases hb : bs[cur]? with
    | none => rw [hb] at hr; cases hr
    | some b =>
      rw [hb] at hr
      obtain ⟨hlt, hb⟩ := List.getElem?_eq_some_iff.1 hb
      rw [List.getElem?_eq_getElem (by omega)]
      have hs := List.forall₂_iff_get.1 h |>.2 cur hlt (by omega)
      simp only [List.get_eq_getElem, hb] at hs
      simp only [Option.bind_some] at hr ⊢
      cases hx : runInsts M call args prev b.insts env s with
      | none => rw [hx] at hr; cases hr
      | some a =>
        rw [hx] at hr
        rw [runInsts_le (hs.2 prev) env s a hx]
        simp only [Option.bind_some] at hr ⊢
        rw [← hs.1]
        split <;> rename_i ht
        · rw [ht] at hr; exact hr
        · rw [ht] at hr; exact ih fuel' (by omega) _ _ _ _ r hr
        · rw [ht] at hr; exact hr

theorem callValue_le {M : PMach V S} {call call' : Str → List V → S → Option (V × S)} {v : V} {a : List V} {s : S}
    (h : ∀ m, M.target v = some m → OLe (call m a s) (call' m a s)) :
    OLe (callValue M call v a s) (callValue M call' v a s) := by
  simp only [callValue]
  cases ht : M.target v with
  | none => exact ole_refl _
  | some m => exact h m ht

theorem runInst_le {M : PMach V S} {call call' : Str → List V → S → Option (V × S)} {args : List V} {prev : Nat}
    {i : PInst} (h : ∀ k m sg as, i = .call k (.fn m) sg as → ∀ a s, OLe (call m a s) (call' m a s))
    (ht : ∀ v m, M.target v = some m → ∀ a s, OLe (call m a s) (call' m a s)) (env : Nat → V) (s : S) :
    OLe (runInst M call args prev i env s) (runInst M call' args prev i env s) := by
  cases i with
  | call k c sg as =>
    simp only [runInst]
    apply ole_map
    cases c with
    | fn m => exact h k m sg as rfl _ _
    | asm t c => exact ole_refl _
    | ptr v => exact callValue_le fun m hm => ht _ m hm _ _
  | op k c as => exact ole_refl _
  | phi k inc => exact ole_refl _

/-- More steps do not change the outcome. -/
theorem callFn_mono1 (M : PMach V S) (P : PMod) : ∀ fuel n a s,
    OLe (callFn M P fuel n a s) (callFn M P (fuel + 1) n a s) := by
  intro fuel
  induction fuel with
  | zero => intro n a s r hr; simp [callFn] at hr
  | succ fuel ih =>
    intro n a s
    rw [callFn_succ, callFn_succ]
    simp only [callBody]
    cases P.fn? n with
    | none => exact ole_refl _
    | some f =>
      simp only
      cases f.abs with
      | some x =>
        cases x with
        | asm t c => exact ole_refl _
        | indirect =>
          simp only
          split
          · exact callValue_le fun m _ => ih m _ _
          · exact ole_refl _
      | none =>
        simp only
        cases f.blocks with
        | nil => exact ole_refl _
        | cons b l =>
          simp only
          refine runBlocks_le ?_ fuel (fuel + 1) (by omega) _ _ _ _
          rw [List.forall₂_same]
          intro b' _
          refine ⟨rfl, fun prev => ?_⟩
          rw [List.forall₂_same]
          intro i _ env s
          exact runInst_le (fun _ m _ _ _ => ih m) (fun _ m _ => ih m) env s

theorem callFn_mono (M : PMach V S) (P : PMod) {k j : Nat} (h : k ≤ j) (n : Str) (a : List V) (s : S) :
    OLe (callFn M P k n a s) (callFn M P j n a s) := by
  induction h with
  | refl => exact ole_refl _
  | step _ ih => exact ole_trans ih (callFn_mono1 M P _ n a s)

/-! ### Modules with generated functions -/

/-- The replacement of an instruction, with the generated functions `F`. -/
inductive AbsInstRel (F : List PFun) : PInst → PInst → Prop
  | same (i : PInst) : AbsInstRel F i i
  | ind {f : PFun} {k : Nat} {v : PValue} {sg : PSig} {as : List PValue} (hf : f ∈ F) (ha : f.abs = some .indirect)
      (hs : f.sig = ⟨sg.ret, sg.params ++ [str! "ptr"], false⟩) (hv : sg.vararg = false) :
      AbsInstRel F (.call k (.ptr v) sg as) (.call k (.fn f.name) f.sig (as ++ [v]))
  | asm {f : PFun} {k : Nat} {t c : Str} {sg : PSig} {as : List PValue} (hf : f ∈ F) (ha : f.abs = some (.asm t c))
      (hs : f.sig = ⟨sg.ret, sg.params, false⟩) (hv : sg.vararg = false) :
      AbsInstRel F (.call k (.asm t c) sg as) (.call k (.fn f.name) f.sig as)

def AbsBlockRel (F : List PFun) (b b' : PBlock) : Prop :=
  b.term = b'.term ∧ List.Forall₂ (AbsInstRel F) b.insts b'.insts

structure AbsFunRel (F : List PFun) (f f' : PFun) : Prop where
  name : f'.name = f.name
  sig : f'.sig = f.sig
  abs : f'.abs = f.abs
  blocks : List.Forall₂ (AbsBlockRel F) f.blocks f'.blocks

theorem absInstRel_mono {F G : List PFun} (h : ∀ f ∈ F, f ∈ G) {i i' : PInst} (hr : AbsInstRel F i i') :
    AbsInstRel G i i' := by
  cases hr with
  | same => exact .same _
  | ind hf ha hs hv => exact .ind (h _ hf) ha hs hv
  | asm hf ha hs hv => exact .asm (h _ hf) ha hs hv

theorem absBlockRel_mono {F G : List PFun} (h : ∀ f ∈ F, f ∈ G) {b b' : PBlock} (hr : AbsBlockRel F b b') :
    AbsBlockRel G b b' := ⟨hr.1, hr.2.imp fun _ _ => absInstRel_mono h⟩

theorem absFunRel_mono {F G : List PFun} (h : ∀ f ∈ F, f ∈ G) {f f' : PFun} (hr : AbsFunRel F f f') :
    AbsFunRel G f f' := ⟨hr.name, hr.sig, hr.abs, hr.blocks.imp fun _ _ => absBlockRel_mono h⟩

theorem fn?_append {P Q : PMod} {n : Str} : PMod.fn? (P ++ Q) n = (P.fn? n).or (Q.fn? n) := by
  simp [PMod.fn?, List.find?_append]

theorem rel_fn? {F : List PFun} {P P1 : PMod} (h : List.Forall₂ (AbsFunRel F) P P1) (n : Str) :
    Option.Rel (AbsFunRel F) (P.fn? n) (P1.fn? n) := by
  induction h with
  | nil => exact .none
  | @cons f f' P P1 hf _ ih =>
    simp only [PMod.fn?, List.find?_cons, hf.name] at ih ⊢
    split
    · exact .some hf
    · exact ih

/-- Calls in a module and in the one with generated functions. -/
theorem abstractions_sim {M : PMach V S} {P P1 : PMod} {F : List PFun} (hP : ModOk P)
    (h : List.Forall₂ (AbsFunRel F) P P1) (hF : PMod.names F |>.Nodup) (hfresh : ∀ f ∈ F, f.name ∉ P.names)
    (ht : ∀ v m, M.target v = some m → m ∈ P.names) :
    ∀ k, (∀ n ∈ P.names, ∀ a s, OLe (callFn M P k n a s) (callFn M (P1 ++ F) (2 * k) n a s)) ∧
      ∀ n ∈ P.names, ∀ a s, OLe (callFn M (P1 ++ F) k n a s) (callFn M P k n a s) := by
  have hfnF : ∀ f ∈ F, PMod.fn? (P1 ++ F) f.name = some f := by
    intro f hf
    rw [fn?_append]
    have h1 : P.fn? f.name = none := fn?_none_iff.2 (hfresh f hf)
    have h2 := rel_fn? h f.name
    rw [h1] at h2
    cases h3 : PMod.fn? P1 f.name with
    | some g => rw [h3] at h2; cases h2
    | none => rw [Option.none_or]; exact fn?_of_mem hF hf
  have hfnP : ∀ n ∈ P.names, ∃ f f', f ∈ P ∧ P.fn? n = some f ∧ PMod.fn? (P1 ++ F) n = some f' ∧ AbsFunRel F f f' := by
    intro n hn
    rw [fn?_append]
    have h2 := rel_fn? h n
    cases h1 : P.fn? n with
    | none => exact absurd hn (fn?_none_iff.1 h1)
    | some f =>
      rw [h1] at h2
      cases h3 : PMod.fn? P1 n with
      | none => rw [h3] at h2; cases h2
      | some f' =>
        rw [h3] at h2
        cases h2 with
        | some h2 => exact ⟨f, f', (fn?_mem h1).1, rfl, rfl, h2⟩
  intro k
  induction k with
  | zero => exact ⟨fun n _ a s r hr => by simp [callFn] at hr, fun n _ a s r hr => by simp [callFn] at hr⟩
  | succ k ih =>
    constructor
    · intro n hn a s
      obtain ⟨f, f', hfP, hf, hf', hrel⟩ := hfnP n hn
      rw [show 2 * (k + 1) = (2 * k + 1) + 1 by omega, callFn_succ, callFn_succ]
      simp only [callBody, hf, hf', hrel.abs]
      cases f.abs with
      | some x =>
        cases x with
        | asm t c => exact ole_refl _
        | indirect =>
          simp only
          split
          · exact callValue_le fun m hm => ole_trans (ih.1 m (ht _ m hm) _ _) (callFn_mono1 M _ _ m _ _)
          · exact ole_refl _
      | none =>
        simp only
        have hb : List.Forall₂ (fun b b' => b.term = b'.term ∧ ∀ prev, List.Forall₂ (fun i i' => ∀ env s,
            OLe (runInst M (callFn M P k) a prev i env s) (runInst M (callFn M (P1 ++ F) (2 * k + 1)) a prev i' env s))
            b.insts b'.insts) f.blocks f'.blocks := by
          have := List.forall₂_iff_get.1 hrel.blocks
          refine List.forall₂_iff_get.2 ⟨this.1, fun j h1 h2 => ?_⟩
          have hbr := this.2 j h1 h2
          have hbm : f.blocks.get ⟨j, h1⟩ ∈ f.blocks := List.get_mem _ _
          refine ⟨hbr.1, fun prev => ?_⟩
          have := List.forall₂_iff_get.1 hbr.2
          refine List.forall₂_iff_get.2 ⟨this.1, fun j' h1' h2' env s => ?_⟩
          have hir := this.2 j' h1' h2'
          have him : (f.blocks.get ⟨j, h1⟩).insts.get ⟨j', h1'⟩ ∈ (f.blocks.get ⟨j, h1⟩).insts := List.get_mem _ _
          generalize (f.blocks.get ⟨j, h1⟩).insts.get ⟨j', h1'⟩ = i at *
          generalize (f'.blocks.get ⟨j, h2⟩).insts.get ⟨j', h2'⟩ = i' at *
          cases hir with
          | same =>
            refine runInst_le ?_ ?_ env s
            · intro q m sg as he a s
              subst he
              exact ole_trans (ih.1 m (hP.closed f hfP q m sg as (mem_insts hbm him)) a s) (callFn_mono1 M _ _ m _ _)
            · intro v m hm a s
              exact ole_trans (ih.1 m (ht _ m hm) a s) (callFn_mono1 M _ _ m _ _)
          | ind hg ha hs hv =>
            rename_i g q v sg as
            simp only [runInst]
            apply ole_map
            simp only [callAny]
            rw [callFn_succ]
            simp only [callBody, hfnF g hg, ha, List.map_append, List.map_cons, List.map_nil, List.getLast?_concat,
              List.dropLast_concat]
            exact callValue_le fun m hm => ih.1 m (ht _ m hm) _ _
          | asm hg ha hs hv =>
            rename_i g q t c sg as
            simp only [runInst]
            apply ole_map
            simp only [callAny]
            rw [callFn_succ]
            simp only [callBody, hfnF g hg, ha]
            exact ole_refl _
        cases hfb : f.blocks with
        | nil =>
          rw [hfb, List.forall₂_nil_left_iff] at hb
          rw [hb]
          exact ole_refl _
        | cons b l =>
          rw [hfb] at hb
          cases hfb' : f'.blocks with
          | nil => rw [hfb'] at hb; cases hb
          | cons b' l' =>
            rw [hfb'] at hb
            exact runBlocks_le hb k (2 * k + 1) (by omega) _ _ _ _
    · intro n hn a s
      obtain ⟨f, f', hfP, hf, hf', hrel⟩ := hfnP n hn
      rw [callFn_succ, callFn_succ]
      simp only [callBody, hf, hf', hrel.abs]
      cases f.abs with
      | some x =>
        cases x with
        | asm t c => exact ole_refl _
        | indirect =>
          simp only
          split
          · exact callValue_le fun m hm => ih.2 m (ht _ m hm) _ _
          · exact ole_refl _
      | none =>
        simp only
        have hb : List.Forall₂ (fun b' b => b'.term = b.term ∧ ∀ prev, List.Forall₂ (fun i' i => ∀ env s,
            OLe (runInst M (callFn M (P1 ++ F) k) a prev i' env s) (runInst M (callFn M P k) a prev i env s))
            b'.insts b.insts) f'.blocks f.blocks := by
          have := List.forall₂_iff_get.1 hrel.blocks
          refine List.forall₂_iff_get.2 ⟨this.1.symm, fun j h2 h1 => ?_⟩
          have hbr := this.2 j h1 h2
          have hbm : f.blocks.get ⟨j, h1⟩ ∈ f.blocks := List.get_mem _ _
          refine ⟨hbr.1.symm, fun prev => ?_⟩
          have := List.forall₂_iff_get.1 hbr.2
          refine List.forall₂_iff_get.2 ⟨this.1.symm, fun j' h2' h1' env s => ?_⟩
          have hir := this.2 j' h1' h2'
          have him : (f.blocks.get ⟨j, h1⟩).insts.get ⟨j', h1'⟩ ∈ (f.blocks.get ⟨j, h1⟩).insts := List.get_mem _ _
          generalize (f.blocks.get ⟨j, h1⟩).insts.get ⟨j', h1'⟩ = i at *
          generalize (f'.blocks.get ⟨j, h2⟩).insts.get ⟨j', h2'⟩ = i' at *
          cases hir with
          | same =>
            refine runInst_le ?_ ?_ env s
            · intro q m sg as he a s
              subst he
              exact ih.2 m (hP.closed f hfP q m sg as (mem_insts hbm him)) a s
            · intro v m hm a s
              exact ih.2 m (ht _ m hm) a s
          | ind hg ha hs hv =>
            rename_i g q v sg as
            simp only [runInst]
            apply ole_map
            simp only [callAny]
            cases k with
            | zero => intro r hr; simp [callFn] at hr
            | succ k =>
              rw [callFn_succ]
              simp only [callBody, hfnF g hg, ha, List.map_append, List.map_cons, List.map_nil, List.getLast?_concat,
                List.dropLast_concat]
              exact callValue_le fun m hm => ole_trans (callFn_mono1 M _ _ m _ _) (ih.2 m (ht _ m hm) _ _)
          | asm hg ha hs hv =>
            rename_i g q t c sg as
            simp only [runInst]
            apply ole_map
            simp only [callAny]
            cases k with
            | zero => intro r hr; simp [callFn] at hr
            | succ k =>
              rw [callFn_succ]
              simp only [callBody, hfnF g hg, ha]
              exact ole_refl _
        cases hfb : f.blocks with
        | nil =>
          rw [hfb, List.forall₂_nil_right_iff] at hb
          rw [hb]
          exact ole_refl _
        | cons b l =>
          rw [hfb] at hb
          cases hfb' : f'.blocks with
          | nil => rw [hfb'] at hb; cases hb
          | cons b' l' =>
            rw [hfb'] at hb
            exact runBlocks_le hb k k (by omega) _ _ _ _

/-! ### Hashes -/

/-- Text without the characters that have a meaning in hashes. -/
def PlainText (t : Str) : Prop := ∀ c ∈ t, c ≠ '$' ∧ c ≠ '(' ∧ c ≠ ')' ∧ c ≠ ',' ∧ c ≠ '_' ∧ c ≠ ' '

/-- Function types with plain names of types. -/
structure PlainSig (s : PSig) : Prop where
  ret : PlainText s.ret
  params : ∀ p ∈ s.params, PlainText p ∧ p ≠ []
  fixed : s.vararg = false

theorem typeName_append (a b : Str) : typeName (a ++ b) = typeName a ++ typeName b := by
  simp [typeName]

theorem typeName_plain {t : Str} (h : PlainText t) : typeName t = t := by
  simp only [typeName]
  have h1 : t.filter (· ≠ ' ') = t := List.filter_eq_self.2 fun c hc => by simpa using (h c hc).2.2.2.2.2
  rw [h1]
  apply map_same
  intro c hc
  obtain ⟨_, h2, h3, h4, _, _⟩ := h c hc
  simp [h2, h3, h4]

/-- The parameters, separated. -/
def joinParams : List Str → Str
  | [] => []
  | [p] => p
  | p :: q :: l => p ++ '_' :: joinParams (q :: l)

theorem typeName_join {l : List Str} (h : ∀ p ∈ l, PlainText p) :
    typeName (List.intercalate (str! ", ") l) = joinParams l := by
  induction l with
  | nil => rfl
  | cons p l ih =>
    cases l with
    | nil =>
      simp only [List.intercalate, List.intersperse, List.flatten_cons, List.flatten_nil, List.append_nil, joinParams]
      exact typeName_plain (h p (by simp))
    | cons q l =>
      have hc : List.intercalate (str! ", ") (p :: q :: l) = p ++ (str! ", " ++ List.intercalate (str! ", ") (q :: l)) := by
        simp [List.intercalate, List.intersperse]
      rw [hc, typeName_append, typeName_append, typeName_plain (h p (by simp)), ih fun x hx => h x (by simp [hx])]
      rfl

theorem sigText_plain {s : PSig} (h : PlainSig s) :
    typeName (sigText s) = s.ret ++ '$' :: (joinParams s.params ++ ['$']) := by
  simp only [sigText, h.fixed, Bool.false_eq_true, if_false, List.append_nil]
  rw [typeName_append, typeName_append, typeName_append, typeName_plain h.ret, typeName_join fun p hp => (h.params p hp).1]
  simp [typeName]

theorem split_char {c : Char} {a a' b b' : Str} (ha : c ∉ a) (ha' : c ∉ a') (h : a ++ c :: b = a' ++ c :: b') :
    a = a' ∧ b = b' := by
  induction a generalizing a' with
  | nil =>
    cases a' with
    | nil => simpa using h
    | cons x a' =>
      simp only [List.nil_append, List.cons_append, List.cons.injEq] at h
      exact absurd (h.1 ▸ List.mem_cons_self) ha'
  | cons y a ih =>
    cases a' with
    | nil =>
      simp only [List.nil_append, List.cons_append, List.cons.injEq] at h
      exact absurd (h.1 ▸ List.mem_cons_self) ha
    | cons x a' =>
      simp only [List.cons_append, List.cons.injEq, List.mem_cons, not_or] at h ha ha'
      obtain ⟨h1, h2⟩ := ih ha.2 ha'.2 h.2
      exact ⟨by rw [h.1, h1], h2⟩

theorem split_char_last {c : Char} {a a' b b' : Str} (hb : c ∉ b) (hb' : c ∉ b') (h : a ++ c :: b = a' ++ c :: b') :
    a = a' ∧ b = b' := by
  have hr := congrArg List.reverse h
  simp only [List.reverse_append, List.reverse_cons, List.append_assoc, List.singleton_append] at hr
  obtain ⟨h1, h2⟩ := split_char (by simpa using hb) (by simpa using hb') hr
  exact ⟨List.reverse_injective h2, List.reverse_injective h1⟩

theorem joinParams_dollar {l : List Str} (h : ∀ p ∈ l, PlainText p) : '$' ∉ joinParams l := by
  induction l with
  | nil => simp [joinParams]
  | cons p l ih =>
    have hp : '$' ∉ p := fun hc => (h p (by simp) '$' hc).1 rfl
    cases l with
    | nil => exact hp
    | cons q l =>
      simp only [joinParams, List.mem_append, List.mem_cons, not_or]
      exact ⟨hp, by decide, ih fun x hx => h x (by simp [hx])⟩

theorem joinParams_inj : ∀ {l l' : List Str}, (∀ p ∈ l, PlainText p ∧ p ≠ []) → (∀ p ∈ l', PlainText p ∧ p ≠ []) →
    joinParams l = joinParams l' → l = l' := by
  have hu : ∀ {p : Str}, PlainText p → '_' ∉ p := fun h hc => (h '_' hc).2.2.2.2.1 rfl
  intro l
  induction l with
  | nil =>
    intro l' _ hl' h
    match l' with
    | [] => rfl
    | [p] => exact absurd h.symm (hl' p (by simp)).2
    | p :: q :: l' => simp [joinParams] at h
  | cons p l ih =>
    intro l' hl hl' h
    match l, l' with
    | [], [] => exact absurd h (hl p (by simp)).2
    | [], [p'] => simp only [joinParams] at h; rw [h]
    | [], p' :: q' :: l' =>
      simp only [joinParams] at h
      exact absurd (h ▸ (by simp)) (hu (hl p (by simp)).1)
    | q :: l, [] => simp [joinParams] at h
    | q :: l, [p'] =>
      simp only [joinParams] at h
      exact absurd (h ▸ (by simp)) (hu (hl' p' (by simp)).1)
    | q :: l, p' :: q' :: l' =>
      simp only [joinParams] at h
      obtain ⟨h1, h2⟩ := split_char (hu (hl p (by simp)).1) (hu (hl' p' (by simp)).1) h
      rw [h1, ih (fun x hx => hl x (by simp [hx])) (fun x hx => hl' x (by simp [hx])) h2]

theorem sig_ext {s s' : PSig} (h1 : s.ret = s'.ret) (h2 : s.params = s'.params) (h3 : s.vararg = s'.vararg) : s = s' := by
  cases s; cases s'; simp only at h1 h2 h3; rw [h1, h2, h3]

theorem sigText_split {s s' : PSig} (h : PlainSig s) (h' : PlainSig s') {t t' : Str}
    (he : typeName (sigText s) ++ t = typeName (sigText s') ++ t') : s = s' ∧ t = t' := by
  rw [sigText_plain h, sigText_plain h'] at he
  simp only [List.append_assoc, List.cons_append, List.nil_append] at he
  have hd : ∀ {x : Str}, PlainText x → '$' ∉ x := fun hx hc => (hx '$' hc).1 rfl
  obtain ⟨h1, h2⟩ := split_char (hd h.ret) (hd h'.ret) he
  obtain ⟨h3, h4⟩ := split_char (joinParams_dollar fun p hp => (h.params p hp).1)
    (joinParams_dollar fun p hp => (h'.params p hp).1) h2
  exact ⟨sig_ext h1 (joinParams_inj h.params h'.params h3) (by rw [h.fixed, h'.fixed]), h4⟩

/-- Called values for which a function is generated. -/
inductive AbsCallee : PCallee → PAbs → Prop
  | ptr (v : PValue) : AbsCallee (.ptr v) .indirect
  | asm (t c : Str) (h : '$' ∉ c) : AbsCallee (.asm t c) (.asm t c)

theorem absHash_inj {s s' : PSig} {c c' : PCallee} {x x' : PAbs} (hs : PlainSig s) (hs' : PlainSig s')
    (hc : AbsCallee c x) (hc' : AbsCallee c' x') (h : absHash s c = absHash s' c') : s = s' ∧ x = x' := by
  cases hc with
  | ptr v =>
    cases hc' with
    | ptr v' =>
      simp only [absHash] at h
      exact ⟨(sigText_split (t := []) (t' := []) hs hs' (by simpa using h)).1, rfl⟩
    | asm t' c' _ =>
      simp only [absHash, List.append_assoc] at h
      have := (sigText_split (t := []) hs hs' (by simpa using h)).2
      simp at this
  | asm t c hd =>
    cases hc' with
    | ptr v' =>
      simp only [absHash, List.append_assoc] at h
      have := (sigText_split (t' := []) hs hs' (by simpa using h)).2
      simp at this
    | asm t' c' hd' =>
      simp only [absHash, List.append_assoc] at h
      obtain ⟨h1, h2⟩ := sigText_split hs hs' h
      simp only [List.cons_append, List.nil_append, List.cons.injEq, true_and] at h2
      obtain ⟨h3, h4⟩ := split_char_last hd hd' h2
      exact ⟨h1, by rw [h3, h4]⟩

/-! ### The generated functions -/

/-- The function for a type and a kind of call. -/
def absFunOf (n : Str) (s : PSig) (x : PAbs) : PFun :=
  { name := n
    sig := match x with
      | .indirect => ⟨s.ret, s.params ++ [str! "ptr"], false⟩
      | .asm _ _ => ⟨s.ret, s.params, false⟩
    blocks := []
    abs := some x }

def absNameOf (x : PAbs) (k : Nat) : Str :=
  (match x with | .indirect => indirectPrefix | .asm _ _ => asmPrefix) ++ Nat.toDigits 10 k

theorem digits_inj {a b : Nat} (h : Nat.toDigits 10 a = Nat.toDigits 10 b) : a = b := by
  have ha := Nat.ofDigitChars_ten_toDigits (n := a)
  have hb := Nat.ofDigitChars_ten_toDigits (n := b)
  rw [h, hb] at ha
  exact ha.symm

theorem absName_inj {x y : PAbs} {a b : Nat} (h : absNameOf x a = absNameOf y b) : a = b := by
  have hne : ∀ u v : Str, indirectPrefix ++ u ≠ asmPrefix ++ v := by
    intro u v h
    simp [indirectPrefix, asmPrefix] at h
  cases x <;> cases y <;> simp only [absNameOf] at h
  · exact digits_inj (List.append_cancel_left h)
  · exact absurd h (hne _ _)
  · exact absurd h.symm (hne _ _)
  · exact digits_inj (List.append_cancel_left h)

theorem absName_abs (x : PAbs) (k : Nat) : isAbstraction (absNameOf x k) = true := by
  cases x <;> simp [absNameOf, isAbstraction, startsWith]

/-- What holds of the table of generated functions. -/
structure AbsInv (st : AbsSt) : Prop where
  map : ∀ h n, st.map.get? h = some n → ∃ s c x, PlainSig s ∧ AbsCallee c x ∧ absHash s c = h ∧
    absFunOf n s x ∈ st.funs
  names : ∀ f ∈ st.funs, ∃ x k, f.name = absNameOf x k ∧ k < st.next
  decls : ∀ f ∈ st.funs, f.blocks = []
  nodup : (PMod.names st.funs).Nodup

theorem absInv_init : AbsInv {} :=
  ⟨fun _ _ h => by simp [Dict.get?] at h, fun _ h => by simp at h, fun _ h => by simp at h, by simp [PMod.names]⟩

theorem absFunFor_spec {st : AbsSt} (hi : AbsInv st) {s : PSig} {c : PCallee} {x : PAbs} (hs : PlainSig s)
    (hc : AbsCallee c x) : AbsInv (absFunFor st s c).2 ∧ (∀ f ∈ st.funs, f ∈ (absFunFor st s c).2.funs) ∧
      absFunOf (absFunFor st s c).1 s x ∈ (absFunFor st s c).2.funs := by
  simp only [absFunFor]
  cases hg : st.map.get? (absHash s c) with
  | some n =>
    simp only
    obtain ⟨s', c', x', hs', hc', hh, hf⟩ := hi.map _ _ hg
    obtain ⟨h1, h2⟩ := absHash_inj hs' hs hc' hc hh
    rw [h1, h2] at hf
    exact ⟨hi, fun _ h => h, hf⟩
  | none =>
    simp only
    have hname : absPrefix c ++ Nat.toDigits 10 st.next = absNameOf x st.next := by
      cases hc <;> rfl
    have hfun : (⟨absPrefix c ++ Nat.toDigits 10 st.next,
        ⟨s.ret, s.params ++ (if isAsm c then [] else [str! "ptr"]), false⟩, [], some (absOf c)⟩ : PFun) =
        absFunOf (absPrefix c ++ Nat.toDigits 10 st.next) s x := by
      cases hc <;> simp [absFunOf, isAsm, absOf]
    refine ⟨⟨?_, ?_, ?_, ?_⟩, fun f hf => List.mem_append_left _ hf, ?_⟩
    · intro h n hn
      rw [Dict.get?_set] at hn
      split at hn
      · rename_i he
        simp only [Option.some.injEq] at hn
        refine ⟨s, c, x, hs, hc, he.symm, ?_⟩
        rw [← hn]
        exact List.mem_append_right _ (by rw [List.mem_singleton]; exact hfun.symm)
      · obtain ⟨s', c', x', h1, h2, h3, h4⟩ := hi.map h n hn
        exact ⟨s', c', x', h1, h2, h3, List.mem_append_left _ h4⟩
    · intro f hf
      rcases List.mem_append.1 hf with hf | hf
      · obtain ⟨y, k, h1, h2⟩ := hi.names f hf
        exact ⟨y, k, h1, by simp only; omega⟩
      · rw [List.mem_singleton] at hf
        refine ⟨x, st.next, ?_, by simp only; omega⟩
        rw [hf]
        exact hname
    · intro f hf
      rcases List.mem_append.1 hf with hf | hf
      · exact hi.decls f hf
      · rw [List.mem_singleton] at hf
        rw [hf]
    · simp only [PMod.names, List.map_append, List.map_cons, List.map_nil]
      rw [List.nodup_append]
      refine ⟨hi.nodup, by simp, ?_⟩
      intro a ha b hb he
      rw [List.mem_singleton] at hb
      obtain ⟨f, hf, rfl⟩ := List.mem_map.1 ha
      obtain ⟨y, k, h1, h2⟩ := hi.names f hf
      rw [hb] at he
      have := absName_inj ((h1.symm.trans he).trans hname)
      omega
    · exact List.mem_append_right _ (by rw [List.mem_singleton]; exact hfun.symm)

/-- The instruction has a plain type, if it calls a pointer or inline assembly. -/
def PlainInst : PInst → Prop
  | .call _ (.ptr _) s _ => PlainSig s
  | .call _ (.asm _ c) s _ => PlainSig s ∧ '$' ∉ c
  | _ => True

theorem absInst_spec {st : AbsSt} (hi : AbsInv st) {i : PInst} (hp : PlainInst i) :
    AbsInv (absInst st i).2 ∧ (∀ f ∈ st.funs, f ∈ (absInst st i).2.funs) ∧
      AbsInstRel (absInst st i).2.funs i (absInst st i).1 := by
  cases i with
  | call k c s as =>
    cases c with
    | fn n => exact ⟨hi, fun _ h => h, .same _⟩
    | ptr v =>
      obtain ⟨h1, h2, h3⟩ := absFunFor_spec hi hp (.ptr v)
      exact ⟨h1, h2, .ind h3 rfl rfl hp.fixed⟩
    | asm t c =>
      obtain ⟨h1, h2, h3⟩ := absFunFor_spec hi hp.1 (.asm t c hp.2)
      exact ⟨h1, h2, .asm h3 rfl rfl hp.1.fixed⟩
  | op k c as => exact ⟨hi, fun _ h => h, .same _⟩
  | phi k inc => exact ⟨hi, fun _ h => h, .same _⟩

theorem absInsts_spec : ∀ {l : List PInst} {st : AbsSt}, AbsInv st → (∀ i ∈ l, PlainInst i) →
    AbsInv (absInsts st l).2 ∧ (∀ f ∈ st.funs, f ∈ (absInsts st l).2.funs) ∧
      List.Forall₂ (AbsInstRel (absInsts st l).2.funs) l (absInsts st l).1 := by
  intro l
  induction l with
  | nil => intro st hi _; exact ⟨hi, fun _ h => h, .nil⟩
  | cons i l ih =>
    intro st hi hp
    obtain ⟨h1, h2, h3⟩ := absInst_spec hi (hp i (by simp))
    obtain ⟨h4, h5, h6⟩ := ih h1 fun j hj => hp j (by simp [hj])
    exact ⟨h4, fun f hf => h5 f (h2 f hf), .cons (absInstRel_mono h5 h3) h6⟩

theorem absBlocks_spec : ∀ {l : List PBlock} {st : AbsSt}, AbsInv st → (∀ b ∈ l, ∀ i ∈ b.insts, PlainInst i) →
    AbsInv (absBlocks st l).2 ∧ (∀ f ∈ st.funs, f ∈ (absBlocks st l).2.funs) ∧
      List.Forall₂ (AbsBlockRel (absBlocks st l).2.funs) l (absBlocks st l).1 := by
  intro l
  induction l with
  | nil => intro st hi _; exact ⟨hi, fun _ h => h, .nil⟩
  | cons b l ih =>
    intro st hi hp
    obtain ⟨h1, h2, h3⟩ := absInsts_spec hi (hp b (by simp))
    obtain ⟨h4, h5, h6⟩ := ih h1 fun j hj => hp j (by simp [hj])
    exact ⟨h4, fun f hf => h5 f (h2 f hf), .cons (absBlockRel_mono h5 ⟨rfl, h3⟩) h6⟩

theorem absFunRel_refl (F : List PFun) (f : PFun) : AbsFunRel F f f :=
  ⟨rfl, rfl, rfl, List.forall₂_same.2 fun _ _ => ⟨rfl, List.forall₂_same.2 fun _ _ => .same _⟩⟩

theorem absFuns_spec (called : Str → Bool) : ∀ {l : List PFun} {st : AbsSt}, AbsInv st →
    (∀ f ∈ l, called f.name = true → ∀ i ∈ f.insts, PlainInst i) →
    AbsInv (absFuns called st l).2 ∧ (∀ f ∈ st.funs, f ∈ (absFuns called st l).2.funs) ∧
      List.Forall₂ (AbsFunRel (absFuns called st l).2.funs) l (absFuns called st l).1 := by
  intro l
  induction l with
  | nil => intro st hi _; exact ⟨hi, fun _ h => h, .nil⟩
  | cons f l ih =>
    intro st hi hp
    simp only [absFuns]
    split
    · rename_i hc
      obtain ⟨h1, h2, h3⟩ := absBlocks_spec hi fun b hb i hi => hp f (by simp) hc i (mem_insts hb hi)
      obtain ⟨h4, h5, h6⟩ := ih h1 fun j hj => hp j (by simp [hj])
      exact ⟨h4, fun f hf => h5 f (h2 f hf), .cons (absFunRel_mono h5 ⟨rfl, rfl, rfl, h3⟩) h6⟩
    · obtain ⟨h4, h5, h6⟩ := ih hi fun j hj => hp j (by simp [hj])
      exact ⟨h4, h5, .cons (absFunRel_refl _ f) h6⟩

/-! ### The property -/

/-- Before the generation, names of generated functions do not occur, and calls have the numbers of arguments that
their types tell. -/
structure AbsReady (P : PMod) : Prop where
  fresh : ∀ n ∈ P.names, isAbstraction n = false
  typed : ∀ f ∈ P, ∀ k c s as, PInst.call k c s as ∈ f.insts →
    if s.vararg then s.params.length ≤ as.length else as.length = s.params.length

/-- Calls of generated functions have the type of the called function. -/
def AbsTyped (P : PMod) : Prop :=
  ∀ f ∈ P, ∀ k n s as, PInst.call k (.fn n) s as ∈ f.insts → isAbstraction n = true →
    ∃ g, P.fn? n = some g ∧ g.sig = s ∧ as.length = g.sig.params.length

/-- C98: replacing indirect calls and inline assembly by calls of generated functions keeps what the functions do,
and the new calls have the types of the generated functions. -/
def C98_statement : Prop :=
  ∀ (V S : Type) (M : PMach V S) (called : Str → Bool) (P : PMod), ModOk P → AbsReady P →
    (∀ v m, M.target v = some m → m ∈ P.names) →
      (∀ n ∈ P.names, SameCalls M P (generateAbstractions called P) n) ∧ AbsTyped (generateAbstractions called P)

/-- `f(p) { p(1, 2); }`, where `p` has type `i32 (i32, ...)`. -/
def varargMod : PMod :=
  [{ name := str! "f", sig := ⟨str! "i32", [str! "ptr"], false⟩
     blocks := [⟨[.call 0 (.ptr (.arg 0)) ⟨str! "i32", [str! "i32"], true⟩ [.const 1, .const 2]],
       .ret (some (.inst 0))⟩] }]

/-- C98 fails: the function that is generated for calls with a variable number of arguments has a fixed number of
parameters. -/
theorem C98_fails : ¬ C98_statement := by
  intro h
  have h1 := (h Int Int stepMach (fun _ => true) varargMod
    ⟨by decide +kernel, fun f hf i c sg as hi => by
      simp only [varargMod, List.mem_singleton] at hf
      subst hf
      simp [PFun.insts] at hi⟩
    ⟨by decide +kernel, fun f hf k c s as hi => by
      simp only [varargMod, List.mem_singleton] at hf
      subst hf
      simp only [PFun.insts, List.flatMap_cons, List.flatMap_nil, List.append_nil, List.mem_singleton,
        PInst.call.injEq] at hi
      obtain ⟨_, _, rfl, rfl⟩ := hi
      decide +kernel⟩
    (fun v m hm => by simp [stepMach] at hm)).2
  have hg : generateAbstractions (fun _ => true) varargMod =
      [{ name := str! "f", sig := ⟨str! "i32", [str! "ptr"], false⟩
         blocks := [⟨[.call 0 (.fn (str! "simpll__indirect.0")) ⟨str! "i32", [str! "i32", str! "ptr"], false⟩
           [.const 1, .const 2, .arg 0]], .ret (some (.inst 0))⟩] },
       { name := str! "simpll__indirect.0", sig := ⟨str! "i32", [str! "i32", str! "ptr"], false⟩, blocks := []
         abs := some .indirect }] := by decide +kernel
  rw [hg] at h1
  obtain ⟨g, h2, h3, h4⟩ := h1 _ List.mem_cons_self 0 (str! "simpll__indirect.0")
    ⟨str! "i32", [str! "i32", str! "ptr"], false⟩ [.const 1, .const 2, .arg 0] (by decide +kernel) (by decide +kernel)
  have h5 : g.sig.params.length = 2 := by rw [h3]; rfl
  rw [h5] at h4
  simp at h4

/-- Different types may have the same hash: `void (%a, i32)` and `void (%a_i32)` share a generated function, and one
of the calls has another type than the function. -/
theorem C98_collision :
    absHash ⟨str! "void", [str! "%a", str! "i32"], false⟩ (.ptr .null) =
      absHash ⟨str! "void", [str! "%a_i32"], false⟩ (.ptr .null) ∧
    ((generateAbstractions (fun _ => true)
      [{ name := str! "f", sig := ⟨str! "void", [], false⟩
         blocks := [⟨[.call 0 (.ptr (.arg 0)) ⟨str! "void", [str! "%a", str! "i32"], false⟩ [.arg 1, .arg 2],
           .call 1 (.ptr (.arg 3)) ⟨str! "void", [str! "%a_i32"], false⟩ [.arg 4]], .ret none⟩] }]).map PFun.name) =
      [str! "f", str! "simpll__indirect.0"] := by
  decide +kernel

theorem forall₂_mem_right {A B : Type} {R : A → B → Prop} {l : List A} {l' : List B} (h : List.Forall₂ R l l') {b : B}
    (hb : b ∈ l') : ∃ a ∈ l, R a b := by
  induction h with
  | nil => cases hb
  | cons hr _ ih =>
    rcases List.mem_cons.1 hb with rfl | hb
    · exact ⟨_, by simp, hr⟩
    · obtain ⟨a, ha, hr⟩ := ih hb
      exact ⟨a, by simp [ha], hr⟩

/-- C98, proved part: it holds if the called types have a fixed number of parameters and plain names, and constraints
contain no `$`. Missing: variable numbers of arguments and types with colliding names, for which the property
fails. -/
theorem C98_partial (M : PMach V S) (called : Str → Bool) (P : PMod) (hP : ModOk P) (hR : AbsReady P)
    (ht : ∀ v m, M.target v = some m → m ∈ P.names)
    (hp : ∀ f ∈ P, called f.name = true → ∀ i ∈ f.insts, PlainInst i) :
    (∀ n ∈ P.names, SameCalls M P (generateAbstractions called P) n) ∧ AbsTyped (generateAbstractions called P) := by
  obtain ⟨hinv, _, hrel⟩ := absFuns_spec called (l := P) absInv_init hp
  have hfresh : ∀ f ∈ (absFuns called {} P).2.funs, f.name ∉ P.names := by
    intro f hf hc
    obtain ⟨x, k, h1, _⟩ := hinv.names f hf
    have := hR.fresh _ hc
    rw [h1, absName_abs] at this
    cases this
  have hsim := abstractions_sim (M := M) hP hrel hinv.nodup hfresh ht
  constructor
  · intro n hn a s v s'
    constructor
    · rintro ⟨k, hk⟩
      exact ⟨2 * k, (hsim k).1 n hn a s _ hk⟩
    · rintro ⟨k, hk⟩
      exact ⟨k, (hsim k).2 n hn a s _ hk⟩
  · intro f hf k n s as hi hn
    have hfnF : ∀ g ∈ (absFuns called {} P).2.funs, PMod.fn? (generateAbstractions called P) g.name = some g := by
      intro g hg
      simp only [generateAbstractions]
      rw [fn?_append]
      have h1 : P.fn? g.name = none := fn?_none_iff.2 (hfresh g hg)
      have h2 := rel_fn? hrel g.name
      rw [h1] at h2
      cases h3 : PMod.fn? (absFuns called {} P).1 g.name with
      | some g => rw [h3] at h2; cases h2
      | none => rw [Option.none_or]; exact fn?_of_mem hinv.nodup hg
    rcases List.mem_append.1 hf with hf | hf
    · obtain ⟨f0, hf0, hfr⟩ := forall₂_mem_right hrel hf
      obtain ⟨b, hb, hib⟩ := List.mem_flatMap.1 hi
      obtain ⟨b0, hb0, hbr⟩ := forall₂_mem_right hfr.blocks hb
      obtain ⟨i0, hi0, hir⟩ := forall₂_mem_right hbr.2 hib
      have hi0' := mem_insts hb0 hi0
      generalize hj : PInst.call k (.fn n) s as = j at hir
      cases hir with
      | same =>
        subst hj
        have := hR.fresh n (hP.closed f0 hf0 k n s as hi0')
        rw [hn] at this
        cases this
      | ind hg ha hs hv =>
        rename_i g q v sg as0
        simp only [PInst.call.injEq, PCallee.fn.injEq] at hj
        obtain ⟨_, rfl, rfl, rfl⟩ := hj
        refine ⟨g, hfnF g hg, rfl, ?_⟩
        have h1 := hR.typed f0 hf0 q _ sg as0 hi0'
        rw [hs]
        rw [hv] at h1
        simp only [Bool.false_eq_true, if_false] at h1
        simp [h1]
      | asm hg ha hs hv =>
        rename_i g q t c sg as0
        simp only [PInst.call.injEq, PCallee.fn.injEq] at hj
        obtain ⟨_, rfl, rfl, rfl⟩ := hj
        refine ⟨g, hfnF g hg, rfl, ?_⟩
        have h1 := hR.typed f0 hf0 q _ sg as hi0'
        rw [hs]
        rw [hv] at h1
        simp only [Bool.false_eq_true, if_false] at h1
        simp [h1]
    · simp only [PFun.insts, hinv.decls f hf, List.flatMap_nil] at hi
      cases hi

/-- A case of `C98_partial`: two indirect calls of one type share a function, inline assembly gets another one. -/
def absMod : PMod :=
  [{ name := str! "f", sig := ⟨str! "i32", [str! "ptr"], false⟩
     blocks := [⟨[.call 0 (.ptr (.arg 0)) ⟨str! "i32", [str! "i32"], false⟩ [.const 1],
       .call 1 (.ptr (.arg 0)) ⟨str! "i32", [str! "i32"], false⟩ [.inst 0],
       .call 2 (.asm (str! "mov $0, $1") (str! "r,r")) ⟨str! "void", [str! "i32"], false⟩ [.inst 1]],
       .ret (some (.inst 0))⟩] }]

instance (t : Str) : Decidable (PlainText t) := by unfold PlainText; infer_instance

theorem plainSig_of {s : PSig} (h : PlainText s.ret ∧ (∀ p ∈ s.params, PlainText p ∧ p ≠ []) ∧ s.vararg = false) :
    PlainSig s := ⟨h.1, h.2.1, h.2.2⟩

example : ModOk absMod ∧ AbsReady absMod ∧ (∀ f ∈ absMod, ∀ i ∈ f.insts, PlainInst i) ∧
    (generateAbstractions (fun _ => true) absMod).names =
      [str! "f", str! "simpll__indirect.0", str! "simpll__inlineasm.1"] := by
  refine ⟨⟨by decide +kernel, ?_⟩, ⟨by decide +kernel, ?_⟩, ?_, by decide +kernel⟩
  · intro f hf i c sg as hi
    simp only [absMod, List.mem_singleton] at hf
    subst hf
    simp [PFun.insts] at hi
  · intro f hf k c s as hi
    simp only [absMod, List.mem_singleton] at hf
    subst hf
    simp only [PFun.insts, List.flatMap_cons, List.flatMap_nil, List.append_nil, List.mem_cons, List.not_mem_nil, or_false,
      PInst.call.injEq] at hi
    rcases hi with ⟨_, _, rfl, rfl⟩ | ⟨_, _, rfl, rfl⟩ | ⟨_, _, rfl, rfl⟩ <;> decide +kernel
  · intro f hf i hi
    simp only [absMod, List.mem_singleton] at hf
    subst hf
    simp only [PFun.insts, List.flatMap_cons, List.flatMap_nil, List.append_nil, List.mem_cons, List.not_mem_nil, or_false] at hi
    rcases hi with rfl | rfl | rfl
    · exact plainSig_of (by decide +kernel)
    · exact plainSig_of (by decide +kernel)
    · exact ⟨plainSig_of (by decide +kernel), by decide +kernel⟩

end DK
