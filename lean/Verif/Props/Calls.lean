import Verif.Model.Calls
import Verif.Spec.Text

/-!
C104 to C106: comparison of calls.
-/

set_option autoImplicit false

namespace DK

namespace Spec

/-- What is passed to a function at run time. -/
inductive CVal (V : Type) where
  | int (bits val : Nat)
  | null
  | other (v : V)
  | fn (name : Str)

/-- The value of an operand, given the values of variables. -/
def opVal {V : Type} (v : Nat → V) : COp → CVal V
  | .const w n => .int w n
  | .null => .null
  | .ref i => .other (v i)
  | .fn f => .fn f

/-- The values of both programs at the calls: values with equal serial numbers are equal, and every value that is
passed has a serial number. -/
structure Related {V : Type} (mL mR : Nat → Option Nat) (vL vR : Nat → V) (l r : CCall) : Prop where
  same : ∀ i j n, mL i = some n → mR j = some n → vL i = vR j
  left : ∀ i, COp.ref i ∈ l.args → (mL i).isSome
  right : ∀ i, COp.ref i ∈ r.args → (mR i).isSome

/-- The call is written in the source with these arguments. -/
def WrittenIn (c : CCall) (ws : List Str) : Prop :=
  ∃ line pre post, c.lines = [line] ∧ line = pre ++ c.callee ++ '(' :: (joinChar ',' ws ++ ')' :: post)

/-- Macros that stand for a place in the source or the time of compilation. -/
def PlaceMacro (s : Str) : Prop :=
  s = str! "__COUNTER__" ∨ s = str! "__FILE__" ∨ s = str! "__LINE__" ∨ s = str! "__DATE__" ∨ s = str! "__TIME__"

/-- Two arguments are both the size of the structure of some name, in the two programs. -/
def SizesOfStruct (structL structR : Str → Option Nat) (a b : COp) : Prop :=
  ∃ n v w bv bw, n ≠ [] ∧ structL n = some v ∧ structR n = some w ∧ a = .const bv v ∧ b = .const bw w

/-- The maps from sizes to names are right. -/
def SizesRight (E : CEnv) (structL structR : Str → Option Nat) : Prop :=
  (∀ n v, n ∈ E.sizesL v ↔ structL n = some v) ∧ (∀ n v, n ∈ E.sizesR v ↔ structR n = some v) ∧
    structL [] = none ∧ structR [] = none

end Spec
open Spec

/-- C104: calls that are found equal call the same function, and each argument has the same value, or is written as
the same macro for a place, or is the size of the same structure. -/
def C104_statement : Prop :=
  ∀ (V : Type) (mL mR : Nat → Option Nat) (vL vR : Nat → V) (E : CEnv) (l r : CCall) (wl wr : List Str)
    (structL structR : Str → Option Nat), E.cmpV = snCmp mL mR → Related mL mR vL vR l r →
    E.structAlignment = false → E.controlFlowOnly = false → SizesRight E structL structR →
    WrittenIn l wl → WrittenIn r wr → wl.length = l.args.length → wr.length = r.args.length →
    cmpCall E l r = true →
    l.callee = r.callee ∧ l.args.length = r.args.length ∧ ∀ (i : Nat) a b, l.args[i]? = some a → r.args[i]? = some b →
      opVal vL a = opVal vR b ∨ (∃ m, PlaceMacro m ∧ wl[i]? = some m ∧ wr[i]? = some m) ∨
        SizesOfStruct structL structR a b

/-- A call of `name` in a line, without structures. -/
def plainCall (name line : Str) (args : List COp) (vars : Str → Option DITy) : CCall :=
  { callee := name, memset := false, shape := 0, args := args, tys := args.map (fun _ => 0), lines := [line],
    asmArgs := [], info := ([], 0), vars := vars }

/-- All patterns are off and no structures are known. -/
def plainEnv : CEnv :=
  { cmpV := snCmp (fun _ => none) (fun _ => none), structAlignment := false, controlFlowOnly := false,
    sizesL := fun _ => [], sizesR := fun _ => [] }

theorem plain_sizes : SizesRight plainEnv (fun _ => none) (fun _ => none) := by simp [SizesRight, plainEnv]

theorem plain_related {f g s t : Str} {as bs : List COp} {vl vr : Str → Option DITy}
    (ha : ∀ i, COp.ref i ∉ as) (hb : ∀ i, COp.ref i ∉ bs) :
    Related (V := Nat) (fun _ => none) (fun _ => none) id id (plainCall f s as vl) (plainCall g t bs vr) :=
  ⟨by simp, fun i h => absurd h (ha i), fun i h => absurd h (hb i)⟩

/-- C104 fails: once an argument is accepted because of the source, the others are not compared: `f(__LINE__,1)`
and `f(__LINE__,2)` are found equal. -/
theorem C104_fails : ¬ C104_statement := by
  intro h
  have := (h Nat _ _ id id plainEnv
    (plainCall (str! "f") (str! "f(__LINE__,1)") [.const 32 10, .const 32 1] (fun _ => none))
    (plainCall (str! "f") (str! "f(__LINE__,2)") [.const 32 11, .const 32 2] (fun _ => none))
    [str! "__LINE__", str! "1"] [str! "__LINE__", str! "2"] _ _ rfl (plain_related (by simp) (by simp)) rfl rfl plain_sizes
    ⟨_, [], [], rfl, by decide +kernel⟩ ⟨_, [], [], rfl, by decide +kernel⟩ rfl rfl (by decide +kernel)).2.2 1 _ _ rfl rfl
  rcases this with h | ⟨m, hm, h1, _⟩ | ⟨_, _, _, _, _, _, h, _⟩
  · simp [opVal] at h
  · simp at h1
    subst h1
    exact absurd hm (by unfold PlaceMacro; decide)
  · cases h

/-- C104 fails: the callee is not compared either, and its name is searched in the second line as part of another name:
`warn(__LINE__)` and `dev_warn(__LINE__)` are found equal. -/
theorem C104_fails_callee : ¬ C104_statement := by
  intro h
  have := (h Nat _ _ id id plainEnv
    (plainCall (str! "warn") (str! "warn(__LINE__)") [.const 32 10] (fun _ => none))
    (plainCall (str! "dev_warn") (str! "dev_warn(__LINE__)") [.const 32 11] (fun _ => none))
    [str! "__LINE__"] [str! "__LINE__"] _ _ rfl (plain_related (by simp) (by simp)) rfl rfl plain_sizes
    ⟨_, [], [], rfl, by decide +kernel⟩ ⟨_, [], [], rfl, by decide +kernel⟩ rfl rfl (by decide +kernel)).1
  exact absurd this (by decide)

/-- C104 fails: types without a name are found equal: `f(sizeof(buf))` with `char buf[10]` and `char buf[20]`. -/
theorem C104_fails_array : ¬ C104_statement := by
  intro h
  have := (h Nat _ _ id id plainEnv
    (plainCall (str! "f") (str! "f(sizeof(buf))") [.const 64 10] (fun _ => some (.composite [] 10)))
    (plainCall (str! "f") (str! "f(sizeof(buf))") [.const 64 20] (fun _ => some (.composite [] 20)))
    [str! "sizeof(buf)"] [str! "sizeof(buf)"] _ _ rfl (plain_related (by simp) (by simp)) rfl rfl plain_sizes
    ⟨_, [], [], rfl, by decide +kernel⟩ ⟨_, [], [], rfl, by decide +kernel⟩ rfl rfl (by decide +kernel)).2.2 0 _ _ rfl rfl
  rcases this with h | ⟨m, hm, h1, _⟩ | ⟨_, _, _, _, _, _, h, _⟩
  · simp [opVal] at h
  · simp at h1
    subst h1
    exact absurd hm (by unfold PlaceMacro; decide)
  · cases h

variable {V : Type} {mL mR : Nat → Option Nat} {vL vR : Nat → V} {E : CEnv} {l r : CCall}

/-- Operands that are found equal have the same value. -/
theorem snCmp_sound (h : Related mL mR vL vR l r) {a b : COp} (ha : a ∈ l.operands) (hb : b ∈ r.operands)
    (hc : snCmp mL mR a b = true) : opVal vL a = opVal vR b := by
  cases a with
  | const w v =>
    cases b with
    | const w' v' => simp [snCmp] at hc; simp [opVal, hc]
    | _ => simp [snCmp] at hc
  | null =>
    cases b with
    | null => rfl
    | _ => simp [snCmp] at hc
  | fn f =>
    cases b with
    | fn g => simp [snCmp] at hc; simp [opVal, hc]
    | _ => simp [snCmp] at hc
  | ref i =>
    cases b with
    | ref j =>
      have h1 := h.left i (by simpa [CCall.operands] using ha)
      have h2 := h.right j (by simpa [CCall.operands] using hb)
      obtain ⟨n, hn⟩ := Option.isSome_iff_exists.1 h1
      obtain ⟨k, hk⟩ := Option.isSome_iff_exists.1 h2
      simp [snCmp, hn, hk] at hc
      subst hc
      simp [opVal, h.same i j n hn hk]
    | _ => simp [snCmp] at hc

/-- The operands up to the first that is accepted because of the source are found equal. -/
theorem operandsLoop_sound {l r : CCall} : ∀ (as bs : List COp) (i : Nat), as.length = bs.length →
    cmpOperandsLoop E l r i as bs = true →
    (∀ (k : Nat) a b, as[k]? = some a → bs[k]? = some b → E.cmpV a b = true) ∨
    ∃ (k : Nat), ∃ a b, as[k]? = some a ∧ bs[k]? = some b ∧ E.cmpV a b = false ∧ cmpUsingSource E l r (i + k) a b = true ∧
      ∀ k' < k, ∀ a b, as[k']? = some a → bs[k']? = some b → E.cmpV a b = true
  | [], _, _, _, _ => Or.inl (by simp)
  | a :: as, [], _, hlen, _ => by simp at hlen
  | a :: as, b :: bs, i, hlen, h => by
    rw [cmpOperandsLoop] at h
    by_cases hab : E.cmpV a b = true
    · rw [if_pos hab] at h
      rcases operandsLoop_sound as bs (i + 1) (by simpa using hlen) h with h1 | ⟨k, x, y, h1, h2, h3, h4, h5⟩
      · left
        intro k x y hx hy
        cases k with
        | zero => simp at hx hy; subst hx; subst hy; exact hab
        | succ k => exact h1 k x y (by simpa using hx) (by simpa using hy)
      · refine Or.inr ⟨k + 1, x, y, by simpa using h1, by simpa using h2, h3, by rw [show i + (k + 1) = i + 1 + k by omega]; exact h4, ?_⟩
        intro k' hk' x' y' hx hy
        cases k' with
        | zero => simp at hx hy; subst hx; subst hy; exact hab
        | succ k' => exact h5 k' (by omega) x' y' (by simpa using hx) (by simpa using hy)
    · rw [if_neg hab] at h
      exact Or.inr ⟨0, a, b, rfl, rfl, by simpa using hab, h, by omega⟩

/-- What is shown of C104: without arguments that are written as macros for places or begin with `sizeof` (as found in
the source of the first call), calls that are found equal call the same function with the same values. Missing: all calls with such
arguments; for these see `C104_first_partial`. -/
theorem C104_plain_partial (hE : E.cmpV = snCmp mL mR) (hrel : Related mL mR vL vR l r)
    (hsa : E.structAlignment = false) (hcf : E.controlFlowOnly = false)
    (hsrc : ∀ s ∈ sourceArgs l l.callee, s ∉ ignoredMacros ∧ startsWith s sizeofWord = false)
    (h : cmpCall E l r = true) :
    l.callee = r.callee ∧ l.args.map (opVal vL) = r.args.map (opVal vR) := by
  unfold cmpCall at h
  simp only [hsa, hcf, Bool.and_false, Bool.false_and, Bool.false_eq_true, if_false, Bool.and_eq_true] at h
  obtain ⟨hf, h⟩ := h
  have hlen : l.args.length = r.args.length := by
    simp [sameForm] at hf; exact hf.1.2
  have hol : l.operands.length = r.operands.length := by simp [CCall.operands, hlen]
  have hall : ∀ (k : Nat) a b, l.operands[k]? = some a → r.operands[k]? = some b → E.cmpV a b = true := by
    rcases operandsLoop_sound _ _ 0 hol h with h | ⟨k, a, b, h1, h2, h3, h4, _⟩
    · exact h
    · exfalso
      unfold cmpUsingSource at h4
      split at h4
      · rename_i sl sr hl hr
        obtain ⟨n1, n2⟩ := hsrc sl (List.mem_of_getElem? hl)
        simp only [n1, decide_false, Bool.false_and, Bool.false_or] at h4
        split at h4
        · simp [n2] at h4
        · cases h4
      · cases h4
  have hval : ∀ (k : Nat) a b, l.operands[k]? = some a → r.operands[k]? = some b → opVal vL a = opVal vR b := by
    intro k a b ha hb
    refine snCmp_sound hrel (List.mem_of_getElem? ha) (List.mem_of_getElem? hb) ?_
    rw [← hE]; exact hall k a b ha hb
  constructor
  · have := hval l.args.length (.fn l.callee) (.fn r.callee) (by simp [CCall.operands]) (by simp [CCall.operands, hlen])
    simpa [opVal] using this
  · apply List.ext_getElem?
    intro k
    rw [List.getElem?_map, List.getElem?_map]
    by_cases hk : k < l.args.length
    · have hk' : k < r.args.length := by omega
      have h1 : l.args[k]? = some l.args[k] := List.getElem?_eq_getElem hk
      have h2 : r.args[k]? = some r.args[k] := List.getElem?_eq_getElem hk'
      rw [h1, h2]
      simp only [Option.map_some, Option.some.injEq]
      refine hval k _ _ ?_ ?_
      · simp [CCall.operands, List.getElem?_append_left hk]
      · simp [CCall.operands, List.getElem?_append_left hk']
    · rw [List.getElem?_eq_none (by omega), List.getElem?_eq_none (by omega)]
      rfl

/-- What is shown of C104 in general: the callees and all arguments have the same values, or the arguments
before some argument have, and this one is written in the same way as a macro for a place, or both are constants
written with `sizeof` that are sizes of the same structures or of expressions whose types have the same name. Missing:
the callee and the arguments after this one, that the source was found correctly, and types without name. -/
theorem C104_first_partial {structL structR : Str → Option Nat} (hE : E.cmpV = snCmp mL mR)
    (hrel : Related mL mR vL vR l r) (hsa : E.structAlignment = false) (hcf : E.controlFlowOnly = false)
    (hsz : SizesRight E structL structR) (h : cmpCall E l r = true) :
    (∀ (k : Nat) a b, l.operands[k]? = some a → r.operands[k]? = some b → opVal vL a = opVal vR b) ∨
    ∃ (k : Nat), ∃ a b, l.operands[k]? = some a ∧ r.operands[k]? = some b ∧
      (∀ k' < k, ∀ a b, l.operands[k']? = some a → r.operands[k']? = some b → opVal vL a = opVal vR b) ∧
      ((∃ m, PlaceMacro m ∧ (sourceArgs l l.callee)[k]? = some m) ∨ SizesOfStruct structL structR a b ∨
        ∃ sl sr tl tr, startsWith sl sizeofWord = true ∧ startsWith sr sizeofWord = true ∧
          (sourceArgs l l.callee)[k]? = some sl ∧
          sourceType l.vars (sizeofText sl) = some tl ∧ sourceType r.vars (sizeofText sr) = some tr ∧
          tl.name = tr.name) := by
  unfold cmpCall at h
  simp only [hsa, hcf, Bool.and_false, Bool.false_and, Bool.false_eq_true, if_false, Bool.and_eq_true] at h
  obtain ⟨hf, h⟩ := h
  have hlen : l.args.length = r.args.length := by
    simp [sameForm] at hf; exact hf.1.2
  have hol : l.operands.length = r.operands.length := by simp [CCall.operands, hlen]
  have hval : ∀ (k : Nat) a b, l.operands[k]? = some a → r.operands[k]? = some b → E.cmpV a b = true →
      opVal vL a = opVal vR b := by
    intro k a b ha hb hc
    refine snCmp_sound hrel (List.mem_of_getElem? ha) (List.mem_of_getElem? hb) ?_
    rw [← hE]; exact hc
  rcases operandsLoop_sound _ _ 0 hol h with h | ⟨k, a, b, h1, h2, h3, h4, h5⟩
  · exact Or.inl fun k a b ha hb => hval k a b ha hb (h k a b ha hb)
  · refine Or.inr ⟨k, a, b, h1, h2, fun k' hk' a b ha hb => hval k' a b ha hb (h5 k' hk' a b ha hb), ?_⟩
    rw [Nat.zero_add] at h4
    unfold cmpUsingSource at h4
    split at h4
    · rename_i sl sr hl hr
      rw [Bool.or_eq_true] at h4
      rcases h4 with h4 | h4
      · simp only [Bool.and_eq_true, decide_eq_true_eq] at h4
        refine Or.inl ⟨sl, ?_, hl⟩
        simpa [PlaceMacro, ignoredMacros] using h4.1.1
      · split at h4
        · rename_i bv v bw w
          simp only [Bool.and_eq_true] at h4
          obtain ⟨⟨s1, s2⟩, h4⟩ := h4
          unfold cmpSizeofs at h4
          rw [Bool.or_eq_true] at h4
          rcases h4 with h4 | h4
          · simp only [Bool.and_eq_true, decide_eq_true_eq] at h4
            obtain ⟨⟨n1, _⟩, n3⟩ := h4
            obtain ⟨n, hn⟩ := List.exists_mem_of_ne_nil _ n1
            have hl' := (hsz.1 n v).1 hn
            have hr' := (hsz.2.1 n w).1 (n3 ▸ hn)
            refine Or.inr (Or.inl ⟨n, v, w, bv, bw, ?_, hl', hr', rfl, rfl⟩)
            rintro rfl
            rw [hsz.2.2.1] at hl'; cases hl'
          · split at h4
            · rename_i tl tr e1 e2
              exact Or.inr (Or.inr ⟨sl, sr, tl, tr, s1, s2, hl, e1, e2, by simpa using h4⟩)
            · cases h4
        · cases h4
    · cases h4

example : ∃ l r : CCall, ∃ E : CEnv, cmpCall E l r = true ∧ l.args.length = 2 ∧ r.callee = str! "f" ∧
    l.args.map (opVal (id : Nat → Nat)) = r.args.map (opVal (fun _ => 7)) := by
  let l := plainCall (str! "f") (str! "f(x, 1)") [.ref 7, .const 32 1] (fun _ => none)
  let r := plainCall (str! "f") (str! "f(y, 1)") [.ref 8, .const 32 1] (fun _ => none)
  let E : CEnv := { plainEnv with cmpV := snCmp (fun i => if i = 7 then some 0 else none) (fun i => if i = 8 then some 0 else none) }
  have hrel : Related (fun i => if i = 7 then some 0 else none) (fun i => if i = 8 then some 0 else none)
      (id : Nat → Nat) (fun _ => 7) l r :=
    ⟨by intro i j n; simp; intro h _ _ _; exact h, by simp [l, plainCall], by simp [r, plainCall]⟩
  refine ⟨l, r, E, by decide +kernel, rfl, rfl, ?_⟩
  exact (C104_plain_partial (E := E) rfl hrel rfl rfl (by decide +kernel) (by decide +kernel)).2

/-! ### C105 -/

namespace Spec

/-- What is known about the structure is right. -/
def InfoRight (structL structR : Str → Option Nat) (l r : CCall) : Prop :=
  (l.info.1 ≠ [] → structL l.info.1 = some l.info.2) ∧ (r.info.1 ≠ [] → structR r.info.1 = some r.info.2)

end Spec

/-- C105: calls of an allocation function or `memset` that are found equal without looking at the source have the same
values as arguments, except for sizes of the same structure. -/
def C105_statement : Prop :=
  ∀ (V : Type) (mL mR : Nat → Option Nat) (vL vR : Nat → V) (E : CEnv) (l r : CCall)
    (structL structR : Str → Option Nat), E.cmpV = snCmp mL mR → Related mL mR vL vR l r →
    E.controlFlowOnly = false → InfoRight structL structR l r → l.lines = [] → l.asmArgs = [] →
    l.args.length = r.args.length → (l.memset = true ∨ isAllocFun l.callee = true) →
    cmpCall E l r = true →
    l.callee = r.callee ∧ ∀ (i : Nat) a b, l.args[i]? = some a → r.args[i]? = some b →
      opVal vL a = opVal vR b ∨ SizesOfStruct structL structR a b

/-- C105 fails: the flags of an allocation are not compared: `kmalloc(8, 1)` and `kmalloc(8, 2)` are found equal. -/
theorem C105_fails : ¬ C105_statement := by
  intro h
  have := (h Nat (fun _ => none) (fun _ => none) id id { plainEnv with structAlignment := true }
    { plainCall (str! "kmalloc") [] [.const 64 8, .const 32 1] (fun _ => none) with lines := [] }
    { plainCall (str! "kmalloc") [] [.const 64 8, .const 32 2] (fun _ => none) with lines := [] }
    (fun _ => none) (fun _ => none) rfl ⟨by simp, by simp [plainCall], by simp [plainCall]⟩ rfl
    (by simp [InfoRight, plainCall]) rfl rfl rfl (by decide +kernel) (by decide +kernel)).2 1 _ _ rfl rfl
  rcases this with h | ⟨_, _, _, _, _, _, h, _⟩
  · simp [opVal] at h
  · cases h

theorem sameStruct_sound {structL structR : Str → Option Nat} (hinfo : InfoRight structL structR l r)
    {a b : COp} (h : sameStruct l r (some a) (some b) = true) : SizesOfStruct structL structR a b := by
  unfold sameStruct at h
  simp only [Bool.and_eq_true, decide_eq_true_eq] at h
  obtain ⟨⟨⟨⟨h1, h2⟩, h3⟩, h4⟩, h5⟩ := h
  cases a with
  | const bv v =>
    cases b with
    | const bw w =>
      simp only [isConstant, decide_eq_true_eq] at h4 h5
      refine ⟨l.info.1, v, w, bv, bw, h1, ?_, ?_, rfl, rfl⟩
      · rw [hinfo.1 h1, h4]
      · rw [h3, hinfo.2 h2, h5]
    | _ => simp [isConstant] at h5
  | _ => simp [isConstant] at h4

theorem memsetLoop_sound : ∀ (as bs : List COp) (i : Nat), cmpMemsetLoop E i as bs = true →
    ∀ (k : Nat) a b, as[k]? = some a → bs[k]? = some b → i + k ≠ 2 → E.cmpV a b = true
  | [], _, _, _, _, _, _, ha, _, _ => by simp at ha
  | x :: as, bs, i, h, k, a, b, ha, hb, hk => by
    rw [cmpMemsetLoop] at h
    cases k with
    | zero =>
      simp only [List.length_cons, Nat.zero_lt_succ, getElem?_pos, List.getElem_cons_zero, Option.some.injEq] at ha
      subst ha
      rw [Nat.add_zero] at hk
      rw [if_neg hk, Bool.and_eq_true, hb] at h
      exact h.1
    | succ k =>
      have hrec : cmpMemsetLoop E (i + 1) as (bs.drop 1) = true := by
        split at h
        · exact h
        · exact (Bool.and_eq_true _ _ ▸ h).2
      refine memsetLoop_sound as (bs.drop 1) (i + 1) hrec k a b (by simpa using ha) ?_ (by omega)
      rw [List.getElem?_drop, Nat.add_comm]
      exact hb

/-- Without source no argument is accepted because of it. -/
theorem noSource (h1 : l.lines = []) (h2 : l.asmArgs = []) (name : Str) : sourceArgs l name = [] := by
  unfold sourceArgs
  split
  · exact h2
  · rw [h1]; rfl

/-- What is shown of C105: `memset`. -/
theorem C105_memset_partial {structL structR : Str → Option Nat} (hE : E.cmpV = snCmp mL mR)
    (hrel : Related mL mR vL vR l r) (hcf : E.controlFlowOnly = false) (hinfo : InfoRight structL structR l r)
    (hl : l.lines = []) (ha : l.asmArgs = []) (hlen : l.args.length = r.args.length)
    (halloc : isAllocFun l.callee = false) (h : cmpCall E l r = true) :
    l.callee = r.callee ∧ ∀ (i : Nat) a b, l.args[i]? = some a → r.args[i]? = some b →
      opVal vL a = opVal vR b ∨ SizesOfStruct structL structR a b := by
  by_cases hm : (decide (l.callee = r.callee) && l.memset && r.memset && E.structAlignment && cmpMemset E l r) = true
  · simp only [Bool.and_eq_true, decide_eq_true_eq] at hm
    obtain ⟨⟨⟨⟨hc, _⟩, _⟩, _⟩, hm⟩ := hm
    refine ⟨hc, fun i a b hxa hxb => ?_⟩
    have hval : E.cmpV a b = true → opVal vL a = opVal vR b := by
      intro hv
      refine snCmp_sound hrel ?_ ?_ (hE ▸ hv)
      · exact List.mem_append_left _ (List.mem_of_getElem? hxa)
      · exact List.mem_append_left _ (List.mem_of_getElem? hxb)
    unfold cmpMemset at hm
    rw [Bool.and_eq_true, Bool.or_eq_true] at hm
    by_cases hi : i = 2
    · subst hi
      rw [hxa, hxb] at hm
      rcases hm.2 with h | h
      · exact Or.inl (hval h)
      · exact Or.inr (sameStruct_sound hinfo h)
    · exact Or.inl (hval (memsetLoop_sound _ _ 0 hm.1 i a b hxa hxb (by omega)))
  · unfold cmpCall at h
    rw [if_neg (by simp [halloc]), if_neg hm] at h
    simp only [hcf, Bool.and_false, Bool.false_and, Bool.false_eq_true, if_false] at h
    have h' : cmpCall { E with structAlignment := false } l r = true := by
      unfold cmpCall
      simp only [hcf, Bool.and_false, Bool.false_and, Bool.false_eq_true, if_false]
      rw [Bool.and_eq_true] at h ⊢
      refine ⟨h.1, ?_⟩
      have hno : ∀ (F : CEnv), ∀ (as bs : List COp) (i : Nat), F.cmpV = E.cmpV →
          cmpOperandsLoop F l r i as bs = cmpOperandsLoop E l r i as bs := by
        intro F as
        induction as with
        | nil => intro bs i _; simp [cmpOperandsLoop]
        | cons a as ih =>
          intro bs i hF
          cases bs with
          | nil => simp [cmpOperandsLoop]
          | cons b bs =>
            rw [cmpOperandsLoop, cmpOperandsLoop, hF, ih bs _ hF]
            split
            · rfl
            · simp [cmpUsingSource, noSource hl ha]
      exact (hno { E with structAlignment := false, controlFlowOnly := false } _ _ _ rfl).trans h.2
    obtain ⟨h1, h2⟩ := C104_plain_partial (E := { E with structAlignment := false }) hE hrel rfl hcf
      (by simp [noSource hl ha]) h'
    refine ⟨h1, fun i a b hxa hxb => Or.inl ?_⟩
    have := congrArg (fun x => x[i]?) h2
    simpa [List.getElem?_map, hxa, hxb] using this

/-- What is shown of C105: sizes of allocations. Missing: the other arguments, which are not compared. -/
theorem C105_alloc_partial {structL structR : Str → Option Nat} (hE : E.cmpV = snCmp mL mR)
    (hrel : Related mL mR vL vR l r) (hinfo : InfoRight structL structR l r) {a b : COp}
    (hxa : l.args[0]? = some a) (hxb : r.args[0]? = some b) (h : cmpAllocs E l r = true) :
    opVal vL a = opVal vR b ∨ SizesOfStruct structL structR a b := by
  have ha : l.operands[0]? = some a := by
    unfold CCall.operands
    cases hl : l.args with
    | nil => rw [hl] at hxa; simp at hxa
    | cons x xs => rw [hl] at hxa; simpa using hxa
  have hb : r.operands[0]? = some b := by
    unfold CCall.operands
    cases hr : r.args with
    | nil => rw [hr] at hxb; simp at hxb
    | cons x xs => rw [hr] at hxb; simpa using hxb
  unfold cmpAllocs at h
  rw [ha, hb, Bool.or_eq_true] at h
  rcases h with h | h
  · exact Or.inl (snCmp_sound hrel (List.mem_of_getElem? ha) (List.mem_of_getElem? hb) (hE ▸ h))
  · exact Or.inr (sameStruct_sound hinfo h)

/-- `memset(p, 0, 8)` and `memset(p, 0, 16)` for a structure `s` of 8 and of 16 bytes. -/
def memsetCall (size : Nat) : CCall :=
  { plainCall (str! "llvm.memset.p0.i64") [] [.ref 0, .const 8 0, .const 64 size, .const 1 0] (fun _ => none) with
    lines := [], memset := true, info := (str! "s", size) }

example : cmpCall { plainEnv with structAlignment := true, cmpV := snCmp (fun _ => some 0) (fun _ => some 0) }
    (memsetCall 8) (memsetCall 16) = true ∧
    SizesOfStruct (fun _ => some 8) (fun _ => some 16) (.const 64 8) (.const 64 16) := by
  have h : cmpCall { plainEnv with structAlignment := true, cmpV := snCmp (fun _ => some 0) (fun _ => some 0) }
    (memsetCall 8) (memsetCall 16) = true := by decide +kernel
  refine ⟨h, ?_⟩
  have hinfo : InfoRight (fun _ => some 8) (fun _ => some 16) (memsetCall 8) (memsetCall 16) := ⟨fun _ => rfl, fun _ => rfl⟩
  have hrel : Related (fun _ => some 0) (fun _ => some 0) (fun _ => 3) (fun _ => 3) (memsetCall 8) (memsetCall 16) :=
    ⟨fun _ _ _ _ _ => rfl, fun _ _ => rfl, fun _ _ => rfl⟩
  have := (C105_memset_partial (V := Nat) (vL := fun _ => 3) (vR := fun _ => 3) (structL := fun _ => some 8) (structR := fun _ => some 16)
    rfl hrel rfl hinfo rfl rfl rfl (by decide +kernel) h).2 2 _ _ rfl rfl
  rcases this with h | h
  · simp [opVal] at h
  · exact h

/-! ### C106 -/

/-- C106: calls of which one has an additional argument are only found equal if they call the same function, the common
arguments have the same values and the additional one is zero or null. -/
def C106_statement : Prop :=
  ∀ (V : Type) (mL mR : Nat → Option Nat) (vL vR : Nat → V) (E : CEnv) (l r : CCall),
    E.cmpV = snCmp mL mR → Related mL mR vL vR l r → E.structAlignment = false →
    l.tys.length = l.args.length → r.tys.length = r.args.length →
    l.args.length ≠ r.args.length → cmpCall E l r = true →
    l.callee = r.callee ∧
    (∀ (i : Nat) a b, l.args[i]? = some a → r.args[i]? = some b → opVal vL a = opVal vR b) ∧
    (∀ (i : Nat) a, l.args[i]? = some a → r.args.length ≤ i → a.isNull = true) ∧
    (∀ (i : Nat) b, r.args[i]? = some b → l.args.length ≤ i → b.isNull = true)

/-- C106 fails: if the second call has the additional argument, values of the second function are looked up as values
of the first one, and all values that are not known are found equal: `f(x)` and `f(y, NULL)`. -/
theorem C106_fails : ¬ C106_statement := by
  intro h
  have := (h Nat (fun i => if i = 0 then some 0 else if i = 1 then some 1 else none)
    (fun i => if i = 2 then some 0 else if i = 3 then some 1 else none) (fun i => i) (fun i => i - 2)
    { plainEnv with controlFlowOnly := true,
                    cmpV := snCmp (fun i => if i = 0 then some 0 else if i = 1 then some 1 else none)
                      (fun i => if i = 2 then some 0 else if i = 3 then some 1 else none) }
    (plainCall (str! "f") [] [.ref 0] (fun _ => none))
    (plainCall (str! "f") [] [.ref 3, .null] (fun _ => none))
    rfl ⟨by intro i j n; split <;> split <;> (try split) <;> (try split) <;> simp <;> omega,
         by simp [plainCall], by simp [plainCall]⟩
    rfl rfl rfl (by decide) (by decide +kernel)).2.1 0 _ _ rfl rfl
  simp [opVal] at this

theorem common_sound : ∀ (as bs : List (COp × Nat)), cmpCommon E as bs = true →
    ∀ (i : Nat) a b, as[i]? = some a → bs[i]? = some b → E.cmpV a.1 b.1 = true
  | [], _, _, _, _, _, h, _ => by simp at h
  | _ :: _, [], _, _, _, _, _, h => by simp at h
  | x :: as, y :: bs, h, i, a, b, ha, hb => by
    rw [cmpCommon, Bool.and_eq_true, Bool.and_eq_true] at h
    cases i with
    | zero => simp at ha hb; subst ha; subst hb; exact h.1.2
    | succ i => exact common_sound as bs h.2 i a b (by simpa using ha) (by simpa using hb)

/-- What is shown of C106: the first call has the additional argument. Missing: the second call has it. -/
theorem C106_partial (hE : E.cmpV = snCmp mL mR) (hrel : Related mL mR vL vR l r)
    (hsa : E.structAlignment = false) (htl : l.tys.length = l.args.length) (htr : r.tys.length = r.args.length)
    (hlt : r.args.length < l.args.length) (h : cmpCall E l r = true) :
    l.callee = r.callee ∧ l.args.length = r.args.length + 1 ∧
    (∀ (i : Nat) a b, l.args[i]? = some a → r.args[i]? = some b → opVal vL a = opVal vR b) ∧
    ∃ o, l.args.getLast? = some o ∧ o.isNull = true := by
  have hnf : sameForm l r = false := by
    simp [sameForm]; intro _ h; omega
  unfold cmpCall at h
  simp only [hsa, hnf, Bool.and_false, Bool.false_and, Bool.false_eq_true, if_false, Bool.not_false, Bool.and_true] at h
  split at h
  · rename_i hc
    simp only [Bool.and_eq_true, decide_eq_true_eq] at hc
    obtain ⟨⟨hc, _⟩, hl⟩ := hc
    unfold cmpExtraArg at h
    rw [Bool.and_eq_true, Bool.and_eq_true] at h
    refine ⟨hc, hl, ?_, ?_⟩
    · intro i a b ha hb
      obtain ⟨hi, rfl⟩ := List.getElem?_eq_some_iff.1 ha
      obtain ⟨hj, rfl⟩ := List.getElem?_eq_some_iff.1 hb
      have h1 : (l.args.zip l.tys)[i]? = some (l.args[i], l.tys[i]) := by
        rw [List.getElem?_zip_eq_some]; simp
      have h2 : (r.args.zip r.tys)[i]? = some (r.args[i], r.tys[i]) := by
        rw [List.getElem?_zip_eq_some]; simp
      exact snCmp_sound hrel (List.mem_append_left _ (List.getElem_mem _)) (List.mem_append_left _ (List.getElem_mem _))
        (hE ▸ common_sound _ _ h.2 i _ _ h1 h2)
    · cases hg : l.args.getLast? with
      | none => rw [hg] at h; simp at h
      | some o => rw [hg] at h; exact ⟨o, rfl, h.1.1⟩
  · split at h
    · rename_i hc
      simp only [Bool.and_eq_true, decide_eq_true_eq] at hc
      omega
    · cases h

example : cmpCall { plainEnv with controlFlowOnly := true, cmpV := snCmp (fun _ => some 0) (fun _ => some 0) }
    (plainCall (str! "f") [] [.ref 3, .const 32 5, .null] (fun _ => none))
    (plainCall (str! "f") [] [.ref 0, .const 32 5] (fun _ => none)) = true := by decide +kernel

end DK
