import Verif.Spec.FieldAccess
import Mathlib.Data.List.Basic
import Mathlib.Data.List.Nodup
import Mathlib.Data.List.Forall2
import Mathlib.Data.List.GetD
import Mathlib.Tactic

/-! Lemmas for C124 and C125. -/

set_option autoImplicit false

namespace DK
open Spec

/-! ### Numbers as positions in a list -/

/-- A list with a value at the end, if it is not there already. -/
def addKey (K : List FVal) (v : FVal) : List FVal := if v ∈ K then K else K ++ [v]

/-- The state in which the numbers are positions in two lists and nothing is replaced. -/
def mkSt (KL KR : List FVal) : FSt := ⟨KL.zipIdx, KR.zipIdx, [], []⟩

theorem lookup_zipIdx_fval (K : List FVal) (v : FVal) (s : Nat) :
    (K.zipIdx s).lookup v = if v ∈ K then some (s + K.idxOf v) else none := by
  induction K generalizing s with
  | nil => simp
  | cons k K ih =>
    rw [List.zipIdx_cons, List.lookup_cons]
    by_cases h : v = k
    · subst h; simp
    · have h' : (v == k) = false := by simp [h]
      rw [h', ih]
      have h2 : ¬ k = v := fun e => h e.symm
      simp only [List.mem_cons, h, false_or, List.idxOf_cons, h2, beq_iff_eq]
      split
      · have h3 : (k == v) = false := by simp [h2]
        rw [h3]; simp; omega
      · rfl

theorem giveNumber_zipIdx (K : List FVal) (v : FVal) :
    giveNumber K.zipIdx v = ((addKey K v).zipIdx, K.idxOf v) := by
  unfold giveNumber addKey
  rw [lookup_zipIdx_fval]
  by_cases h : v ∈ K
  · simp [h]
  · simp [h, List.zipIdx_append, List.idxOf_eq_length h]

/-- No casts and no address computations that add nothing. -/
def NoSkip (prog : List FInst) : Prop :=
  ∀ x ∈ prog, (∀ v, x ≠ .cast v) ∧ ∀ p o, x = .gep p o → 0 < o

theorem replaceOnce_none {prog : List FInst} (h : NoSkip prog) (repl : List Nat) (m : SnMap)
    (v : FVal) : replaceOnce prog repl m v = none := by
  cases v with
  | arg n => rfl
  | inst i =>
    unfold replaceOnce
    cases hx : prog[i]? with
    | none => simp [hx]
    | some x =>
      have := h _ (List.mem_of_getElem? hx)
      cases x with
      | cast w => exact absurd rfl (this.1 w)
      | op c as => simp [hx]
      | gep w o =>
        cases o with
        | zero => exact absurd (this.2 w 0 rfl) (by omega)
        | succ o => simp [hx]

theorem replaceAll_self {prog : List FInst} (h : NoSkip prog) (repl : List Nat) (m : SnMap)
    (n : Nat) (v : FVal) : replaceAll prog repl m n v = v := by
  cases n with
  | zero => rfl
  | succ n => simp [replaceAll, replaceOnce_none h]

theorem cmpFVal_eq {L R : List FInst} (hL : NoSkip L) (hR : NoSkip R) (KL KR : List FVal)
    (l r : FVal) : cmpFVal L R (mkSt KL KR) l r =
      (KL.idxOf l == KR.idxOf r, mkSt (addKey KL l) (addKey KR r)) := by
  unfold cmpFVal mkSt
  simp only [replaceAll_self hL, replaceAll_self hR, giveNumber_zipIdx]

theorem addKey_mem {K : List FVal} {v : FVal} (h : v ∈ K) : addKey K v = K := by
  simp [addKey, h]

theorem addKey_new {K : List FVal} {v : FVal} (h : v ∉ K) : addKey K v = K ++ [v] := by
  simp [addKey, h]

theorem cmpFVals_eq {L R : List FInst} (hL : NoSkip L) (hR : NoSkip R) {KL KR : List FVal}
    (ls rs : List FVal) (hl : ∀ v ∈ ls, v ∈ KL) (hr : ∀ v ∈ rs, v ∈ KR)
    (hlen : ls.length = rs.length) : cmpFVals L R (mkSt KL KR) ls rs =
      (ls.map KL.idxOf == rs.map KR.idxOf, mkSt KL KR) := by
  induction ls generalizing rs with
  | nil => cases rs with
    | nil => rfl
    | cons r rs => simp at hlen
  | cons l ls ih => cases rs with
    | nil => simp at hlen
    | cons r rs =>
      unfold cmpFVals
      rw [cmpFVal_eq hL hR, addKey_mem (hl l (by simp)), addKey_mem (hr r (by simp))]
      dsimp only
      by_cases h : KL.idxOf l = KR.idxOf r
      · simp only [h, beq_self_eq_true, if_true, List.map_cons]
        rw [ih rs (fun v hv => hl v (by simp [hv])) (fun v hv => hr v (by simp [hv]))
          (by simpa using hlen)]
        simp
      · have : (KL.idxOf l == KR.idxOf r) = false := by simp [h]
        simp [h]

/-! ### Accesses -/

/-- The pointer after the steps of an access. -/
def lastPtr (p : FVal) (i : Nat) (os : List Nat) : FVal :=
  if os = [] then p else .inst (i + os.length - 1)

theorem accessGo_eq (ls : List FInst) (i : Nat) (p : FVal) (acc : Nat)
    (hs : ∀ x ∈ ls, (∀ v, x ≠ .cast v) ∧ ∀ p o, x = .gep p o → throughInt o = o) :
    ∃ os rest, ls = asteps p i os ++ rest ∧
      (∀ o rest', rest ≠ .gep (lastPtr p i os) o :: rest') ∧
      accessGo ls i p acc =
        (os.foldl (fun a o => (a + o) % 2 ^ 64) acc, i + os.length, lastPtr p i os, rest) := by
  induction ls generalizing i p acc with
  | nil => exact ⟨[], [], rfl, by simp, rfl⟩
  | cons x ls ih =>
    cases x with
    | cast v => exact absurd rfl ((hs _ (List.mem_cons_self ..)).1 v)
    | op c as => exact ⟨[], _, rfl, by simp, rfl⟩
    | gep q o =>
      by_cases hq : q = p
      · subst hq
        obtain ⟨os, rest, h1, h2, h3⟩ := ih (i + 1) (.inst i) ((acc + throughInt o) % 2 ^ 64)
          (fun x hx => hs x (by simp [hx]))
        have ho : throughInt o = o := (hs _ (List.mem_cons_self ..)).2 q o rfl
        have hlp : lastPtr (.inst i) (i + 1) os = lastPtr q i (o :: os) := by
          unfold lastPtr
          by_cases he : os = []
          · subst he; simp
          · simp only [he, if_false, List.length_cons]
            simp <;> omega
        refine ⟨o :: os, rest, by rw [asteps, h1]; rfl, ?_, ?_⟩
        · rw [← hlp]; exact h2
        · unfold accessGo
          rw [if_pos rfl, h3, hlp, ho]
          simp only [List.foldl_cons, List.length_cons]
          have : i + 1 + os.length = i + (os.length + 1) := by omega
          rw [this]
      · refine ⟨[], .gep q o :: ls, rfl, ?_, ?_⟩
        · intro o' rest' he
          simp only [lastPtr, if_true, List.cons.injEq, FInst.gep.injEq] at he
          exact hq he.1.1
        · simp [accessGo, hq, lastPtr]

theorem asteps_length (p : FVal) (i : Nat) (os : List Nat) : (asteps p i os).length = os.length := by
  induction os generalizing p i with
  | nil => rfl
  | cons o os ih => simp [asteps, ih]

/-- The values of the steps of an access. -/
def stepVals (v : Nat) : List Nat → List Nat
  | [] => []
  | o :: os => ((v + o) % 2 ^ 64) :: stepVals ((v + o) % 2 ^ 64) os

theorem stepVals_length (v : Nat) (os : List Nat) : (stepVals v os).length = os.length := by
  induction os generalizing v with
  | nil => rfl
  | cons o os ih => simp [stepVals, ih]

theorem frun_asteps (args : Nat → Nat) (world : FTrace → Nat) (p : FVal) (i : Nat)
    (os : List Nat) (rest : List FInst) (vals : List Nat) (tr : FTrace) (hi : vals.length = i) :
    frun args world (asteps p i os ++ rest) vals tr =
      frun args world rest (vals ++ stepVals (fval args vals p) os) tr := by
  induction os generalizing p i vals with
  | nil => simp [asteps, stepVals]
  | cons o os ih =>
    rw [asteps, List.cons_append, frun, ih (.inst i) (i + 1) _ (by simp [hi])]
    have : fval args (vals ++ [(fval args vals p + o) % 2 ^ 64]) (.inst i) =
        (fval args vals p + o) % 2 ^ 64 := by
      simp [fval, ← hi]
    rw [this, stepVals, List.append_assoc]
    rfl

theorem foldl_sum_mod (os : List Nat) (acc : Nat) :
    os.foldl (fun a o => (a + o) % 2 ^ 64) acc % 2 ^ 64 = (acc + os.sum) % 2 ^ 64 := by
  induction os generalizing acc with
  | nil => simp
  | cons o os ih =>
    rw [List.foldl_cons, ih, List.sum_cons]
    omega

theorem foldl_sum_lt (os : List Nat) (acc : Nat) (h : acc < 2 ^ 64) :
    os.foldl (fun a o => (a + o) % 2 ^ 64) acc = (acc + os.sum) % 2 ^ 64 := by
  rw [← foldl_sum_mod]
  induction os generalizing acc with
  | nil => simp; omega
  | cons o os ih => rw [List.foldl_cons]; exact ih _ (Nat.mod_lt _ (by norm_num))

theorem stepVals_last (v : Nat) (os : List Nat) (h : os ≠ []) :
    (stepVals v os).getD (os.length - 1) 0 = (v + os.sum) % 2 ^ 64 := by
  induction os generalizing v with
  | nil => exact absurd rfl h
  | cons o os ih =>
    cases os with
    | nil => simp [stepVals]
    | cons o' os =>
      have := ih ((v + o) % 2 ^ 64) (by simp)
      rw [stepVals]
      simp only [List.length_cons, Nat.add_sub_cancel, List.getD_cons_succ, List.sum_cons] at this ⊢
      rw [this]
      omega

/-! ### Numbers of steps -/

theorem moreSteps_asteps (i : Nat) (os : List Nat) (rest : List FInst) (hi : 0 < i)
    (hr : ∀ o rest', rest ≠ .gep (lastPtr (.inst (i - 1)) i os) o :: rest') :
    moreSteps (asteps (.inst (i - 1)) i os ++ rest) i = os.length := by
  induction os generalizing i with
  | nil =>
    simp only [asteps, List.nil_append, List.length_nil]
    cases rest with
    | nil => rfl
    | cons x rest =>
      cases x with
      | cast v => rfl
      | op c as => rfl
      | gep q o =>
        simp only [moreSteps]
        split
        · rename_i h; subst h; exact absurd rfl (hr o rest)
        · rfl
  | cons o os ih =>
    have := ih (i + 1) (by omega) (by
      intro o' rest' he
      refine hr o' rest' (he.trans ?_)
      unfold lastPtr
      by_cases h : os = []
      · subst h; simp
      · simp [h] <;> omega)
    rw [Nat.add_sub_cancel] at this
    simp only [asteps, List.cons_append, moreSteps, if_true, this, List.length_cons]

theorem accessSteps_asteps (p : FVal) (i : Nat) (os : List Nat) (rest : List FInst) :
    accessSteps (asteps p i os ++ rest) i os.length = accessSteps rest (i + os.length) 0 := by
  induction os generalizing p i with
  | nil => simp [asteps]
  | cons o os ih =>
    simp only [asteps, List.cons_append, List.length_cons, accessSteps]
    rw [ih]
    congr 1
    omega

/-- The first access takes all steps of the sequence. -/
theorem accessSteps_access (p : FVal) (i : Nat) (o : Nat) (os : List Nat) (rest : List FInst)
    (hr : ∀ o' rest', rest ≠ .gep (lastPtr p i (o :: os)) o' :: rest') :
    accessSteps (asteps p i (o :: os) ++ rest) i 0 =
      (os.length + 1) :: accessSteps rest (i + (os.length + 1)) 0 := by
  have h : moreSteps (asteps (.inst i) (i + 1) os ++ rest) (i + 1) = os.length := by
    have := moreSteps_asteps (i + 1) os rest (by omega) (by
      intro o' rest' he
      refine hr o' rest' (he.trans ?_)
      unfold lastPtr
      by_cases h : os = []
      · subst h; simp
      · simp [h] <;> omega)
    simpa using this
  simp only [asteps, List.cons_append, accessSteps, h]
  rw [accessSteps_asteps]
  congr 2
  omega

/-! ### The state of one side -/

/-- A value is used by some of the instructions. -/
def usedIn (ls : List FInst) (v : FVal) : Prop := ∃ x ∈ ls, v ∈ foperands x

/-- What holds for the numbered values of one side before the instructions from position `i`. -/
structure FSide (prog : List FInst) (i : Nat) (ls : List FInst) (K : List FVal) : Prop where
  suffix : ls = prog.drop i
  old : ∀ k, .inst k ∈ K → k < i
  live : ∀ v, usedIn ls v → (∀ k, v = .inst k → k < i) → v ∈ K

theorem FSide.fresh {prog : List FInst} {i : Nat} {ls : List FInst} {K : List FVal}
    (h : FSide prog i ls K) {k : Nat} (hk : i ≤ k) : FVal.inst k ∉ K := fun hm => by
  have := h.old k hm; omega

theorem FSide.get {prog : List FInst} {i : Nat} {ls : List FInst} {K : List FVal}
    (h : FSide prog i ls K) (t : Nat) : prog[i + t]? = ls[t]? := by
  rw [h.suffix, List.getElem?_drop]

theorem FSide.operand {prog : List FInst} {n i : Nat} {x : FInst} {ls : List FInst}
    {K : List FVal} (h : FSide prog i (x :: ls) K) (hw : FWellFormed n prog) {v : FVal}
    (hv : v ∈ foperands x) : v ∈ K := by
  refine h.live v ⟨x, by simp, hv⟩ fun k hk => ?_
  have := h.get 0
  exact (hw.1 i x (by simpa using this) v hv).2 k hk

theorem FSide.step {prog : List FInst} {i : Nat} {x : FInst} {ls : List FInst} {K : List FVal}
    (h : FSide prog i (x :: ls) K) : FSide prog (i + 1) ls (K ++ [.inst i]) where
  suffix := by
    have := congrArg (List.drop 1) h.suffix
    simpa [List.drop_drop, Nat.add_comm] using this
  old k hk := by
    rcases List.mem_append.1 hk with hk | hk
    · have := h.old k hk; omega
    · simp at hk; omega
  live v hu hk := by
    rw [List.mem_append]
    by_cases hv : v = .inst i
    · right; simp [hv]
    · left
      obtain ⟨y, hy, hvy⟩ := hu
      refine h.live v ⟨y, by simp [hy], hvy⟩ fun k e => ?_
      have h1 := hk k e
      have h2 : k ≠ i := fun e' => hv (by rw [e, e'])
      omega

theorem asteps_get (p : FVal) (i : Nat) (os : List Nat) (rest : List FInst) (t : Nat)
    (ht : t < os.length) :
    (∃ p' o', (asteps p i os ++ rest)[t]? = some (.gep p' o')) ∧
    (t + 1 < os.length →
      ∃ o', (asteps p i os ++ rest)[t + 1]? = some (.gep (.inst (i + t)) o')) := by
  induction os generalizing p i t with
  | nil => simp at ht
  | cons o os ih =>
    cases t with
    | zero =>
      refine ⟨⟨p, o, rfl⟩, fun h => ?_⟩
      cases os with
      | nil => simp at h
      | cons o' os => exact ⟨o', rfl⟩
    | succ t =>
      have := ih (.inst i) (i + 1) t (by simpa using ht)
      simp only [asteps, List.cons_append, List.getElem?_cons_succ]
      refine ⟨this.1, fun h => ?_⟩
      obtain ⟨o', h'⟩ := this.2 (by simpa using h)
      exact ⟨o', by rw [h']; congr 3; omega⟩

/-- The numbered values after an access of `len` steps. -/
def accKeys (K : List FVal) (i len : Nat) : List FVal :=
  if len = 1 then K ++ [.inst i] else K ++ [.inst i] ++ [.inst (i + len - 1)]

/-- Pointers inside an access are not used after it. -/
theorem FSide.inner {prog : List FInst} {i : Nat} {p : FVal} {os : List Nat} {rest : List FInst}
    {K : List FVal} (h : FSide prog i (asteps p i os ++ rest) K) (ho : InnerOnce prog) {t : Nat}
    (ht : t + 1 < os.length) : ¬ usedIn rest (.inst (i + t)) := by
  rintro ⟨x, hx, hv⟩
  obtain ⟨k, hk⟩ := List.mem_iff_getElem?.1 hx
  obtain ⟨⟨p', o', h1⟩, h2⟩ := asteps_get p i os rest t (by omega)
  obtain ⟨o'', h2⟩ := h2 ht
  rw [← h.get] at h1 h2
  have h3 : prog[i + (os.length + k)]? = some x := by
    rw [h.get, List.getElem?_append_right (by rw [asteps_length]; omega), asteps_length]
    simpa using hk
  have := ho (i + t) p' o' o'' h1 (by rw [← h2]; congr 1) (i + (os.length + k)) x h3 hv
  omega

theorem FSide.access {prog : List FInst} {i : Nat} {p : FVal} {o : Nat} {os : List Nat}
    {rest : List FInst} {K : List FVal} (h : FSide prog i (asteps p i (o :: os) ++ rest) K)
    (ho : InnerOnce prog) :
    FSide prog (i + (os.length + 1)) rest (accKeys K i (os.length + 1)) where
  suffix := by
    have := congrArg (List.drop (os.length + 1)) h.suffix
    rw [List.drop_drop] at this
    rw [← this, List.drop_append_of_le_length (by simp [asteps_length])]
    rw [List.drop_eq_nil_of_le (by simp [asteps_length])]
    rfl
  old k hk := by
    unfold accKeys at hk
    split at hk
    · rcases List.mem_append.1 hk with hk | hk
      · have := h.old k hk; omega
      · simp at hk; omega
    · rcases List.mem_append.1 hk with hk | hk
      · rcases List.mem_append.1 hk with hk | hk
        · have := h.old k hk; omega
        · simp at hk; omega
      · simp at hk; omega
  live v hu hk := by
    have key : v ∈ K ∨ v = .inst (i + os.length) := by
      by_cases hv : ∃ k, v = .inst k ∧ i ≤ k
      · obtain ⟨k, rfl, hik⟩ := hv
        right
        have h1 := hk k rfl
        by_contra hne
        have h2 : k ≠ i + os.length := fun e => hne (by rw [e])
        refine h.inner ho (t := k - i) (by simp; omega) ?_
        rw [show i + (k - i) = k by omega]
        exact hu
      · left
        obtain ⟨y, hy, hvy⟩ := hu
        refine h.live v ⟨y, by simp [hy], hvy⟩ fun k e => ?_
        by_contra hc
        exact hv ⟨k, e, by omega⟩
    unfold accKeys
    rcases key with key | key
    · split <;> simp [key]
    · subst key
      split
      · have : os.length = 0 := by omega
        simp [this]
      · rw [show i + (os.length + 1) - 1 = i + os.length by omega]
        simp

/-- A step to a pointer begins an access. -/
theorem access_head {ls : List FInst} {i : Nat} {p : FVal} {o : Nat}
    (hs : SmallSteps (.gep p o :: ls)) :
    ∃ os rest, FInst.gep p o :: ls = asteps p i (o :: os) ++ rest ∧
      (∀ o' rest', rest ≠ .gep (.inst (i + os.length)) o' :: rest') ∧
      accessGo (.gep p o :: ls) i p 0 =
        ((o + os.sum) % 2 ^ 64, i + (os.length + 1), .inst (i + os.length), rest) := by
  obtain ⟨os, rest, h1, h2, h3⟩ := accessGo_eq (.gep p o :: ls) i p 0 (fun x hx =>
    ⟨(hs x hx).1, fun p o e => ((hs x hx).2 p o e).2⟩)
  cases os with
  | nil =>
    simp only [asteps, List.nil_append] at h1
    exact absurd h1.symm (h2 o ls)
  | cons o' os =>
    have : o' = o := by
      simp only [asteps, List.cons_append, List.cons.injEq, FInst.gep.injEq] at h1
      exact h1.1.2.symm
    subst this
    have hl : lastPtr p i (o' :: os) = .inst (i + os.length) := by
      simp [lastPtr]
    rw [hl] at h2 h3
    refine ⟨os, rest, h1, h2, ?_⟩
    rw [h3, foldl_sum_lt _ _ (by norm_num)]
    simp

theorem smallSteps_noSkip {prog : List FInst} (h : SmallSteps prog) : NoSkip prog :=
  fun x hx => ⟨(h x hx).1, fun p o e => ((h x hx).2 p o e).1⟩

theorem smallSteps_mono {prog prog' : List FInst} (h : SmallSteps prog)
    (hs : ∀ x ∈ prog', x ∈ prog) : SmallSteps prog' := fun x hx => h x (hs x hx)

theorem FSide.small {prog : List FInst} {i : Nat} {ls : List FInst} {K : List FVal}
    (h : FSide prog i ls K) (hs : SmallSteps prog) : SmallSteps ls :=
  smallSteps_mono hs fun x hx => by rw [h.suffix] at hx; exact List.mem_of_mem_drop hx

theorem addKey_access {prog : List FInst} {i : Nat} {ls : List FInst} {K : List FVal}
    (h : FSide prog i ls K) (m : Nat) :
    addKey (K ++ [.inst i]) (.inst (i + m)) = accKeys K i (m + 1) := by
  unfold accKeys
  by_cases hm : m = 0
  · subst hm; simp [addKey]
  · have h1 : FVal.inst (i + m) ∉ K ++ [.inst i] := by
      rw [List.mem_append, List.mem_singleton, FVal.inst.injEq]
      rintro (h1 | h1)
      · exact h.fresh (by omega) h1
      · omega
    rw [addKey_new h1, if_neg (by omega)]
    rfl

/-- The comparison of two instructions that have no numbers yet. -/
theorem cmpFInst_eq {L R : List FInst} {n i j : Nat} {l r : FInst} {ls rs : List FInst}
    {KL KR : List FVal} (hL : NoSkip L) (hR : NoSkip R) (wL : FWellFormed n L)
    (wR : FWellFormed n R) (sL : FSide L i (l :: ls) KL) (sR : FSide R j (r :: rs) KR) :
    ∃ b, cmpFInst L R (mkSt KL KR) i j l r =
        (b, mkSt (KL ++ [.inst i]) (KR ++ [.inst j])) ∧
      (b = true → KL.length = KR.length ∧
        ((∃ p q o, l = .gep p o ∧ r = .gep q o ∧ KL.idxOf p = KR.idxOf q) ∨
         ∃ c as as', l = .op c as ∧ r = .op c as' ∧ as.map KL.idxOf = as'.map KR.idxOf)) := by
  have hi : FVal.inst i ∉ KL := sL.fresh le_rfl
  have hj : FVal.inst j ∉ KR := sR.fresh le_rfl
  unfold cmpFInst
  rw [cmpFVal_eq hL hR, addKey_new hi, addKey_new hj, List.idxOf_eq_length hi,
    List.idxOf_eq_length hj]
  dsimp only
  by_cases hlen : KL.length = KR.length
  · rw [if_pos (by simp [hlen])]
    have noL : ∀ v, l ≠ .cast v := (hL l (by
      have := sL.get 0; exact List.mem_of_getElem? (by simpa using this))).1
    cases l with
    | cast v => exact absurd rfl (noL v)
    | gep p o =>
      have hp : p ∈ KL := sL.operand wL (by simp [foperands])
      cases r with
      | cast v => exact ⟨false, rfl, by simp⟩
      | op c as => exact ⟨false, rfl, by simp⟩
      | gep q o' =>
        have hq : q ∈ KR := sR.operand wR (by simp [foperands])
        unfold cmpBodies
        dsimp only
        rw [cmpFVal_eq hL hR, addKey_mem (by simp [hp]), addKey_mem (by simp [hq]),
          List.idxOf_append_of_mem hp, List.idxOf_append_of_mem hq]
        dsimp only
        split
        · rename_i he
          refine ⟨_, rfl, fun hb => ⟨hlen, .inl ⟨p, q, o, rfl, ?_, by simpa using he⟩⟩⟩
          have : o = o' := by simpa using hb
          rw [this]
        · rename_i he
          exact ⟨_, rfl, fun hb => absurd hb he⟩
    | op c as =>
      have hp : ∀ v ∈ as, v ∈ KL := fun v hv => sL.operand wL (by simpa [foperands] using hv)
      cases r with
      | cast v => exact ⟨false, rfl, by simp⟩
      | gep p o => exact ⟨false, rfl, by simp⟩
      | op c' as' =>
        have hq : ∀ v ∈ as', v ∈ KR := fun v hv => sR.operand wR (by simpa [foperands] using hv)
        unfold cmpBodies
        dsimp only
        split
        · rename_i hc
          rw [cmpFVals_eq hL hR as as' (fun v hv => by simp [hp v hv])
            (fun v hv => by simp [hq v hv]) hc.2]
          refine ⟨_, rfl, fun hb => ⟨hlen, .inr ⟨c, as, as', rfl, by rw [hc.1], ?_⟩⟩⟩
          have e1 : as.map (KL ++ [FVal.inst i]).idxOf = as.map KL.idxOf :=
            List.map_congr_left fun v hv => List.idxOf_append_of_mem (hp v hv)
          have e2 : as'.map (KR ++ [FVal.inst j]).idxOf = as'.map KR.idxOf :=
            List.map_congr_left fun v hv => List.idxOf_append_of_mem (hq v hv)
          rw [e1, e2] at hb
          simpa using hb
        · exact ⟨false, rfl, by simp⟩
  · rw [if_neg (by simp [hlen])]
    exact ⟨false, by simp [hlen], by simp⟩

/-- The comparison of two accesses. -/
theorem cmpAccess_eq {L R : List FInst} {n i j : Nat} {p q : FVal} {o o' : Nat}
    {os os' : List Nat} {rest rest' : List FInst} {ls rs : List FInst} {KL KR : List FVal}
    (hL : SmallSteps L) (hR : SmallSteps R) (wL : FWellFormed n L) (wR : FWellFormed n R)
    (sL : FSide L i (.gep p o :: ls) KL) (sR : FSide R j (.gep q o' :: rs) KR)
    (aL : accessGo (.gep p o :: ls) i p 0 =
      ((o + os.sum) % 2 ^ 64, i + (os.length + 1), .inst (i + os.length), rest))
    (aR : accessGo (.gep q o' :: rs) j q 0 =
      ((o' + os'.sum) % 2 ^ 64, j + (os'.length + 1), .inst (j + os'.length), rest')) :
    cmpAccess L R (mkSt (KL ++ [.inst i]) (KR ++ [.inst j])) i j (.gep p o :: ls)
        (.gep q o' :: rs) =
      if KL.idxOf p = KR.idxOf q ∧ (o + os.sum) % 2 ^ 64 = (o' + os'.sum) % 2 ^ 64 then
        (some (i + (os.length + 1), rest, j + (os'.length + 1), rest'),
          mkSt (accKeys KL i (os.length + 1)) (accKeys KR j (os'.length + 1)))
      else (none, mkSt (KL ++ [.inst i]) (KR ++ [.inst j])) := by
  have nL := smallSteps_noSkip hL
  have nR := smallSteps_noSkip hR
  have hp : p ∈ KL := sL.operand wL (by simp [foperands])
  have hq : q ∈ KR := sR.operand wR (by simp [foperands])
  unfold cmpAccess
  dsimp only
  rw [cmpFVal_eq nL nR, addKey_mem (show p ∈ KL ++ [.inst i] by simp [hp]),
    addKey_mem (show q ∈ KR ++ [.inst j] by simp [hq]), List.idxOf_append_of_mem hp,
    List.idxOf_append_of_mem hq, aL, aR]
  dsimp only
  rw [cmpFVal_eq nL nR, addKey_access sL, addKey_access sR]
  by_cases h1 : KL.idxOf p = KR.idxOf q
  · by_cases h2 : (o + os.sum) % 2 ^ 64 = (o' + os'.sum) % 2 ^ 64
    · rw [if_pos (by simp [h1]), if_pos h2, if_pos ⟨h1, h2⟩]
    · rw [if_pos (by simp [h1]), if_neg h2, if_neg (fun h => h2 h.2)]
  · rw [if_neg (by simp [h1]), if_neg (fun h => h1 h.1)]

theorem maySkip_no {prog : List FInst} {i : Nat} {x : FInst} {ls : List FInst} {K : List FVal}
    (h : FSide prog i (x :: ls) K) (hs : NoSkip prog) : maySkipF x = false := by
  have h1 := hs x (by have := h.get 0; exact List.mem_of_getElem? (by simpa using this))
  cases x with
  | cast v => exact absurd rfl (h1.1 v)
  | op c as => rfl
  | gep p o => have := h1.2 p o rfl; simp [maySkipF]; omega

/-- Without casts and zero steps, one iteration of the comparison passes two equal instructions or
two accesses. -/
theorem cmpFGo_step {L R : List FInst} {n fuel i j : Nat} {l r : FInst} {ls rs : List FInst}
    {KL KR : List FVal} (hL : SmallSteps L) (hR : SmallSteps R) (wL : FWellFormed n L)
    (wR : FWellFormed n R) (sL : FSide L i (l :: ls) KL) (sR : FSide R j (r :: rs) KR)
    (h : cmpFGo L R (fuel + 1) (mkSt KL KR) i (l :: ls) j (r :: rs) = true) :
    (KL.length = KR.length ∧
      ((∃ p q o, l = .gep p o ∧ r = .gep q o ∧ KL.idxOf p = KR.idxOf q) ∨
       ∃ c as as', l = .op c as ∧ r = .op c as' ∧ as.map KL.idxOf = as'.map KR.idxOf) ∧
      cmpFGo L R fuel (mkSt (KL ++ [.inst i]) (KR ++ [.inst j])) (i + 1) ls (j + 1) rs = true) ∨
    ∃ p o os rest q o' os' rest', l = .gep p o ∧ r = .gep q o' ∧
      l :: ls = asteps p i (o :: os) ++ rest ∧ r :: rs = asteps q j (o' :: os') ++ rest' ∧
      (∀ o' rest', rest ≠ .gep (.inst (i + os.length)) o' :: rest') ∧
      (∀ o' rest'', rest' ≠ .gep (.inst (j + os'.length)) o' :: rest'') ∧
      KL.idxOf p = KR.idxOf q ∧ (o + os.sum) % 2 ^ 64 = (o' + os'.sum) % 2 ^ 64 ∧
      cmpFGo L R fuel
        (mkSt (accKeys KL i (os.length + 1)) (accKeys KR j (os'.length + 1)))
        (i + (os.length + 1)) rest (j + (os'.length + 1)) rest' = true := by
  have nL := smallSteps_noSkip hL
  have nR := smallSteps_noSkip hR
  obtain ⟨b, hb, hb'⟩ := cmpFInst_eq nL nR wL wR sL sR
  rw [cmpFGo] at h
  dsimp only at h
  rw [hb] at h
  dsimp only at h
  by_cases hbt : b = true
  · rw [if_pos hbt] at h
    exact .inl ⟨(hb' hbt).1, (hb' hbt).2, h⟩
  · rw [if_neg hbt, maySkip_no sL nL, maySkip_no sR nR] at h
    have hnone : ∀ st, cmpAccess L R (mkSt (KL ++ [.inst i]) (KR ++ [.inst j])) i j (l :: ls)
        (r :: rs) ≠ (none, st) := by
      intro st he
      rw [he] at h
      simp at h
    cases l with
    | cast v => exact absurd rfl ((sL.small hL _ (List.mem_cons_self ..)).1 v)
    | op c as => exact absurd rfl (hnone (mkSt (KL ++ [.inst i]) (KR ++ [.inst j])))
    | gep p o =>
      cases r with
      | cast v => exact absurd rfl (hnone (mkSt (KL ++ [.inst i]) (KR ++ [.inst j])))
      | op c as => exact absurd rfl (hnone (mkSt (KL ++ [.inst i]) (KR ++ [.inst j])))
      | gep q o' =>
        obtain ⟨os, rest, a1, a2, a3⟩ := access_head (i := i) (sL.small hL)
        obtain ⟨os', rest', b1, b2, b3⟩ := access_head (i := j) (sR.small hR)
        have hc := cmpAccess_eq hL hR wL wR sL sR a3 b3
        by_cases hcond : KL.idxOf p = KR.idxOf q ∧
            (o + os.sum) % 2 ^ 64 = (o' + os'.sum) % 2 ^ 64
        · rw [if_pos hcond] at hc
          rw [hc] at h
          exact .inr ⟨p, o, os, rest, q, o', os', rest', rfl, rfl, a1, b1, a2, b2, hcond.1,
            hcond.2, h⟩
        · rw [if_neg hcond] at hc
          exact absurd hc (hnone _)

/-! ### Soundness -/

/-- Values with the same number that are still used on both sides are equal. -/
def ValsAgree (UL UR : FVal → Prop) (fL fR : FVal → Nat) (KL KR : List FVal) : Prop :=
  ∀ v ∈ KL, ∀ w ∈ KR, KL.idxOf v = KR.idxOf w → UL v → UR w → fL v = fR w

theorem agree_mono {UL UR UL' UR' : FVal → Prop} {fL fR fL' fR' : FVal → Nat}
    {KL KR : List FVal} (h : ValsAgree UL UR fL fR KL KR) (hL : ∀ v, UL' v → UL v)
    (hR : ∀ v, UR' v → UR v) (gL : ∀ v ∈ KL, fL' v = fL v) (gR : ∀ v ∈ KR, fR' v = fR v) :
    ValsAgree UL' UR' fL' fR' KL KR := fun v hv w hw he h1 h2 => by
  rw [gL v hv, gR w hw]
  exact h v hv w hw he (hL v h1) (hR w h2)

theorem agree_ext {UL UR : FVal → Prop} {fL fR : FVal → Nat} {KL KR : List FVal}
    (h : ValsAgree UL UR fL fR KL KR) (hlen : KL.length = KR.length) {a b : FVal} (ha : a ∉ KL)
    (hb : b ∉ KR) (hab : UL a → UR b → fL a = fR b) :
    ValsAgree UL UR fL fR (KL ++ [a]) (KR ++ [b]) := by
  intro v hv w hw he h1 h2
  rw [List.mem_append, List.mem_singleton] at hv hw
  by_cases hvK : v ∈ KL
  · rw [List.idxOf_append_of_mem hvK] at he
    by_cases hwK : w ∈ KR
    · rw [List.idxOf_append_of_mem hwK] at he
      exact h v hvK w hwK he h1 h2
    · rw [List.idxOf_append_of_notMem hwK] at he
      have := List.idxOf_lt_length_of_mem hvK
      omega
  · rw [List.idxOf_append_of_notMem hvK] at he
    by_cases hwK : w ∈ KR
    · rw [List.idxOf_append_of_mem hwK] at he
      have := List.idxOf_lt_length_of_mem hwK
      omega
    · obtain rfl := hv.resolve_left hvK
      obtain rfl := hw.resolve_left hwK
      exact hab h1 h2

theorem accKeys_length (K : List FVal) (i m : Nat) :
    (accKeys K i (m + 1)).length = K.length + 1 + if m = 0 then 0 else 1 := by
  unfold accKeys
  split
  · rename_i h; simp [show m = 0 by omega]
  · rename_i h; simp [show ¬ m = 0 by omega]

theorem fval_append (args : Nat → Nat) (vals more : List Nat) {prog : List FInst} {i : Nat}
    {ls : List FInst} {K : List FVal} (h : FSide prog i ls K) (hi : vals.length = i) (v : FVal)
    (hv : v ∈ K) : fval args (vals ++ more) v = fval args vals v := by
  cases v with
  | arg n => rfl
  | inst k =>
    have := h.old k hv
    simp only [fval]
    rw [List.getD_append _ _ _ _ (by omega)]

/-- The accesses of the first side have at least as many steps. -/
abbrev StepsGe (ls : List FInst) (i : Nat) (rs : List FInst) (j : Nat) : Prop :=
  List.Forall₂ (fun a b => b ≤ a) (accessSteps ls i 0) (accessSteps rs j 0)

theorem stepsGe_access {p q : FVal} {i j o o' : Nat} {os os' : List Nat} {rest rest' : List FInst}
    (h : StepsGe (asteps p i (o :: os) ++ rest) i (asteps q j (o' :: os') ++ rest') j)
    (h1 : ∀ o' rest', rest ≠ .gep (.inst (i + os.length)) o' :: rest')
    (h2 : ∀ o' rest'', rest' ≠ .gep (.inst (j + os'.length)) o' :: rest'') :
    os'.length ≤ os.length ∧
      StepsGe rest (i + (os.length + 1)) rest' (j + (os'.length + 1)) := by
  unfold StepsGe at h
  rw [accessSteps_access p i o os rest (by simpa [lastPtr] using h1),
    accessSteps_access q j o' os' rest' (by simpa [lastPtr] using h2)] at h
  cases h with
  | cons ha hb => exact ⟨by omega, hb⟩

/-- Once one side has more numbers, other instructions are never equal again. -/
theorem broken_false {L R : List FInst} {n : Nat} (hL : SmallSteps L) (hR : SmallSteps R)
    (wL : FWellFormed n L) (wR : FWellFormed n R) (oL : InnerOnce L) (oR : InnerOnce R)
    (fuel i j : Nat) (ls rs : List FInst) (KL KR : List FVal) (sL : FSide L i ls KL)
    (sR : FSide R j rs KR) (hs : StepsGe ls i rs j) (hlt : KR.length < KL.length)
    (hop : ∃ c as, FInst.op c as ∈ ls)
    (h : cmpFGo L R fuel (mkSt KL KR) i ls j rs = true) : False := by
  induction fuel generalizing i j ls rs KL KR with
  | zero => simp [cmpFGo] at h
  | succ fuel ih =>
    cases ls with
    | nil => obtain ⟨c, as, h⟩ := hop; simp at h
    | cons l ls =>
      cases rs with
      | nil => simp [cmpFGo] at h
      | cons r rs =>
        rcases cmpFGo_step hL hR wL wR sL sR h with ⟨hl, -⟩ | ⟨p, o, os, rest, q, o', os', rest',
          -, -, a1, b1, a2, b2, -, -, h'⟩
        · omega
        · rw [a1] at sL hs hop
          rw [b1] at sR hs
          have hst := stepsGe_access hs a2 b2
          refine ih _ _ _ _ _ _ (sL.access oL) (sR.access oR) hst.2 ?_ ?_ h'
          · rw [accKeys_length, accKeys_length]
            split <;> split <;> omega
          · obtain ⟨c, as, hm⟩ := hop
            refine ⟨c, as, (List.mem_append.1 hm).resolve_left fun hm => ?_⟩
            obtain ⟨t, ht⟩ := List.mem_iff_getElem?.1 hm
            have htl : t < (o :: os).length := by
              rw [← asteps_length p i]
              exact (List.getElem?_eq_some_iff.1 ht).1
            obtain ⟨⟨p', o'', hg⟩, -⟩ := asteps_get p i (o :: os) [] t htl
            rw [List.append_nil] at hg
            rw [hg] at ht
            cases ht

/-- Steps to pointers with different numbers are never equal. -/
theorem stuck_false {L R : List FInst} {n : Nat} (hL : SmallSteps L) (hR : SmallSteps R)
    (wL : FWellFormed n L) (wR : FWellFormed n R) {fuel i j : Nat} {p : FVal} {o : Nat}
    {ls rs : List FInst} {KL KR : List FVal} (sL : FSide L i (.gep p o :: ls) KL)
    (sR : FSide R j rs KR)
    (hne : ∀ q o' rs', rs = .gep q o' :: rs' → KL.idxOf p ≠ KR.idxOf q)
    (h : cmpFGo L R fuel (mkSt KL KR) i (.gep p o :: ls) j rs = true) : False := by
  cases fuel with
  | zero => simp [cmpFGo] at h
  | succ fuel =>
    cases rs with
    | nil => simp [cmpFGo] at h
    | cons r rs =>
      rcases cmpFGo_step hL hR wL wR sL sR h with ⟨-, ⟨p', q, o', hl, hr, he⟩ | ⟨c, as, as', hl,
        -⟩, -⟩ | ⟨p', o', os, rest, q, o'', os', rest', hl, hr, -, -, -, -, he, -⟩
      · cases hl; subst hr; exact hne q o rs rfl he
      · cases hl
      · cases hl; subst hr; exact hne q o'' rs rfl he

theorem cmpFGo_sound {L R : List FInst} {n : Nat} (hL : SmallSteps L) (hR : SmallSteps R)
    (wL : FWellFormed n L) (wR : FWellFormed n R) (oL : InnerOnce L) (oR : InnerOnce R)
    (args : Nat → Nat) (world : FTrace → Nat)
    (fuel i j : Nat) (ls rs : List FInst) (KL KR : List FVal) (vL vR : List Nat) (tr : FTrace)
    (sL : FSide L i ls KL) (sR : FSide R j rs KR) (hs : StepsGe ls i rs j)
    (hlen : KL.length = KR.length) (hvL : vL.length = i) (hvR : vR.length = j)
    (ha : ValsAgree (usedIn ls) (usedIn rs) (fval args vL) (fval args vR) KL KR)
    (h : cmpFGo L R fuel (mkSt KL KR) i ls j rs = true) :
    frun args world ls vL tr = frun args world rs vR tr := by
  induction fuel generalizing i j ls rs KL KR vL vR tr with
  | zero => simp [cmpFGo] at h
  | succ fuel ih =>
    cases ls with
    | nil => cases rs with
      | nil => rfl
      | cons r rs => simp [cmpFGo] at h
    | cons l ls =>
      cases rs with
      | nil => simp [cmpFGo] at h
      | cons r rs =>
        have huL : ∀ v, usedIn ls v → usedIn (l :: ls) v := fun v ⟨x, hx, hv⟩ =>
          ⟨x, by simp [hx], hv⟩
        have huR : ∀ v, usedIn rs v → usedIn (r :: rs) v := fun v ⟨x, hx, hv⟩ =>
          ⟨x, by simp [hx], hv⟩
        have hhL : ∀ v ∈ foperands l, usedIn (l :: ls) v := fun v hv => ⟨l, by simp, hv⟩
        have hhR : ∀ v ∈ foperands r, usedIn (r :: rs) v := fun v hv => ⟨r, by simp, hv⟩
        -- the values after one more instruction with the same result on both sides
        have hnext : ∀ z, ValsAgree (usedIn ls) (usedIn rs) (fval args (vL ++ [z]))
            (fval args (vR ++ [z])) (KL ++ [.inst i]) (KR ++ [.inst j]) := fun z =>
          agree_ext (agree_mono ha huL huR (fun v hv => fval_append args vL [z] sL hvL v hv)
            (fun v hv => fval_append args vR [z] sR hvR v hv)) hlen (sL.fresh le_rfl)
            (sR.fresh le_rfl) (fun _ _ => by simp [fval, ← hvL, ← hvR])
        rcases cmpFGo_step hL hR wL wR sL sR h with ⟨-, hcase, h'⟩ | ⟨p, o, os, rest, q, o', os',
          rest', hl, hr, a1, b1, a2, b2, he, hsum, h'⟩
        · rcases hcase with ⟨p, q, o, rfl, rfl, he⟩ | ⟨c, as, as', rfl, rfl, he⟩
          · -- the same step
            have hpq : fval args vL p = fval args vR q :=
              ha p (sL.operand wL (by simp [foperands])) q (sR.operand wR (by simp [foperands]))
                he (hhL p (by simp [foperands])) (hhR q (by simp [foperands]))
            obtain ⟨os, rest, a1, a2, -⟩ := access_head (i := i) (sL.small hL)
            obtain ⟨os', rest', b1, b2, -⟩ := access_head (i := j) (sR.small hR)
            have hs' := hs
            rw [a1, b1] at hs'
            have hst := stepsGe_access hs' a2 b2
            rw [frun, frun, hpq]
            have hls : ls = asteps (.inst i) (i + 1) os ++ rest := by
              simpa [asteps] using a1
            have hrs : rs = asteps (.inst j) (j + 1) os' ++ rest' := by
              simpa [asteps] using b1
            have goOn : StepsGe ls (i + 1) rs (j + 1) →
                frun args world ls (vL ++ [(fval args vR q + o) % 2 ^ 64]) tr =
                  frun args world rs (vR ++ [(fval args vR q + o) % 2 ^ 64]) tr := fun hs'' =>
              ih _ _ _ _ _ _ _ _ tr sL.step sR.step hs'' (by simp [hlen]) (by simp [hvL])
                (by simp [hvR]) (hnext _) h'
            cases os with
            | nil =>
              have : os' = [] := by
                have := hst.1; simpa using this
              subst this
              refine goOn ?_
              have e1 : ls = rest := by simpa [asteps] using hls
              have e2 : rs = rest' := by simpa [asteps] using hrs
              rw [e1, e2]
              simpa using hst.2
            | cons o2 os =>
              cases os' with
              | nil =>
                exfalso
                have e2 : rs = rest' := by simpa [asteps] using hrs
                have sL' := sL.step
                rw [hls] at sL' h'
                simp only [asteps, List.cons_append] at sL' h'
                refine stuck_false hL hR wL wR sL' sR.step ?_ h'
                intro q' o'' rs' hrs' hidx
                have hq' : q' ∈ KR ++ [.inst j] := by
                  have := sR.step
                  rw [hrs'] at this
                  exact this.operand wR (by simp [foperands])
                have hq'' : q' ≠ .inst j := by
                  rintro rfl
                  rw [e2] at hrs'
                  exact b2 o'' rs' (by simpa using hrs')
                have hqR : q' ∈ KR := by
                  rcases List.mem_append.1 hq' with h | h
                  · exact h
                  · exact absurd (List.mem_singleton.1 h) hq''
                rw [List.idxOf_append_of_mem hqR,
                  List.idxOf_append_of_notMem (sL.fresh le_rfl)] at hidx
                have := List.idxOf_lt_length_of_mem hqR
                simp at hidx
                omega
              | cons o2' os' =>
                refine goOn ?_
                unfold StepsGe
                have e1 := accessSteps_access (.inst i) (i + 1) o2 os rest (by
                  intro x y hxy
                  refine a2 x y (hxy.trans ?_)
                  simp [lastPtr]; omega)
                have e2 := accessSteps_access (.inst j) (j + 1) o2' os' rest' (by
                  intro x y hxy
                  refine b2 x y (hxy.trans ?_)
                  simp [lastPtr]; omega)
                rw [← hls] at e1
                rw [← hrs] at e2
                rw [e1, e2]
                have h1 := hst.1
                have h2 := hst.2
                simp only [List.length_cons] at h1 h2
                refine .cons (by omega) ?_
                rw [show i + 1 + (os.length + 1) = i + (os.length + 1 + 1) by omega,
                  show j + 1 + (os'.length + 1) = j + (os'.length + 1 + 1) by omega]
                exact h2
          · -- the same operation
            have hvals : as.map (fval args vL) = as'.map (fval args vR) := by
              have hlen' : as.length = as'.length := by
                have := congrArg List.length he; simpa using this
              refine List.ext_getElem (by simpa using hlen') fun k h1 h2 => ?_
              simp only [List.getElem_map]
              have h1' : k < as.length := by simpa using h1
              have h2' : k < as'.length := by simpa using h2
              have hk : KL.idxOf as[k] = KR.idxOf as'[k] := by
                have := congrArg (fun l => l[k]?) he
                simpa [h1', h2'] using this
              exact ha _ (sL.operand wL (by simp [foperands])) _
                (sR.operand wR (by simp [foperands])) hk
                (hhL _ (by simp [foperands])) (hhR _ (by simp [foperands]))
            rw [frun, frun, hvals]
            refine ih _ _ _ _ _ _ _ _ _ sL.step sR.step ?_ (by simp [hlen]) (by simp [hvL])
              (by simp [hvR]) (hnext _) h'
            simpa [StepsGe, accessSteps] using hs
        · -- two accesses
          subst hl hr
          have hpq : fval args vL p = fval args vR q :=
            ha p (sL.operand wL (by simp [foperands])) q (sR.operand wR (by simp [foperands]))
              he (hhL p (by simp [foperands])) (hhR q (by simp [foperands]))
          have sL0 := sL
          have sR0 := sR
          rw [a1] at sL0 hs ha ⊢
          rw [b1] at sR0 hs ha ⊢
          have hst := stepsGe_access hs a2 b2
          have hlast : ∀ (v : List Nat) (k : Nat) (x : Nat) (xs : List Nat) (w : Nat),
              v.length = k → fval args (v ++ stepVals w (x :: xs)) (.inst (k + xs.length)) =
                (w + (x + xs.sum)) % 2 ^ 64 := by
            intro v k x xs w hk
            have := stepVals_last w (x :: xs) (by simp)
            simp only [fval]
            rw [List.getD_append_right _ _ _ _ (by omega), show k + xs.length - v.length =
              (x :: xs).length - 1 by simp; omega, this, List.sum_cons]
          have heq : fval args (vL ++ stepVals (fval args vL p) (o :: os))
              (.inst (i + os.length)) =
              fval args (vR ++ stepVals (fval args vR q) (o' :: os')) (.inst (j + os'.length)) := by
            rw [hlast vL i o os _ hvL, hlast vR j o' os' _ hvR, hpq]
            omega
          have ha' : ValsAgree (usedIn rest) (usedIn rest')
              (fval args (vL ++ stepVals (fval args vL p) (o :: os)))
              (fval args (vR ++ stepVals (fval args vR q) (o' :: os'))) KL KR :=
            agree_mono ha (fun v ⟨x, hx, hv⟩ => ⟨x, by simp [hx], hv⟩)
              (fun v ⟨x, hx, hv⟩ => ⟨x, by simp [hx], hv⟩)
              (fun v hv => fval_append args vL _ sL hvL v hv)
              (fun v hv => fval_append args vR _ sR hvR v hv)
          rw [frun_asteps args world p i _ rest vL tr hvL,
            frun_asteps args world q j _ rest' vR tr hvR]
          by_cases h0 : os'.length = 0
          · by_cases h1 : os.length = 0
            · -- one step each
              refine ih _ _ _ _ _ _ _ _ _ (sL0.access oL) (sR0.access oR) hst.2 ?_ ?_ ?_ ?_ h'
              · rw [accKeys_length, accKeys_length]; simp [h0, h1, hlen]
              · simp [stepVals_length, hvL]
              · simp [stepVals_length, hvR]
              · have k1 : accKeys KL i (os.length + 1) = KL ++ [.inst i] := by simp [accKeys, h1]
                have k2 : accKeys KR j (os'.length + 1) = KR ++ [.inst j] := by
                  simp [accKeys, h0]
                rw [k1, k2]
                refine agree_ext ha' hlen (sL.fresh le_rfl) (sR.fresh le_rfl) fun _ _ => ?_
                simpa [h0, h1] using heq
            · -- one side has more numbers now
              exfalso
              refine broken_false hL hR wL wR oL oR _ _ _ _ _ _ _ (sL0.access oL)
                (sR0.access oR) hst.2 ?_ ?_ h'
              · rw [accKeys_length, accKeys_length]; simp [h0, h1, hlen]
              · obtain ⟨c, as, hlast'⟩ := wL.2
                refine ⟨c, as, ?_⟩
                have hmem : FInst.op c as ∈ asteps p i (o :: os) ++ rest := by
                  rw [sL0.suffix]
                  have hne : L.drop i ≠ [] := by
                    rw [← sL0.suffix]; simp [asteps]
                  have : (L.drop i).getLast? = some (.op c as) := by
                    rw [List.getLast?_drop, hlast', if_neg]
                    intro hc
                    exact hne (List.drop_eq_nil_of_le hc)
                  exact List.mem_of_getLast? this
                refine (List.mem_append.1 hmem).resolve_left fun hm => ?_
                obtain ⟨t, ht⟩ := List.mem_iff_getElem?.1 hm
                have htl : t < (o :: os).length := by
                  rw [← asteps_length p i]
                  exact (List.getElem?_eq_some_iff.1 ht).1
                obtain ⟨⟨p', o'', hg⟩, -⟩ := asteps_get p i (o :: os) [] t htl
                rw [List.append_nil] at hg
                rw [hg] at ht
                cases ht
          · -- several steps each
            have h1 : os.length ≠ 0 := by have := hst.1; omega
            refine ih _ _ _ _ _ _ _ _ _ (sL0.access oL) (sR0.access oR) hst.2 ?_ ?_ ?_ ?_ h'
            · rw [accKeys_length, accKeys_length]; simp [h0, h1, hlen]
            · simp [stepVals_length, hvL]
            · simp [stepVals_length, hvR]
            · have k1 : accKeys KL i (os.length + 1) =
                  KL ++ [.inst i] ++ [.inst (i + os.length)] := by simp [accKeys, h1]
              have k2 : accKeys KR j (os'.length + 1) =
                  KR ++ [.inst j] ++ [.inst (j + os'.length)] := by simp [accKeys, h0]
              rw [k1, k2]
              have n1 : FVal.inst (i + os.length) ∉ KL ++ [.inst i] := by
                rw [List.mem_append, List.mem_singleton, FVal.inst.injEq]
                rintro (h | h)
                · exact sL.fresh (by omega) h
                · omega
              have n2 : FVal.inst (j + os'.length) ∉ KR ++ [.inst j] := by
                rw [List.mem_append, List.mem_singleton, FVal.inst.injEq]
                rintro (h | h)
                · exact sR.fresh (by omega) h
                · omega
              refine agree_ext (agree_ext ha' hlen (sL.fresh le_rfl) (sR.fresh le_rfl)
                fun hu _ => ?_) (by simp [hlen]) n1 n2 fun _ _ => heq
              exact absurd hu (sL0.inner oL (t := 0) (by simp; omega))

/-! ### The order of the sides -/

/-- The state with the sides swapped. -/
def swapSt (st : FSt) : FSt := ⟨st.snR, st.snL, st.replR, st.replL⟩

theorem cmpFVal_swap (L R : List FInst) (st : FSt) (l r : FVal) :
    cmpFVal R L (swapSt st) r l = ((cmpFVal L R st l r).1, swapSt (cmpFVal L R st l r).2) := by
  simp only [cmpFVal, swapSt, Prod.mk.injEq, and_true]
  rw [Bool.eq_iff_iff, beq_iff_eq, beq_iff_eq]
  exact eq_comm

theorem cmpFVals_swap (L R : List FInst) (st : FSt) (ls rs : List FVal) :
    cmpFVals R L (swapSt st) rs ls =
      ((cmpFVals L R st ls rs).1, swapSt (cmpFVals L R st ls rs).2) := by
  induction ls generalizing rs st with
  | nil => cases rs <;> rfl
  | cons l ls ih =>
    cases rs with
    | nil => rfl
    | cons r rs =>
      simp only [cmpFVals]
      rw [cmpFVal_swap]
      dsimp only
      split
      · exact ih _ _
      · rfl

theorem cmpBodies_swap (L R : List FInst) (st : FSt) (l r : FInst) :
    cmpBodies R L (swapSt st) r l =
      ((cmpBodies L R st l r).1, swapSt (cmpBodies L R st l r).2) := by
  cases l <;> cases r <;> try rfl
  · simp only [cmpBodies]
    rw [cmpFVal_swap]
    dsimp only
    split
    · simp only [Prod.mk.injEq, and_true]
      rw [Bool.eq_iff_iff, beq_iff_eq, beq_iff_eq]
      exact eq_comm
    · rfl
  · exact cmpFVal_swap ..
  · rename_i c as c' as'
    simp only [cmpBodies]
    by_cases h : c = c' ∧ as.length = as'.length
    · rw [if_pos h, if_pos ⟨h.1.symm, h.2.symm⟩, cmpFVals_swap]
    · rw [if_neg h, if_neg (fun h' => h ⟨h'.1.symm, h'.2.symm⟩)]

theorem cmpFInst_swap (L R : List FInst) (st : FSt) (i j : Nat) (l r : FInst) :
    cmpFInst R L (swapSt st) j i r l =
      ((cmpFInst L R st i j l r).1, swapSt (cmpFInst L R st i j l r).2) := by
  simp only [cmpFInst]
  rw [cmpFVal_swap]
  dsimp only
  split
  · exact cmpBodies_swap ..
  · rfl

theorem cmpAccess_swap (L R : List FInst) (st : FSt) (i j : Nat) (ls rs : List FInst) :
    cmpAccess R L (swapSt st) j i rs ls =
      ((cmpAccess L R st i j ls rs).1.map (fun a => (a.2.2.1, a.2.2.2, a.1, a.2.1)),
        swapSt (cmpAccess L R st i j ls rs).2) := by
  cases ls with
  | nil => cases rs with
    | nil => rfl
    | cons r rs => cases r <;> rfl
  | cons l ls =>
    cases rs with
    | nil => cases l <;> rfl
    | cons r rs =>
      cases l <;> cases r <;> try rfl
      simp only [cmpAccess]
      rw [cmpFVal_swap]
      dsimp only
      split
      · rw [cmpFVal_swap]
        split
        · rename_i h; rw [if_pos h.symm]; rfl
        · rename_i h; rw [if_neg (fun h' => h h'.symm)]; rfl
      · rfl

theorem cmpFGo_swap (L R : List FInst) (fuel : Nat) (st : FSt) (i j : Nat) (ls rs : List FInst) :
    cmpFGo R L fuel (swapSt st) j rs i ls = cmpFGo L R fuel st i ls j rs := by
  induction fuel generalizing st i j ls rs with
  | zero => simp [cmpFGo]
  | succ fuel ih =>
    cases ls with
    | nil => cases rs <;> simp [cmpFGo]
    | cons l ls =>
      cases rs with
      | nil => simp [cmpFGo]
      | cons r rs =>
        rw [cmpFGo, cmpFGo]
        dsimp only
        rw [cmpFInst_swap, cmpAccess_swap]
        dsimp only
        split
        · exact ih ..
        · cases cmpAccess L R (cmpFInst L R st i j l r).2 i j (l :: ls) (r :: rs) with
          | mk o st' =>
            cases o with
            | some a => exact ih ..
            | none =>
              dsimp only [Option.map_none]
              rw [Bool.or_comm]
              split
              · rw [← ih]; rfl
              · rfl

theorem argNumbers_eq (n : Nat) :
    argNumbers n = ((List.range n).map FVal.arg).zipIdx := by
  unfold argNumbers
  apply List.ext_getElem
  · simp
  · intro k h1 h2
    simp

/-- The start of the comparison. -/
theorem FSide.start {n : Nat} {prog : List FInst} (w : FWellFormed n prog) :
    FSide prog 0 prog ((List.range n).map FVal.arg) where
  suffix := rfl
  old k hk := by simp at hk
  live v hu hk := by
    obtain ⟨x, hx, hv⟩ := hu
    obtain ⟨i, hi⟩ := List.mem_iff_getElem?.1 hx
    cases v with
    | arg k => simpa using (w.1 i x hi _ hv).1 k rfl
    | inst k => exact absurd (hk k rfl) (by omega)

theorem cmpFBlocks_sound {L R : List FInst} {n : Nat} (hL : SmallSteps L) (hR : SmallSteps R)
    (wL : FWellFormed n L) (wR : FWellFormed n R) (oL : InnerOnce L) (oR : InnerOnce R)
    (hs : List.Forall₂ (fun a b => b ≤ a) (accessSteps L 0 0) (accessSteps R 0 0))
    (h : cmpFBlocks n L R = true) (args : Nat → Nat) (world : FTrace → Nat) :
    ftrace args world L = ftrace args world R := by
  unfold cmpFBlocks at h
  rw [argNumbers_eq] at h
  refine cmpFGo_sound hL hR wL wR oL oR args world _ 0 0 L R _ _ [] [] [] (FSide.start wL)
    (FSide.start wR) hs rfl rfl rfl ?_ h
  intro v hv w hw he _ _
  have : v = w := List.idxOf_inj hv |>.1 he
  rw [this]

theorem cmpFBlocks_swap (n : Nat) (L R : List FInst) : cmpFBlocks n R L = cmpFBlocks n L R := by
  unfold cmpFBlocks
  rw [Nat.add_comm R.length]
  exact cmpFGo_swap L R _ ⟨argNumbers n, argNumbers n, [], []⟩ 0 0 L R

/-! ### Completeness -/

theorem accessGo_asteps (os : List Nat) (rest : List FInst) (i : Nat) (p : FVal) (acc : Nat)
    (hs : ∀ o ∈ os, throughInt o = o) (hc : ∀ v rest', rest ≠ .cast v :: rest')
    (hr : ∀ o rest', rest ≠ .gep (lastPtr p i os) o :: rest') :
    accessGo (asteps p i os ++ rest) i p acc =
      (os.foldl (fun a o => (a + o) % 2 ^ 64) acc, i + os.length, lastPtr p i os, rest) := by
  induction os generalizing i p acc with
  | nil =>
    cases rest with
    | nil => rfl
    | cons x rest =>
      cases x with
      | cast v => exact absurd rfl (hc v rest)
      | op c as => rfl
      | gep q o =>
        have : q ≠ p := by rintro rfl; exact hr o rest rfl
        simp [asteps, accessGo, this, lastPtr]
  | cons o os ih =>
    have hlp : lastPtr (.inst i) (i + 1) os = lastPtr p i (o :: os) := by
      unfold lastPtr
      by_cases he : os = []
      · subst he; simp
      · simp only [he, if_false, List.length_cons]
        simp <;> omega
    rw [asteps, List.cons_append, accessGo, if_pos rfl, hs o (by simp),
      ih (i + 1) (.inst i) _ (fun x hx => hs x (by simp [hx])) (by rw [hlp]; exact hr), hlp]
    simp only [List.foldl_cons, List.length_cons]
    rw [show i + 1 + os.length = i + (os.length + 1) by omega]

/-- The same steps on both sides pass one by one. -/
theorem cmpFGo_same {L R : List FInst} (nL : NoSkip L) (nR : NoSkip R) (os : List Nat)
    (p q : FVal) (i j fuel : Nat) (rest rest' : List FInst) (KL KR : List FVal)
    (fL : ∀ k, .inst k ∈ KL → k < i) (fR : ∀ k, .inst k ∈ KR → k < j)
    (hlen : KL.length = KR.length) (hp : p ∈ KL) (hq : q ∈ KR)
    (hpq : KL.idxOf p = KR.idxOf q) :
    cmpFGo L R (fuel + os.length) (mkSt KL KR) i (asteps p i os ++ rest) j
        (asteps q j os ++ rest') =
      cmpFGo L R fuel (mkSt (KL ++ (List.range os.length).map (fun t => .inst (i + t)))
        (KR ++ (List.range os.length).map (fun t => .inst (j + t)))) (i + os.length) rest
        (j + os.length) rest' := by
  induction os generalizing p q i j KL KR with
  | nil => simp [asteps]
  | cons o os ih =>
    have hi : FVal.inst i ∉ KL := fun h => by have := fL i h; omega
    have hj : FVal.inst j ∉ KR := fun h => by have := fR j h; omega
    simp only [asteps, List.cons_append, List.length_cons]
    have hinst : cmpFInst L R (mkSt KL KR) i j (.gep p o) (.gep q o) =
        (true, mkSt (KL ++ [.inst i]) (KR ++ [.inst j])) := by
      unfold cmpFInst
      rw [cmpFVal_eq nL nR, addKey_new hi, addKey_new hj, List.idxOf_eq_length hi,
        List.idxOf_eq_length hj]
      dsimp only
      rw [if_pos (by simp [hlen])]
      unfold cmpBodies
      dsimp only
      rw [cmpFVal_eq nL nR, addKey_mem (show p ∈ KL ++ [.inst i] by simp [hp]),
        addKey_mem (show q ∈ KR ++ [.inst j] by simp [hq]), List.idxOf_append_of_mem hp,
        List.idxOf_append_of_mem hq]
      dsimp only
      rw [if_pos (by simp [hpq])]
      simp
    rw [show fuel + (os.length + 1) = fuel + os.length + 1 by omega, cmpFGo]
    dsimp only
    rw [hinst]
    dsimp only
    rw [if_pos rfl]
    rw [ih (.inst i) (.inst j) (i + 1) (j + 1) (KL ++ [FVal.inst i]) (KR ++ [FVal.inst j])
      (fun k hk => by
        rcases List.mem_append.1 hk with hk | hk
        · have := fL k hk; omega
        · simp at hk; omega)
      (fun k hk => by
        rcases List.mem_append.1 hk with hk | hk
        · have := fR k hk; omega
        · simp at hk; omega)
      (by simp [hlen]) (by simp) (by simp)
      (by rw [List.idxOf_append_of_notMem hi, List.idxOf_append_of_notMem hj]; simp [hlen])]
    have e : ∀ (K : List FVal) (i : Nat), K ++ [.inst i] ++
        (List.range os.length).map (fun t => FVal.inst (i + 1 + t)) =
        K ++ (List.range (os.length + 1)).map (fun t => FVal.inst (i + t)) := by
      intro K i
      rw [List.range_succ_eq_map, List.map_cons, List.map_map, List.append_assoc]
      simp only [List.singleton_append, Nat.add_zero]
      congr 3
      funext t
      simp; omega
    rw [e, e, show i + 1 + os.length = i + (os.length + 1) by omega,
      show j + 1 + os.length = j + (os.length + 1) by omega]

/-- Accesses with different first steps and the same sum pass at once. -/
theorem cmpFGo_resplit {L R : List FInst} (nL : NoSkip L) (nR : NoSkip R) (o o' : Nat)
    (os os' : List Nat) (p q : FVal) (i j fuel : Nat) (rest rest' : List FInst)
    (KL KR : List FVal) (fL : ∀ k, .inst k ∈ KL → k < i) (fR : ∀ k, .inst k ∈ KR → k < j)
    (hp : p ∈ KL) (hq : q ∈ KR) (hpq : KL.idxOf p = KR.idxOf q) (hne : o ≠ o')
    (h1 : os ≠ []) (h2 : os' ≠ []) (sL : ∀ x ∈ o :: os, throughInt x = x)
    (sR : ∀ x ∈ o' :: os', throughInt x = x) (hsum : (o :: os).sum = (o' :: os').sum)
    (cL : ∀ v rest', rest ≠ .cast v :: rest') (cR : ∀ v rest'', rest' ≠ .cast v :: rest'')
    (mL : ∀ x rest', rest ≠ .gep (.inst (i + os.length)) x :: rest')
    (mR : ∀ x rest'', rest' ≠ .gep (.inst (j + os'.length)) x :: rest'') :
    cmpFGo L R (fuel + 1) (mkSt KL KR) i (asteps p i (o :: os) ++ rest) j
        (asteps q j (o' :: os') ++ rest') =
      cmpFGo L R fuel (mkSt (KL ++ [.inst i] ++ [.inst (i + os.length)])
        (KR ++ [.inst j] ++ [.inst (j + os'.length)])) (i + (os.length + 1)) rest
        (j + (os'.length + 1)) rest' := by
  have hi : FVal.inst i ∉ KL := fun h => by have := fL i h; omega
  have hj : FVal.inst j ∉ KR := fun h => by have := fR j h; omega
  have hl1 : os.length ≠ 0 := by simpa using h1
  have hl2 : os'.length ≠ 0 := by simpa using h2
  have n1 : FVal.inst (i + os.length) ∉ KL ++ [.inst i] := by
    rw [List.mem_append, List.mem_singleton, FVal.inst.injEq]
    rintro (h | h)
    · have := fL _ h; omega
    · omega
  have n2 : FVal.inst (j + os'.length) ∉ KR ++ [.inst j] := by
    rw [List.mem_append, List.mem_singleton, FVal.inst.injEq]
    rintro (h | h)
    · have := fR _ h; omega
    · omega
  have a1 := accessGo_asteps (o :: os) rest i p 0 sL cL (by simpa [lastPtr] using mL)
  have a2 := accessGo_asteps (o' :: os') rest' j q 0 sR cR (by simpa [lastPtr] using mR)
  rw [foldl_sum_lt _ _ (by norm_num)] at a1 a2
  simp only [asteps, List.cons_append] at a1 a2 ⊢
  have hacc : cmpAccess L R (mkSt (KL ++ [.inst i]) (KR ++ [.inst j])) i j
      (.gep p o :: (asteps (.inst i) (i + 1) os ++ rest))
      (.gep q o' :: (asteps (.inst j) (j + 1) os' ++ rest')) =
      (some (i + (os.length + 1), rest, j + (os'.length + 1), rest'),
        mkSt (KL ++ [.inst i] ++ [.inst (i + os.length)])
          (KR ++ [.inst j] ++ [.inst (j + os'.length)])) := by
    unfold cmpAccess
    dsimp only
    rw [cmpFVal_eq nL nR, addKey_mem (show p ∈ KL ++ [.inst i] by simp [hp]),
      addKey_mem (show q ∈ KR ++ [.inst j] by simp [hq]), List.idxOf_append_of_mem hp,
      List.idxOf_append_of_mem hq, a1, a2]
    dsimp only
    rw [if_pos (by simp [hpq]), if_pos (by rw [hsum]), cmpFVal_eq nL nR]
    have e1 : lastPtr p i (o :: os) = .inst (i + os.length) := by simp [lastPtr]
    have e2 : lastPtr q j (o' :: os') = .inst (j + os'.length) := by simp [lastPtr]
    rw [e1, e2, addKey_new n1, addKey_new n2]
    rfl
  have hinst : ∃ b, b = false ∧ cmpFInst L R (mkSt KL KR) i j (.gep p o) (.gep q o') =
      (b, mkSt (KL ++ [.inst i]) (KR ++ [.inst j])) := by
    unfold cmpFInst
    rw [cmpFVal_eq nL nR, addKey_new hi, addKey_new hj]
    dsimp only
    split
    · unfold cmpBodies
      dsimp only
      rw [cmpFVal_eq nL nR, addKey_mem (show p ∈ KL ++ [.inst i] by simp [hp]),
        addKey_mem (show q ∈ KR ++ [.inst j] by simp [hq]), List.idxOf_append_of_mem hp,
        List.idxOf_append_of_mem hq]
      dsimp only
      rw [if_pos (by simp [hpq])]
      exact ⟨_, by simp [hne], rfl⟩
    · rename_i h
      exact ⟨_, by simpa using h, rfl⟩
  obtain ⟨b, rfl, hinst⟩ := hinst
  rw [cmpFGo]
  dsimp only
  rw [hinst]
  dsimp only
  rw [if_neg (by simp), hacc]

theorem throughInt_small {o : Nat} (h : o < 2 ^ 31) : throughInt o = o := by
  unfold throughInt
  have : o % 2 ^ 32 = o := Nat.mod_eq_of_lt (by omega)
  dsimp only
  rw [this, if_pos h]

/-- What holds between items. -/
structure AInv (n : Nat) (endsL endsR : List Nat) (i j : Nat) (KL KR : List FVal) : Prop where
  ends : endsL.length = endsR.length
  oldL : ∀ k, .inst k ∈ KL → k < i
  oldR : ∀ k, .inst k ∈ KR → k < j
  len : KL.length = KR.length
  vals : ∀ v : ARef, (∀ a, v = .arg a → a < n) → (∀ b, v = .item b → b < endsL.length) →
    aref endsL v ∈ KL ∧ aref endsR v ∈ KR ∧ KL.idxOf (aref endsL v) = KR.idxOf (aref endsR v)

theorem aref_append (ends more : List Nat) (v : ARef) (h : ∀ b, v = .item b → b < ends.length) :
    aref (ends ++ more) v = aref ends v := by
  cases v with
  | arg a => rfl
  | item b =>
    simp only [aref]
    rw [List.getD_append _ _ _ _ (h b rfl)]

/-- One more item, with the results `a` and `b`. -/
theorem AInv.next {n : Nat} {endsL endsR : List Nat} {i j : Nat} {KL KR : List FVal}
    (h : AInv n endsL endsR i j KL KR) {moreL moreR : List FVal} {a b i' j' : Nat}
    (hml : moreL.length = moreR.length)
    (hL : ∀ k, .inst k ∈ moreL → k < i') (hR : ∀ k, .inst k ∈ moreR → k < j')
    (hi : i ≤ i') (hj : j ≤ j')
    (ha : .inst a ∈ KL ++ moreL) (hb : .inst b ∈ KR ++ moreR)
    (hab : (KL ++ moreL).idxOf (.inst a) = (KR ++ moreR).idxOf (.inst b)) :
    AInv n (endsL ++ [a]) (endsR ++ [b]) i' j' (KL ++ moreL) (KR ++ moreR) where
  ends := by simp [h.ends]
  oldL k hk := by
    rcases List.mem_append.1 hk with hk | hk
    · have := h.oldL k hk; omega
    · exact hL k hk
  oldR k hk := by
    rcases List.mem_append.1 hk with hk | hk
    · have := h.oldR k hk; omega
    · exact hR k hk
  len := by simp [h.len, hml]
  vals v h1 h2 := by
    by_cases hv : v = .item endsL.length
    · subst hv
      have e1 : aref (endsL ++ [a]) (.item endsL.length) = .inst a := by simp [aref]
      have e2 : aref (endsR ++ [b]) (.item endsL.length) = .inst b := by simp [aref, h.ends]
      rw [e1, e2]
      exact ⟨ha, hb, hab⟩
    · have h3 : ∀ b, v = .item b → b < endsL.length := fun b e => by
        have := h2 b e
        have : b ≠ endsL.length := fun e' => hv (by rw [e, e'])
        simp at *; omega
      obtain ⟨g1, g2, g3⟩ := h.vals v h1 h3
      rw [aref_append _ _ _ h3, aref_append _ _ _ (by rw [← h.ends]; exact h3)]
      exact ⟨by simp [g1], by simp [g2], by
        rw [List.idxOf_append_of_mem g1, List.idxOf_append_of_mem g2, g3]⟩

/-- The condition under which a pair of accesses is found equal. -/
def GoodSplit (o o' : List Nat) : Prop :=
  o = o' ∨ (2 ≤ o.length ∧ 2 ≤ o'.length ∧ o.head? ≠ o'.head?)

theorem lowerGo_head {s : List AItem} {offs : List (List Nat)} {ends : List Nat} {pos : Nat}
    (hne : ∀ (k : Nat) (p : ARef) (o : List Nat), s[k]? = some (.access p) → offs[k]? = some o →
      o ≠ []) :
    (∀ v rest, lowerGo s offs ends pos ≠ .cast v :: rest) ∧
    ∀ q x rest, lowerGo s offs ends pos = .gep q x :: rest →
      ∃ p, s[0]? = some (.access p) ∧ q = aref ends p := by
  cases s with
  | nil => exact ⟨fun _ _ h => by simp [lowerGo] at h, fun _ _ _ h => by simp [lowerGo] at h⟩
  | cons x s =>
    cases offs with
    | nil =>
      cases x <;>
      exact ⟨fun _ _ h => by simp [lowerGo] at h, fun _ _ _ h => by simp [lowerGo] at h⟩
    | cons o os =>
      cases x with
      | op c as =>
        exact ⟨fun _ _ h => by simp [lowerGo] at h, fun _ _ _ h => by simp [lowerGo] at h⟩
      | access p =>
        have := hne 0 p o (by simp) (by simp)
        cases o with
        | nil => exact absurd rfl this
        | cons y o =>
          refine ⟨fun _ _ h => ?_, fun q x rest h => ?_⟩
          · simp [lowerGo, asteps] at h
          · simp only [lowerGo, asteps, List.cons_append, List.cons.injEq, FInst.gep.injEq] at h
            exact ⟨p, rfl, h.1.1.symm⟩

theorem lowerGo_noSkip {s : List AItem} {offs : List (List Nat)} {ends : List Nat} {pos : Nat}
    (hpos : ∀ (k : Nat) (p : ARef) (o : List Nat), s[k]? = some (.access p) →
      offs[k]? = some o → ∀ x ∈ o, 0 < x) : NoSkip (lowerGo s offs ends pos) := by
  induction s generalizing offs ends pos with
  | nil => intro x hx; simp [lowerGo] at hx
  | cons y s ih =>
    cases offs with
    | nil => intro x hx; cases y <;> simp [lowerGo] at hx
    | cons o os =>
      have ih' : ∀ ends pos, NoSkip (lowerGo s os ends pos) := fun ends pos =>
        ih fun k p o h1 h2 => hpos (k + 1) p o (by simpa using h1) (by simpa using h2)
      cases y with
      | op c as =>
        intro x hx
        simp only [lowerGo, List.mem_cons] at hx
        rcases hx with rfl | hx
        · exact ⟨by simp, by simp⟩
        · exact ih' _ _ x hx
      | access p =>
        intro x hx
        simp only [lowerGo, List.mem_append] at hx
        rcases hx with hx | hx
        · have hp := hpos 0 p o (by simp) (by simp)
          generalize aref ends p = v at hx
          clear ih ih' hpos
          induction o generalizing v pos with
          | nil => simp [asteps] at hx
          | cons a o iho =>
            simp only [asteps, List.mem_cons] at hx
            rcases hx with rfl | hx
            · exact ⟨by simp, fun q b e => by cases e; exact hp _ (by simp)⟩
            · exact iho (fun z hz => hp z (by simp [hz])) _ hx
        · exact ih' _ _ x hx

theorem splits_ne_nil {s : List AItem} {offsL offsR : List (List Nat)} {m : Nat}
    (good : ∀ (t : Nat) (p : ARef), s[t]? = some (.access p) → ∃ o o', offsL[t]? = some o ∧
      offsR[t]? = some o' ∧ SameSum o o' ∧ GoodSplit o o' ∧
      (o ≠ o' → s[t + 1]? ≠ some (.access (.item (m + t))))) :
    (∀ (k : Nat) (p : ARef) (o : List Nat), s[k]? = some (.access p) → offsL[k]? = some o →
      o ≠ []) ∧
    ∀ (k : Nat) (p : ARef) (o : List Nat), s[k]? = some (.access p) → offsR[k]? = some o →
      o ≠ [] := by
  constructor
  · intro k p o h1 h2
    obtain ⟨a, b, h3, -, h4, -⟩ := good k p h1
    rw [h2] at h3; cases h3; exact h4.1
  · intro k p o h1 h2
    obtain ⟨a, b, -, h3, h4, -⟩ := good k p h1
    rw [h2] at h3; cases h3; exact h4.2.1

/-- The instructions after an access do not continue it. -/
theorem lowerGo_stops {s : List AItem} {offs : List (List Nat)} {ends : List Nat} {n e pos : Nat}
    {K : List FVal}
    (hne : ∀ (k : Nat) (p : ARef) (o : List Nat), s[k]? = some (.access p) → offs[k]? = some o →
      o ≠ [])
    (hold : ∀ b, b < ends.length → ends.getD b 0 < e)
    (wf : ∀ (t : Nat) (x : AItem), s[t]? = some x → ∀ v ∈ arefs x,
      (∀ a, v = .arg a → a < n) ∧ ∀ b, v = .item b → b < ends.length + 1 + t)
    (hno : s[0]? ≠ some (.access (.item ends.length))) (x : Nat) (rest : List FInst) :
    lowerGo s offs (ends ++ [e]) pos ≠ .gep (.inst e) x :: rest := by
  intro h
  obtain ⟨p, h1, h2⟩ := (lowerGo_head hne).2 _ _ _ h
  cases p with
  | arg a => simp [aref] at h2
  | item b =>
    have hb := (wf 0 _ h1 (.item b) (by simp [arefs])).2 b rfl
    simp only [aref, FVal.inst.injEq] at h2
    by_cases hlt : b < ends.length
    · rw [List.getD_append _ _ _ _ hlt] at h2
      have := hold b hlt
      omega
    · have : b = ends.length := by omega
      subst this
      exact hno h1

theorem sum_small {o : List Nat} (h : o.sum < 2 ^ 31) : ∀ x ∈ o, throughInt x = x :=
  fun x hx => throughInt_small (lt_of_le_of_lt (List.le_sum_of_mem hx) h)

theorem cmpFGo_lower {L R : List FInst} (nL : NoSkip L) (nR : NoSkip R) (n : Nat)
    (s : List AItem) (offsL offsR : List (List Nat)) (endsL endsR : List Nat) (i j : Nat)
    (KL KR : List FVal) (fuel : Nat) (inv : AInv n endsL endsR i j KL KR)
    (hlL : offsL.length = s.length) (hlR : offsR.length = s.length)
    (wf : ∀ (t : Nat) (x : AItem), s[t]? = some x → ∀ v ∈ arefs x,
      (∀ a, v = .arg a → a < n) ∧ ∀ b, v = .item b → b < endsL.length + t)
    (good : ∀ (t : Nat) (p : ARef), s[t]? = some (.access p) → ∃ o o', offsL[t]? = some o ∧
      offsR[t]? = some o' ∧ SameSum o o' ∧ GoodSplit o o' ∧
      (o ≠ o' → s[t + 1]? ≠ some (.access (.item (endsL.length + t)))))
    (hf : (lowerGo s offsL endsL i).length + (lowerGo s offsR endsR j).length < fuel) :
    cmpFGo L R fuel (mkSt KL KR) i (lowerGo s offsL endsL i) j (lowerGo s offsR endsR j) =
      true := by
  induction s generalizing offsL offsR endsL endsR i j KL KR fuel with
  | nil =>
    obtain ⟨f, rfl⟩ : ∃ f, fuel = f + 1 := ⟨fuel - 1, by omega⟩
    simp [lowerGo, cmpFGo]
  | cons y s ih =>
    obtain ⟨oL, offsL, rfl⟩ : ∃ o os, offsL = o :: os := by
      cases offsL with
      | nil => simp at hlL
      | cons o os => exact ⟨o, os, rfl⟩
    obtain ⟨oR, offsR, rfl⟩ : ∃ o os, offsR = o :: os := by
      cases offsR with
      | nil => simp at hlR
      | cons o os => exact ⟨o, os, rfl⟩
    have hlL' : offsL.length = s.length := by simpa using hlL
    have hlR' : offsR.length = s.length := by simpa using hlR
    have wf' : ∀ (e t : Nat) (x : AItem), s[t]? = some x → ∀ v ∈ arefs x,
        (∀ a, v = .arg a → a < n) ∧ ∀ b, v = .item b → b < (endsL ++ [e]).length + t := by
      intro e t x hx v hv
      have := wf (t + 1) x (by simpa using hx) v hv
      refine ⟨this.1, fun b hb => ?_⟩
      have := this.2 b hb
      simp; omega
    have good' : ∀ (e t : Nat) (p : ARef), s[t]? = some (.access p) → ∃ o o',
        offsL[t]? = some o ∧ offsR[t]? = some o' ∧ SameSum o o' ∧ GoodSplit o o' ∧
        (o ≠ o' → s[t + 1]? ≠ some (.access (.item ((endsL ++ [e]).length + t)))) := by
      intro e t p hp
      obtain ⟨o, o', h1, h2, h3, h4, h5⟩ := good (t + 1) p (by simpa using hp)
      refine ⟨o, o', by simpa using h1, by simpa using h2, h3, h4, fun hne => ?_⟩
      have := h5 hne
      rw [show (endsL ++ [e]).length + t = endsL.length + (t + 1) by simp; omega]
      simpa using this
    have hi : FVal.inst i ∉ KL := fun h => by have := inv.oldL i h; omega
    have hj : FVal.inst j ∉ KR := fun h => by have := inv.oldR j h; omega
    have ref : ∀ v ∈ arefs y, aref endsL v ∈ KL ∧ aref endsR v ∈ KR ∧
        KL.idxOf (aref endsL v) = KR.idxOf (aref endsR v) := fun v hv =>
      inv.vals v (wf 0 y rfl v hv).1 (wf 0 y rfl v hv).2
    cases y with
    | op c as =>
      simp only [lowerGo, List.length_cons] at hf ⊢
      obtain ⟨f, rfl⟩ : ∃ f, fuel = f + 1 := ⟨fuel - 1, by omega⟩
      have hinst : cmpFInst L R (mkSt KL KR) i j (.op c (as.map (aref endsL)))
          (.op c (as.map (aref endsR))) =
          (true, mkSt (KL ++ [.inst i]) (KR ++ [.inst j])) := by
        unfold cmpFInst
        rw [cmpFVal_eq nL nR, addKey_new hi, addKey_new hj, List.idxOf_eq_length hi,
          List.idxOf_eq_length hj]
        dsimp only
        rw [if_pos (by simp [inv.len])]
        unfold cmpBodies
        dsimp only
        rw [if_pos (by simp), cmpFVals_eq nL nR]
        · simp only [Prod.mk.injEq, and_true, beq_iff_eq, List.map_map]
          refine List.map_congr_left fun v hv => ?_
          obtain ⟨h1, h2, h3⟩ := ref v (by simpa [arefs] using hv)
          simp only [Function.comp]
          rw [List.idxOf_append_of_mem h1, List.idxOf_append_of_mem h2, h3]
        · intro v hv
          obtain ⟨w, hw, rfl⟩ := List.mem_map.1 hv
          simp [(ref w (by simpa [arefs] using hw)).1]
        · intro v hv
          obtain ⟨w, hw, rfl⟩ := List.mem_map.1 hv
          simp [(ref w (by simpa [arefs] using hw)).2.1]
        · simp
      rw [cmpFGo]
      dsimp only
      rw [hinst]
      dsimp only
      rw [if_pos rfl]
      refine ih _ _ _ _ _ _ _ _ _ (inv.next (by simp) (by simp) (by simp) (by omega) (by omega)
        (by simp) (by simp) ?_) hlL' hlR' (wf' i) (good' i) (by omega)
      rw [List.idxOf_append_of_notMem hi, List.idxOf_append_of_notMem hj]
      simp [inv.len]
    | access p =>
      obtain ⟨hp, hq, hpq⟩ := ref p (by simp [arefs])
      obtain ⟨o, o', h1, h2, hsum, hsplit, hno⟩ := good 0 p rfl
      have e1 : oL = o := by simpa using h1
      have e2 : oR = o' := by simpa using h2
      subst e1 e2
      simp only [lowerGo, List.length_append, asteps_length] at hf ⊢
      have hoL : 0 < oL.length := List.length_pos_iff.2 hsum.1
      have hoR : 0 < oR.length := List.length_pos_iff.2 hsum.2.1
      by_cases heq : oL = oR
      · subst heq
        obtain ⟨f, rfl⟩ : ∃ f, fuel = f + oL.length := ⟨fuel - oL.length, by omega⟩
        rw [cmpFGo_same nL nR oL _ _ i j f _ _ KL KR inv.oldL inv.oldR inv.len hp hq hpq]
        have hidx : ∀ (K : List FVal) (i : Nat), (∀ k, FVal.inst k ∈ K → k < i) →
            (K ++ (List.range oL.length).map (fun t => FVal.inst (i + t))).idxOf
              (.inst (i + oL.length - 1)) = K.length + (oL.length - 1) := by
          intro K i hK
          rw [List.idxOf_append_of_notMem (fun h => by have := hK _ h; omega)]
          have hnd : ((List.range oL.length).map (fun t => FVal.inst (i + t))).Nodup :=
            (List.nodup_range).map (fun a b h => by simpa using h)
          have := hnd.idxOf_getElem (oL.length - 1) (by simp; omega)
          simp only [List.getElem_map, List.getElem_range] at this
          rw [show i + oL.length - 1 = i + (oL.length - 1) by omega, this]
        refine ih _ _ _ _ _ _ _ _ _ (inv.next (by simp) ?_ ?_ (by omega) (by omega) ?_ ?_ ?_)
          hlL' hlR' (wf' _) (good' _) (by omega)
        · intro k hk; simp at hk; omega
        · intro k hk; simp at hk; omega
        · rw [List.mem_append]; right
          simp only [List.mem_map, List.mem_range, FVal.inst.injEq]
          exact ⟨oL.length - 1, by omega, by omega⟩
        · rw [List.mem_append]; right
          simp only [List.mem_map, List.mem_range, FVal.inst.injEq]
          exact ⟨oL.length - 1, by omega, by omega⟩
        · rw [hidx KL i inv.oldL, hidx KR j inv.oldR, inv.len]
      · obtain ⟨hl1, hl2, hhd⟩ := hsplit.resolve_left heq
        obtain ⟨a, os, rfl⟩ : ∃ a os, oL = a :: os := by
          cases oL with
          | nil => simp at hoL
          | cons a os => exact ⟨a, os, rfl⟩
        obtain ⟨a', os', rfl⟩ : ∃ a os, oR = a :: os := by
          cases oR with
          | nil => simp at hoR
          | cons a os => exact ⟨a, os, rfl⟩
        simp only [List.length_cons] at hl1 hl2 hf ⊢
        have hne : a ≠ a' := by simpa using hhd
        have nonempty := splits_ne_nil (good' 0)
        have oldL : ∀ b, b < endsL.length → endsL.getD b 0 < i + os.length := fun b hb => by
          have h3 := (inv.vals (.item b) (by simp) (by simpa using hb)).1
          have := inv.oldL _ h3
          omega
        have oldR : ∀ b, b < endsR.length → endsR.getD b 0 < j + os'.length := fun b hb => by
          have h3 := (inv.vals (.item b) (by simp) (by simpa [inv.ends] using hb)).2.1
          have := inv.oldR _ h3
          omega
        have hno' : s[0]? ≠ some (.access (.item endsL.length)) := by
          have := hno heq
          simpa using this
        obtain ⟨f, rfl⟩ : ∃ f, fuel = f + 1 := ⟨fuel - 1, by omega⟩
        rw [show i + (os.length + 1) - 1 = i + os.length by omega,
          show j + (os'.length + 1) - 1 = j + os'.length by omega] at hf ⊢
        rw [cmpFGo_resplit nL nR a a' os os' _ _ i j f _ _ KL KR inv.oldL inv.oldR hp hq hpq hne
          (by rintro rfl; simp at hl1) (by rintro rfl; simp at hl2)
          (sum_small hsum.2.2.2.2.2) (sum_small (by rw [← hsum.2.2.2.2.1]; exact hsum.2.2.2.2.2))
          hsum.2.2.2.2.1 (lowerGo_head nonempty.1).1 (lowerGo_head nonempty.2).1
          (lowerGo_stops (n := n) (K := KL) nonempty.1 oldL (fun t x hx v hv => by
            have := wf' 0 t x hx v hv
            refine ⟨this.1, fun b hb => ?_⟩
            have := this.2 b hb
            simpa using this) hno')
          (lowerGo_stops (n := n) (K := KR) nonempty.2 oldR (fun t x hx v hv => by
            have := wf' 0 t x hx v hv
            refine ⟨this.1, fun b hb => ?_⟩
            have := this.2 b hb
            rw [← inv.ends]
            simpa using this) (by rw [← inv.ends]; exact hno'))]
        rw [List.append_assoc, List.append_assoc]
        have n1 : FVal.inst (i + os.length) ∉ KL := fun h => by have := inv.oldL _ h; omega
        have n2 : FVal.inst (j + os'.length) ∉ KR := fun h => by have := inv.oldR _ h; omega
        refine ih _ _ _ _ _ _ _ _ _ (inv.next (by simp) ?_ ?_ (by omega) (by omega) ?_ ?_ ?_)
          hlL' hlR' (wf' _) (good' _) (by omega)
        · intro k hk; simp at hk; omega
        · intro k hk; simp at hk; omega
        · simp
        · simp
        · rw [List.idxOf_append_of_notMem n1, List.idxOf_append_of_notMem n2, inv.len]
          have k1 : FVal.inst i ≠ FVal.inst (i + os.length) := by simp; rintro rfl; simp at hl1
          have k2 : FVal.inst j ≠ FVal.inst (j + os'.length) := by simp; rintro rfl; simp at hl2
          simp only [List.singleton_append]
          rw [List.idxOf_cons_ne _ k1, List.idxOf_cons_ne _ k2]
          simp

end DK
