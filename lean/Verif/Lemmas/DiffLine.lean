import Verif.Lemmas.DiffRelocMain
import Verif.Spec.DiffReloc

/-!
Lemmas: functions with one block compute the same when all their instructions are matched, in any order.
-/

set_option autoImplicit false

namespace DK
open Spec

/-! ### Execution of instructions without terminators -/

def runLine {Mem : Type} (M : DMach Mem) : List DInst → DEnv → Mem → DEnv × Mem
  | [], env, mem => (env, mem)
  | i :: is, env, mem => runLine M is (env.set i.id (evalInst M env mem i).1) (evalInst M env mem i).2

theorem runLine_append {Mem : Type} (M : DMach Mem) : ∀ (p q : List DInst) (env : DEnv) (mem : Mem),
    runLine M (p ++ q) env mem = runLine M q (runLine M p env mem).1 (runLine M p env mem).2
  | [], _, _, _ => rfl
  | i :: p, q, env, mem => by
    simp only [List.cons_append, runLine]
    exact runLine_append M p q _ _

theorem exec_line {Mem : Type} (M : DMach Mem) {t : DInst} (ht : t.code = .ret) : ∀ (body : List DInst) (env : DEnv)
    (mem : Mem), (∀ i ∈ body, isTerm i = false ∧ i.code ≠ .phi) →
    execBlock M (body ++ [t]) env mem =
      .done (t.ops.map (evalOp (runLine M body env mem).1)) (runLine M body env mem).2
  | [], env, mem, _ => by
    obtain ⟨id, code, ty, ops, inc⟩ := t
    simp only at ht
    subst ht
    rfl
  | i :: body, env, mem, h => by
    rw [List.cons_append, exec_step M (h i (by simp)).1 (h i (by simp)).2]
    exact exec_line M ht body _ _ fun j hj => h j (by simp [hj])

theorem run_other {Mem : Type} (M : DMach Mem) {a : Nat} : ∀ (body : List DInst) (env : DEnv) (mem : Mem),
    a ∉ idsOf body → (runLine M body env mem).1 a = env a
  | [], _, _, _ => rfl
  | i :: body, env, mem, h => by
    simp only [idsOf, List.map_cons, List.mem_cons, not_or] at h
    rw [runLine, run_other M body _ _ h.2]
    simp [DEnv.set, h.1]

theorem ops_agree {env env' : DEnv} {ops : List DOp} (h : ∀ a w, DOp.ref a w ∈ ops → env a = env' a) :
    dEvalOps env ops = dEvalOps env' ops ∧ ops.map (evalOp env) = ops.map (evalOp env') := by
  have : ∀ x ∈ ops, evalOp env x = evalOp env' x := by
    intro x hx
    cases x with
    | const w v => rfl
    | blk b => rfl
    | ref a w => exact h a w hx
  constructor
  · simp only [dEvalOps]
    exact List.map_congr_left fun x hx => by rw [this x hx]
  · exact List.map_congr_left this

/-- The value of an instruction, in terms of the values in the end. -/
theorem run_at {Mem : Type} (M : DMach Mem) {pre suf : List DInst} {i : DInst} (env : DEnv) (mem : Mem)
    (hn : i.id ∉ idsOf suf) (ho : ∀ a w, DOp.ref a w ∈ i.ops → a ≠ i.id ∧ a ∉ idsOf suf) :
    let fin := (runLine M (pre ++ i :: suf) env mem).1
    fin i.id = (evalInst M fin (runLine M pre env mem).2 i).1 ∧
    (runLine M (pre ++ [i]) env mem).2 = (evalInst M fin (runLine M pre env mem).2 i).2 := by
  intro fin
  have e : fin = (runLine M suf ((runLine M pre env mem).1.set i.id
      (evalInst M (runLine M pre env mem).1 (runLine M pre env mem).2 i).1)
      (evalInst M (runLine M pre env mem).1 (runLine M pre env mem).2 i).2).1 := by
    show (runLine M (pre ++ i :: suf) env mem).1 = _
    rw [runLine_append]
    rfl
  have hops : ∀ a w, DOp.ref a w ∈ i.ops → fin a = (runLine M pre env mem).1 a := by
    intro a w h
    rw [e, run_other M suf _ _ (ho a w h).2]
    simp [DEnv.set, (ho a w h).1]
  have hv : evalInst M fin (runLine M pre env mem).2 i =
      evalInst M (runLine M pre env mem).1 (runLine M pre env mem).2 i := by
    unfold evalInst
    rw [(ops_agree hops).1]
  rw [hv]
  constructor
  · rw [e, run_other M suf _ _ hn]
    simp [DEnv.set]
  · rw [runLine_append]
    rfl

theorem quiet_mem {Mem : Type} (M : DMach Mem) {c : DCode} (h : writesMem ⟨0, c, 0, [], []⟩ = false) (ty : Nat)
    (vals : List (Nat × Option Int)) (mem : Mem) : (evalCode M c ty vals mem).2 = mem := by
  cases c with
  | cast k => cases k <;> rfl
  | store => simp [writesMem] at h
  | call f => simp [writesMem] at h
  | other k => simp [writesMem] at h
  | _ => rfl

theorem quiet_val {Mem : Type} (M : DMach Mem) {c : DCode} (h : usesMem ⟨0, c, 0, [], []⟩ = false) (ty : Nat)
    (vals : List (Nat × Option Int)) (mem mem' : Mem) : (evalCode M c ty vals mem).1 = (evalCode M c ty vals mem').1 := by
  cases c with
  | cast k => cases k <;> rfl
  | store => simp [usesMem, writesMem] at h
  | call f => simp [usesMem, writesMem] at h
  | other k => simp [usesMem, writesMem] at h
  | load => simp [usesMem, writesMem] at h
  | _ => rfl

theorem writes_code (i : DInst) : writesMem i = writesMem ⟨0, i.code, 0, [], []⟩ := rfl
theorem uses_code (i : DInst) : usesMem i = usesMem ⟨0, i.code, 0, [], []⟩ := rfl

theorem run_quiet {Mem : Type} (M : DMach Mem) : ∀ (body : List DInst) (env : DEnv) (mem : Mem),
    (∀ i ∈ body, writesMem i = false) → (runLine M body env mem).2 = mem
  | [], _, _, _ => rfl
  | i :: body, env, mem, h => by
    rw [runLine, run_quiet M body _ _ fun j hj => h j (by simp [hj])]
    exact quiet_mem M (writes_code i ▸ h i (by simp)) _ _ _

/-! ### Functions with one block -/

/-- A function with one block that returns, its code without the last instruction, and its last
instruction. -/
structure LineOf (f : DFun) (b : Nat) (body : List DInst) (t : DInst) : Prop extends Line f where
  blocks : f.blocks = [⟨b, body ++ [t]⟩]
  all : f.all = body ++ [t]
  ret : t.code = .ret
  body : ∀ i ∈ body, isTerm i = false ∧ i.code ≠ .phi
  args : (f.args.map Prod.fst).Nodup
  calm : Calm f

theorem line_uses {f : DFun} {b : Nat} {body : List DInst} {t : DInst} (F : LineOf f b body t) {pre suf : List DInst}
    {i : DInst} (e : body = pre ++ i :: suf) :
    i.id ∉ idsOf suf ∧ (∀ a w, DOp.ref a w ∈ i.ops → a ≠ i.id ∧ a ∉ idsOf suf) ∧
    ∀ a w, DOp.ref a w ∈ i.ops → a ∈ f.args.map Prod.fst ∨ a ∈ idsOf pre := by
  have hall : f.all = pre ++ i :: (suf ++ [t]) := by rw [F.all, e]; simp
  have hs := ids_split F.toLine hall
  have hd := F.dom pre i _ hall
  refine ⟨?_, fun a w h => ?_, hd⟩
  · intro hm
    obtain ⟨j, hj, e⟩ := List.mem_map.mp hm
    exact hs.2 j (by simp [hj]) e
  · have hn := F.nodup
    rw [hall, idsOf, List.map_append, List.nodup_append] at hn
    rcases hd a w h with h | h
    · constructor
      · intro e
        exact F.sep i (by rw [hall]; simp) (e ▸ h)
      · intro hm
        obtain ⟨j, hj, e⟩ := List.mem_map.mp hm
        exact F.sep j (by rw [hall]; simp [hj]) (e ▸ h)
    · constructor
      · intro e
        exact hn.2.2 a h i.id (by simp) e
      · intro hm
        exact hn.2.2 a h a (by simp only [List.map_cons, List.map_append, List.mem_cons, List.mem_append]; exact .inr (.inl hm)) rfl

/-- Every instruction computes its value from the memory in the beginning. -/
theorem line_val {Mem : Type} (M : DMach Mem) {f : DFun} {b : Nat} {body : List DInst} {t : DInst}
    (F : LineOf f b body t) {i : DInst} (hi : i ∈ body) (env : DEnv) (mem : Mem) :
    let fin := (runLine M body env mem).1
    fin i.id = (evalInst M fin mem i).1 := by
  intro fin
  obtain ⟨pre, suf, e⟩ := List.append_of_mem hi
  obtain ⟨h1, h2, _⟩ := line_uses F e
  have h := (run_at M (pre := pre) env mem h1 h2).1
  rw [← e] at h
  refine h.trans ?_
  by_cases hu : usesMem i = true
  · rw [run_quiet M pre env mem (F.calm pre i (suf ++ [t]) (by rw [F.all, e]; simp) hu)]
  · rw [Bool.not_eq_true] at hu
    exact quiet_val M (uses_code i ▸ hu) _ _ _ _

/-- The memory in the end is the one in the beginning, or an instruction changed it. -/
theorem line_mem {Mem : Type} (M : DMach Mem) {f : DFun} {b : Nat} {body : List DInst} {t : DInst}
    (F : LineOf f b body t) (env : DEnv) (mem : Mem) :
    ((∀ i ∈ body, writesMem i = false) → (runLine M body env mem).2 = mem) ∧
    ∀ i ∈ body, writesMem i = true →
      (runLine M body env mem).2 = (evalInst M (runLine M body env mem).1 mem i).2 := by
  refine ⟨run_quiet M body env mem, fun i hi hw => ?_⟩
  obtain ⟨pre, suf, e⟩ := List.append_of_mem hi
  obtain ⟨h1, h2, _⟩ := line_uses F e
  have h := (run_at M (pre := pre) env mem h1 h2).2
  rw [← e] at h
  have hu : usesMem i = true := by simp [usesMem, hw]
  rw [run_quiet M pre env mem (F.calm pre i (suf ++ [t]) (by rw [F.all, e]; simp) hu)] at h
  rw [← h]
  conv_lhs => rw [show body = (pre ++ [i]) ++ suf by simp [e], runLine_append]
  refine run_quiet M suf _ _ fun j hj => ?_
  cases hc : writesMem j with
  | false => rfl
  | true =>
    obtain ⟨p', s', e'⟩ := List.append_of_mem hj
    have := F.calm (pre ++ i :: p') j (s' ++ [t]) (by rw [F.all, e, e']; simp) (by simp [usesMem, hc]) i (by simp)
    rw [hw] at this
    cases this

theorem body_of {f : DFun} {b : Nat} {body : List DInst} {t : DInst} (F : LineOf f b body t) {j : DInst}
    (hj : j ∈ f.all) (hc : j.code ≠ .ret) : j ∈ body := by
  rw [F.all] at hj
  rcases List.mem_append.mp hj with h | h
  · exact h
  · rw [List.mem_singleton.mp h] at hc
    exact absurd F.ret hc

theorem term_code {i : DInst} (h : isTerm i = false) : i.code ≠ .ret := by
  intro e
  simp [isTerm, e] at h

theorem inst_unique {f : DFun} (F : Line f) {i j : DInst} (hi : i ∈ f.all) (hj : j ∈ f.all) (h : i.id = j.id) : i = j := by
  have h1 := find_id F.nodup hi
  have h2 := find_id F.nodup hj
  rw [h, h2] at h1
  exact (Option.some.inj h1).symm

section
variable {Mem : Type} (M : DMach Mem) {l r : DFun} {b c : Nat} {lb rb : List DInst} {lt rt : DInst}
  (L : LineOf l b lb lt) (R : LineOf r c rb rt) {ks : List (DKey × DKey)} (C : ClosedK l r ks) (vals : List Int) (mem : Mem)
include L R C

/-- Matched values are equal. -/
theorem val_matched : ∀ (n : Nat) (pre : List DInst) (i : DInst) (suf : List DInst), pre.length = n →
    l.all = pre ++ i :: suf → ∀ (ops : List DOp), List.Forall₂ (OpEq ks) i.ops ops →
    List.Forall₂ (fun x y => x.ty = y.ty ∧ evalOp (runLine M lb (argEnv l vals) mem).1 x =
      evalOp (runLine M rb (argEnv r vals) mem).1 y) i.ops ops := by
  intro n
  induction n using Nat.strongRecOn with
  | ind n ih =>
    intro pre i suf hn hall ops hops
    have step : ∀ x y, x ∈ i.ops → OpEq ks x y → x.ty = y.ty ∧ evalOp (runLine M lb (argEnv l vals) mem).1 x =
      evalOp (runLine M rb (argEnv r vals) mem).1 y := by
      intro x y hx h
      cases h with
      | const w v => exact ⟨rfl, rfl⟩
      | ref a a' w hm =>
        refine ⟨rfl, ?_⟩
        show (runLine M lb _ mem).1 a = (runLine M rb _ mem).1 a'
        rcases C _ _ hm with ⟨x, y, e, _⟩ | ⟨p, q, e1, e2, k, h1, h2⟩ | ⟨i', hi', j', hj', e1, e2, hc, ht, ho⟩
        · cases e
        · injection e1 with e1
          injection e2 with e2
          subst e1 e2
          have o1 : a ∉ idsOf lb := by
            intro h
            obtain ⟨z, hz, e⟩ := List.mem_map.mp h
            exact L.sep z (by rw [L.all]; simp [hz]) (e ▸ List.mem_of_getElem? h1)
          have o2 : a' ∉ idsOf rb := by
            intro h
            obtain ⟨z, hz, e⟩ := List.mem_map.mp h
            exact R.sep z (by rw [R.all]; simp [hz]) (e ▸ List.mem_of_getElem? h2)
          rw [run_other M lb _ _ o1, run_other M rb _ _ o2]
          simp only [argEnv, lookup_zip L.args vals h1, lookup_zip R.args vals h2]
        · injection e1 with e1
          injection e2 with e2
          subst e1 e2
          rcases L.dom pre i suf hall _ w hx with h | h
          · exact absurd h (L.sep i' hi')
          · obtain ⟨z, hz, e⟩ := List.mem_map.mp h
            have : z = i' := inst_unique L.toLine (by rw [hall]; simp [hz]) hi' e
            subst this
            obtain ⟨p', s', ep⟩ := List.append_of_mem hz
            have hall' : l.all = p' ++ z :: (s' ++ i :: suf) := by rw [hall, ep]; simp
            have hv := ih p'.length (by rw [← hn, ep]; simp) p' z _ rfl hall' _ ho
            have hz' : z ∈ lb := by
              have hd : lb ++ [lt] = p' ++ z :: (s' ++ i :: suf) := by rw [← L.all]; exact hall'
              have : (lb ++ [lt]).dropLast = (p' ++ z :: (s' ++ i :: suf)).dropLast := by rw [hd]
              rw [List.dropLast_concat, List.dropLast_append_of_ne_nil (by simp)] at this
              rw [this]
              simp [List.dropLast_cons_of_ne_nil]
            have hj : j' ∈ rb := body_of R hj' (by rw [← hc]; exact term_code (L.body z hz').1)
            have v1 := line_val M L hz' (argEnv l vals) mem
            have v2 := line_val M R hj (argEnv r vals) mem
            simp only at v1 v2
            rw [v1, v2]
            unfold evalInst
            have : dEvalOps (runLine M lb (argEnv l vals) mem).1 z.ops = dEvalOps (runLine M rb (argEnv r vals) mem).1 j'.ops := by
              generalize z.ops = xs at hv
              generalize j'.ops = ys at hv
              induction hv with
              | nil => rfl
              | cons h _ ih => simp only [dEvalOps, List.map_cons] at ih ⊢; rw [h.1, h.2, ih]
            rw [this, hc, ht]
    generalize i.ops = xs at hops step
    induction hops with
    | nil => exact .nil
    | @cons x y xs ys h _ ih2 => exact .cons (step x y (by simp) h) (ih2 fun u v hu => step u v (by simp [hu]))

theorem vals_matched {i j : DInst} (hi : i ∈ l.all) (ho : List.Forall₂ (OpEq ks) i.ops j.ops) :
    dEvalOps (runLine M lb (argEnv l vals) mem).1 i.ops = dEvalOps (runLine M rb (argEnv r vals) mem).1 j.ops ∧
    i.ops.map (evalOp (runLine M lb (argEnv l vals) mem).1) = j.ops.map (evalOp (runLine M rb (argEnv r vals) mem).1) := by
  obtain ⟨pre, suf, e⟩ := List.append_of_mem hi
  have hv := val_matched M L R C vals mem _ pre i suf rfl e j.ops ho
  generalize i.ops = xs at hv
  generalize j.ops = ys at hv
  induction hv with
  | nil => exact ⟨rfl, rfl⟩
  | cons h _ ih =>
    constructor
    · have := ih.1; simp only [dEvalOps, List.map_cons] at this ⊢; rw [h.1, h.2, this]
    · simp only [List.map_cons]; rw [h.2, ih.2]

/-- Functions whose instructions are all matched return the same, with the same memory. -/
theorem line_same (dl : DoneK (ks.map Prod.fst) l.all) (dr : DoneK (ks.map Prod.snd) r.all) (n : Nat) :
    runFun M l n vals mem = runFun M r n vals mem := by
  have hlt : lt ∈ l.all := by rw [L.all]; simp
  have hrt : rt ∈ r.all := by rw [R.all]; simp
  have pairL : ∀ i ∈ l.all, ∃ j ∈ r.all, i.code = j.code ∧ i.ty = j.ty ∧ List.Forall₂ (OpEq ks) i.ops j.ops := by
    intro i hi
    obtain ⟨k', hk⟩ := mem_fst (dl i hi)
    rcases C _ _ hk with ⟨x, y, e, _⟩ | ⟨p, q, e1, e2, k, h1, h2⟩ | ⟨i', hi', j', hj', e1, e2, hc, ht, ho⟩
    · cases e
    · injection e1 with e1
      exact absurd (List.mem_of_getElem? (e1 ▸ h1)) (L.sep i hi)
    · injection e1 with e1
      have := inst_unique L.toLine hi hi' e1
      subst this
      exact ⟨j', hj', hc, ht, ho⟩
  have pairR : ∀ j ∈ r.all, ∃ i ∈ l.all, i.code = j.code := by
    intro j hj
    obtain ⟨k', hk⟩ := mem_snd (dr j hj)
    rcases C _ _ hk with ⟨x, y, _, e⟩ | ⟨p, q, e1, e2, k, h1, h2⟩ | ⟨i', hi', j', hj', e1, e2, hc, ht, ho⟩
    · cases e
    · injection e2 with e2
      exact absurd (List.mem_of_getElem? (e2 ▸ h2)) (R.sep j hj)
    · injection e2 with e2
      have := inst_unique R.toLine hj hj' e2
      subst this
      exact ⟨i', hi', hc⟩
  have hret : lt.ops.map (evalOp (runLine M lb (argEnv l vals) mem).1) =
      rt.ops.map (evalOp (runLine M rb (argEnv r vals) mem).1) := by
    obtain ⟨j, hj, hc, _, ho⟩ := pairL lt hlt
    have : j = rt := by
      rw [R.all] at hj
      rcases List.mem_append.mp hj with h | h
      · exact absurd (hc.symm.trans L.ret) (term_code (R.body j h).1)
      · exact List.mem_singleton.mp h
    subst this
    exact (vals_matched M L R C vals mem hlt ho).2
  have hmem : (runLine M lb (argEnv l vals) mem).2 = (runLine M rb (argEnv r vals) mem).2 := by
    obtain ⟨q1, w1⟩ := line_mem M L (argEnv l vals) mem
    obtain ⟨q2, w2⟩ := line_mem M R (argEnv r vals) mem
    by_cases h : ∃ i ∈ lb, writesMem i = true
    · obtain ⟨i, hi, hw⟩ := h
      have hil : i ∈ l.all := by rw [L.all]; simp [hi]
      obtain ⟨j, hj, hc, ht, ho⟩ := pairL i hil
      have hj' : j ∈ rb := body_of R hj (by rw [← hc]; exact term_code (L.body i hi).1)
      have hw' : writesMem j = true := by rw [writes_code, ← hc]; exact hw
      rw [w1 i hi hw, w2 j hj' hw']
      unfold evalInst
      rw [(vals_matched M L R C vals mem hil ho).1, hc, ht]
    · have h' : ∀ i ∈ lb, writesMem i = false := fun i hi => by
        cases hw : writesMem i with
        | false => rfl
        | true => exact absurd ⟨i, hi, hw⟩ h
      rw [q1 h', q2]
      intro j hj
      obtain ⟨i, hi, hc⟩ := pairR j (by rw [R.all]; simp [hj])
      have hib : i ∈ lb := body_of L hi (by rw [hc]; exact term_code (R.body j hj).1)
      rw [writes_code, ← hc]
      exact h' i hib
  have run : ∀ {f : DFun} {b : Nat} {body : List DInst} {t : DInst} (F : LineOf f b body t) (n : Nat),
      runFun M f (n + 1) vals mem = some (t.ops.map (evalOp (runLine M body (argEnv f vals) mem).1),
        (runLine M body (argEnv f vals) mem).2) := by
    intro f b body t F n
    have henter : enterBlock none (body ++ [t]) (argEnv f vals) = argEnv f vals := by
      funext a
      unfold enterBlock
      have : (body ++ [t]).find? (fun i => i.id == a && decide (i.code = .phi)) = none := by
        rw [List.find?_eq_none]
        intro i hi
        rw [← F.all] at hi
        simp [(F.plain i hi).1]
      rw [this]
    simp only [runFun, F.blocks, runBlocks, DFun.find]
    simp only [List.find?_cons, beq_self_eq_true, henter]
    rw [exec_line M F.ret body _ _ F.body]
  cases n with
  | zero => simp only [runFun, L.blocks, R.blocks, runBlocks]
  | succ n => rw [run L n, run R n, hret, hmem]

end

end DK
