import Verif.Spec.ProgInline
import Verif.Lemmas.Program

/-! Changing a function of a program without changing what it does. -/

set_option autoImplicit false

namespace DK

open Spec

variable {Mem : Type}

/-- After a call that did not return, there is no memory any more. -/
def Sticky (M : DMach (Option Mem)) : Prop := ∀ c ty vals, (M.eff c ty vals none).2 = none

/-- Machines that do the same without effects. -/
structure SamePure (M N : DMach (Option Mem)) : Prop where
  fcmp : M.fcmp = N.fcmp
  pur : M.pur = N.pur
  load : M.load = N.load

theorem evalInst_sticky {M : DMach (Option Mem)} (hM : Sticky M) (env : DEnv) (i : DInst) :
    (evalInst M env none i).2 = none := by
  unfold evalInst evalCode
  cases i.code with
  | cast k => cases k <;> rfl
  | store => exact hM _ _ _
  | call f => exact hM _ _ _
  | other k => exact hM _ _ _
  | _ => rfl

/-- The memory after a block. -/
def memAfter : DNext (Option Mem) → Option Mem
  | .done _ m => m
  | .goto _ _ m => m
  | .stuck => none

theorem execBlock_sticky {M : DMach (Option Mem)} (hM : Sticky M) : ∀ (code : List DInst) (env : DEnv),
    memAfter (execBlock M code env none) = none
  | [], _ => rfl
  | i :: is, env => by
    have ih := fun env => execBlock_sticky hM is env
    rw [execBlock.eq_def]
    simp only
    split
    · exact ih _
    · rfl
    · rfl
    · rfl
    · split <;> rfl
    · rfl
    · rw [evalInst_sticky hM]
      exact ih _

theorem runBlocks_sticky {M : DMach (Option Mem)} (hM : Sticky M) (f : DFun) : ∀ (n : Nat) (from_ : Option Nat) (b : Nat)
    (env : DEnv) (vs : List (Option Int)) (m : Option Mem), runBlocks M f n from_ b env none = some (vs, m) → m = none
  | 0, _, _, _, _, _, h => by cases h
  | n + 1, from_, b, env, vs, m, h => by
    rw [runBlocks] at h
    split at h
    · cases h
    · rename_i B _
      have hs := execBlock_sticky hM B.code (enterBlock from_ B.code env)
      split at h
      · next hx => rw [hx] at hs; cases h; exact hs
      · next b' env' mem' hx =>
        rw [hx] at hs
        replace hs : mem' = none := hs
        subst hs
        exact runBlocks_sticky hM f n _ _ _ _ _ h
      · cases h

/-- What a machine does, one of a family does, too. -/
structure Within (M : DMach (Option Mem)) (N : Nat → DMach (Option Mem)) : Prop where
  sticky : Sticky M
  pure : ∀ d, SamePure M (N d)
  mono : ∀ d d', d ≤ d' → ∀ c ty vals m v m', (N d).eff c ty vals (some m) = (v, some m') →
    (N d').eff c ty vals (some m) = (v, some m')
  eff : ∀ c ty vals m v m', M.eff c ty vals (some m) = (v, some m') → ∃ d, (N d).eff c ty vals (some m) = (v, some m')

theorem evalInst_within {M : DMach (Option Mem)} {N : Nat → DMach (Option Mem)} (h : Within M N) {env : DEnv} {m m' : Mem}
    {i : DInst} {v : Option Int} (he : evalInst M env (some m) i = (v, some m')) :
    ∃ d, ∀ d', d ≤ d' → evalInst (N d') env (some m) i = (v, some m') := by
  have pure : (∀ d', evalInst (N d') env (some m) i = evalInst M env (some m) i) →
      ∃ d, ∀ d', d ≤ d' → evalInst (N d') env (some m) i = (v, some m') :=
    fun hp => ⟨0, fun d' _ => (hp d').trans he⟩
  have eff : (M.eff i.code i.ty (dEvalOps env i.ops) (some m) = (v, some m')) →
      ∃ d, ∀ d', d ≤ d' → (N d').eff i.code i.ty (dEvalOps env i.ops) (some m) = (v, some m') := by
    intro hx
    obtain ⟨d, hd⟩ := h.eff _ _ _ _ _ _ hx
    exact ⟨d, fun d' hd' => h.mono d d' hd' _ _ _ _ _ _ hd⟩
  unfold evalInst evalCode at he pure ⊢
  cases hc : i.code with
  | bin o => rw [hc] at pure; exact pure fun d' => rfl
  | cmp p => rw [hc] at pure; exact pure fun d' => by simp only [(h.pure d').fcmp]
  | cast k => rw [hc] at pure; cases k <;> exact pure fun d' => by simp only [(h.pure d').pur]
  | load => rw [hc] at pure; exact pure fun d' => by simp only [(h.pure d').load]
  | store => rw [hc] at eff he; exact eff he
  | call f => rw [hc] at eff he; exact eff he
  | other k => rw [hc] at eff he; exact eff he
  | _ => rw [hc] at pure; exact pure fun d' => by simp only [(h.pure d').pur]

theorem execBlock_within {M : DMach (Option Mem)} {N : Nat → DMach (Option Mem)} (h : Within M N) :
    ∀ (code : List DInst) (env : DEnv) (m : Mem), memAfter (execBlock M code env (some m)) ≠ none →
      ∃ d, ∀ d', d ≤ d' → execBlock (N d') code env (some m) = execBlock M code env (some m)
  | [], _, _, hm => absurd rfl hm
  | i :: is, env, m, hm => by
    have ih := fun env m => execBlock_within h is env m
    rw [execBlock.eq_def] at hm ⊢
    simp only [execBlock.eq_def (_ : DMach (Option Mem)) (i :: is)] at hm ⊢
    split at hm
    · exact ih _ _ hm
    · exact ⟨0, fun _ _ => rfl⟩
    · exact ⟨0, fun _ _ => rfl⟩
    · exact ⟨0, fun _ _ => rfl⟩
    · exact ⟨0, fun _ _ => rfl⟩
    · exact ⟨0, fun _ _ => rfl⟩
    · cases hx : (evalInst M env (some m) i).2 with
      | none => rw [hx, execBlock_sticky h.sticky] at hm; exact absurd rfl hm
      | some m' =>
        rw [hx] at hm
        obtain ⟨d1, h1⟩ := evalInst_within h (i := i) (env := env) (m := m) (v := (evalInst M env (some m) i).1) (m' := m')
          (by rw [← hx])
        obtain ⟨d2, h2⟩ := ih _ m' hm
        refine ⟨max d1 d2, fun d' hd' => ?_⟩
        rw [h1 d' (by omega)]
        exact h2 d' (by omega)

theorem runBlocks_within {M : DMach (Option Mem)} {N : Nat → DMach (Option Mem)} (h : Within M N) (f : DFun) :
    ∀ (n : Nat) (from_ : Option Nat) (b : Nat) (env : DEnv) (m : Mem) (vs : List (Option Int)) (m' : Mem),
      runBlocks M f n from_ b env (some m) = some (vs, some m') →
      ∃ d, ∀ d', d ≤ d' → runBlocks (N d') f n from_ b env (some m) = some (vs, some m')
  | 0, _, _, _, _, _, _, hr => by cases hr
  | n + 1, from_, b, env, m, vs, m', hr => by
    simp only [runBlocks] at hr ⊢
    cases hB : f.find b with
    | none => rw [hB] at hr; cases hr
    | some B =>
      rw [hB] at hr
      simp only at hr ⊢
      have hw := execBlock_within h B.code (enterBlock from_ B.code env) m
      cases hx : execBlock M B.code (enterBlock from_ B.code env) (some m) with
      | stuck => rw [hx] at hr; cases hr
      | done vs' mem' =>
        rw [hx] at hr hw
        cases hr
        obtain ⟨d, hd⟩ := hw (by simp [memAfter])
        exact ⟨d, fun d' hd' => by rw [hd d' hd']⟩
      | goto b' env' mem' =>
        rw [hx] at hr hw
        simp only at hr
        cases mem' with
        | none => exact absurd (runBlocks_sticky h.sticky f n _ _ _ _ _ hr) (by simp)
        | some m1 =>
          obtain ⟨d1, h1⟩ := hw (by simp [memAfter])
          obtain ⟨d2, h2⟩ := runBlocks_within h f n _ _ _ _ _ _ hr
          refine ⟨max d1 d2, fun d' hd' => ?_⟩
          rw [h1 d' (by omega)]
          exact h2 d' (by omega)

theorem runFun_within {M : DMach (Option Mem)} {N : Nat → DMach (Option Mem)} (h : Within M N) {f : DFun} {n : Nat}
    {vals : List Int} {m m' : Mem} {vs : List (Option Int)} (hr : runFun M f n vals (some m) = some (vs, some m')) :
    ∃ d, ∀ d', d ≤ d' → runFun (N d') f n vals (some m) = some (vs, some m') := by
  unfold runFun at hr ⊢
  cases hb : f.blocks with
  | nil => rw [hb] at hr; cases hr
  | cons B Bs => rw [hb] at hr; exact runBlocks_within h f n _ _ _ _ _ _ hr

/-! ### Machines of programs -/

theorem callMach_sticky (P : DProg) (M : DMach Mem) (c : DFun → List Int → Mem → Option (List (Option Int) × Option Mem)) :
    Sticky (callMach P M c) := fun _ _ _ => rfl

theorem progMach_sticky (P : DProg) (M : DMach Mem) (d : Nat) : Sticky (progMach P M d) := by
  cases d <;> exact callMach_sticky _ _ _

theorem progMach_pure (P P' : DProg) (M : DMach Mem) (d d' : Nat) : SamePure (progMach P M d) (progMach P' M d') := by
  cases d <;> cases d' <;> exact ⟨rfl, rfl, rfl⟩

/-- What a machine of a program does, if it does it for calls of functions with bodies. -/
theorem callMach_eff {P P' : DProg} {M : DMach Mem}
    {c c' : DFun → List Int → Mem → Option (List (Option Int) × Option Mem)}
    (hb : ∀ f, (P' f).isNone = (P f).isNone) {code : DCode}
    (hc : ∀ f g g', code = .call f → P f = some g → P' f = some g' → ∀ args m res m',
      c g args m = some (res, some m') → c' g' args m = some (res, some m'))
    {ty : Nat} {vals : List (Nat × Option Int)} {m : Mem} {v : Option Int} {m' : Mem}
    (h : (callMach P M c).eff code ty vals (some m) = (v, some m')) :
    (callMach P' M c').eff code ty vals (some m) = (v, some m') := by
  cases code with
  | call f =>
    have hbf := hb f
    simp only [callMach] at h ⊢
    cases hl : P f with
    | none =>
      rw [hl] at hbf
      cases hr : P' f with
      | none => rw [hl] at h; exact h
      | some r => rw [hr] at hbf; cases hbf
    | some l =>
      rw [hl] at hbf
      cases hr : P' f with
      | none => rw [hr] at hbf; cases hbf
      | some r =>
        rw [hl] at h
        simp only at h ⊢
        cases ha : definedArgs vals with
        | none => rw [ha] at h; simp at h
        | some args =>
          rw [ha] at h
          simp only [Option.bind_some] at h ⊢
          cases hx : c l args m with
          | none => rw [hx] at h; simp at h
          | some y =>
            obtain ⟨res, mem'⟩ := y
            rw [hx] at h
            simp only [Prod.mk.injEq] at h
            obtain ⟨h1, h2⟩ := h
            subst h2
            rw [hc f l r rfl hl hr args m res m' hx]
            simp [h1]
  | _ => exact h

/-- More depth does not change what returns. -/
theorem progMach_step (P : DProg) (M : DMach Mem) : ∀ (d : Nat) (c : DCode) (ty : Nat) (vals : List (Nat × Option Int))
    (m : Mem) (v : Option Int) (m' : Mem), (progMach P M d).eff c ty vals (some m) = (v, some m') →
    (progMach P M (d + 1)).eff c ty vals (some m) = (v, some m')
  | 0, c, ty, vals, m, v, m', h => callMach_eff (fun _ => rfl) (by intro _ _ _ _ _ _ _ _ _ _ h; cases h) h
  | d + 1, c, ty, vals, m, v, m', h => by
    refine callMach_eff (fun _ => rfl) ?_ h
    intro f g g' _ hg hg' args mem res mem' hr
    rw [hg] at hg'
    cases hg'
    rw [callResult_iff] at hr ⊢
    obtain ⟨n, hn⟩ := hr
    have hw : Within (progMach P M d) fun _ => progMach P M (d + 1) :=
      ⟨progMach_sticky _ _ _, fun _ => progMach_pure _ _ _ _ _, fun _ _ _ _ _ _ _ _ _ h => h,
        fun c ty vals m v m' h => ⟨0, progMach_step P M d c ty vals m v m' h⟩⟩
    obtain ⟨k, hk⟩ := runFun_within hw hn
    exact ⟨n, hk k (Nat.le_refl k)⟩

theorem progMach_mono (P : DProg) (M : DMach Mem) {d d' : Nat} (hd : d ≤ d') {c : DCode} {ty : Nat}
    {vals : List (Nat × Option Int)} {m : Mem} {v : Option Int} {m' : Mem}
    (h : (progMach P M d).eff c ty vals (some m) = (v, some m')) :
    (progMach P M d').eff c ty vals (some m) = (v, some m') := by
  induction hd with
  | refl => exact h
  | step _ ih => exact progMach_step P M _ _ _ _ _ _ _ ih

/-- Programs with the same functions with bodies, where a body that returns in the first one returns in the
second one. -/
theorem progMach_within {P P' : DProg} (hb : ∀ f, (P' f).isNone = (P f).isNone) {M : DMach Mem}
    (hs : ∀ f l l', P f = some l → P' f = some l' → ∀ vals mem res, ReturnsIn P' M l vals mem res →
      ReturnsIn P' M l' vals mem res) : ∀ d, Within (progMach P M d) (progMach P' M) := by
  intro d
  refine ⟨progMach_sticky _ _ _, fun _ => progMach_pure _ _ _ _ _, fun d d' hd c ty vals m v m' h => progMach_mono P' M hd h, ?_⟩
  induction d with
  | zero =>
    intro c ty vals m v m' h
    exact ⟨0, callMach_eff hb (by intro _ _ _ _ _ _ _ _ _ _ h; cases h) h⟩
  | succ d ih =>
    intro c ty vals m v m' h
    have hw : Within (progMach P M d) (progMach P' M) :=
      ⟨progMach_sticky _ _ _, fun _ => progMach_pure _ _ _ _ _, fun d d' hd c ty vals m v m' h => progMach_mono P' M hd h, ih⟩
    cases c with
    | call f =>
      cases hl : P f with
      | none =>
        refine ⟨0, callMach_eff hb ?_ h⟩
        intro f' g g' he hg
        cases he
        rw [hl] at hg; cases hg
      | some l =>
        obtain ⟨l', hl'⟩ : ∃ l', P' f = some l' := by
          have := hb f
          rw [hl] at this
          cases hx : P' f with
          | none => rw [hx] at this; cases this
          | some l' => exact ⟨l', rfl⟩
        cases ha : definedArgs vals with
        | none => simp [progMach, callMach, hl, ha] at h
        | some args =>
          simp only [progMach, callMach, hl, ha, Option.bind_some] at h
          cases hx : callResult (progMach P M d) l args (some m) with
          | none => rw [hx] at h; simp at h
          | some y =>
            obtain ⟨res, mem'⟩ := y
            rw [hx] at h
            simp only [Prod.mk.injEq] at h
            obtain ⟨h1, h2⟩ := h
            subst h2
            obtain ⟨n, hn⟩ := (callResult_iff _ _ _ _ _).1 hx
            obtain ⟨k, hk⟩ := runFun_within hw hn
            obtain ⟨d', n', hn'⟩ := hs f l l' hl hl' args m (res, m') ⟨k, n, hk k (Nat.le_refl k)⟩
            refine ⟨d' + 1, ?_⟩
            simp only [progMach, callMach, hl', ha, Option.bind_some]
            rw [(callResult_iff _ _ _ _ _).2 ⟨n', hn'⟩]
            simp [h1]
    | _ => exact ⟨0, h⟩

theorem returns_of {P P' : DProg} (hb : ∀ f, (P' f).isNone = (P f).isNone) {M : DMach Mem}
    (hs : ∀ f l l', P f = some l → P' f = some l' → ∀ vals mem res, ReturnsIn P' M l vals mem res →
      ReturnsIn P' M l' vals mem res) {d f : Nat} {vals : List Int} {mem : Mem} {res : List (Option Int) × Mem}
    (h : ProgReturns P M d f vals mem res) : ∃ d', ProgReturns P' M d' f vals mem res := by
  obtain ⟨l, n, hl, hn⟩ := h
  obtain ⟨l', hl'⟩ : ∃ l', P' f = some l' := by
    have := hb f
    rw [hl] at this
    cases hx : P' f with
    | none => rw [hx] at this; cases this
    | some l' => exact ⟨l', rfl⟩
  obtain ⟨k, hk⟩ := runFun_within (progMach_within hb hs d) hn
  obtain ⟨d', n', hn'⟩ := hs f l l' hl hl' vals mem res ⟨k, n, hk k (Nat.le_refl k)⟩
  exact ⟨d', l', n', hl', hn'⟩

/-- A safe change keeps what all functions do. -/
theorem safeChange_same {f : Nat} {P P' : DProg} (h : SafeChange f P P') (g : Nat) : SameInPrograms P P' g := by
  have hb : ∀ g, (P' g).isNone = (P g).isNone := by
    intro g
    by_cases hg : g = f
    · subst hg; exact h.body
    · rw [h.others g hg]
  intro Mem M vals mem res
  constructor
  · rintro ⟨d, hd⟩
    refine returns_of hb ?_ hd
    intro g l l' hl hl' vals mem res hr
    by_cases hg : g = f
    · subst hg; exact (h.new l l' hl hl' _ _ _ _ _).1 hr
    · rw [h.others g hg, hl] at hl'
      cases hl'; exact hr
  · rintro ⟨d, hd⟩
    refine returns_of (fun g => (hb g).symm) ?_ hd
    intro g l' l hl' hl vals mem res hr
    by_cases hg : g = f
    · subst hg; exact (h.old l l' hl hl' _ _ _ _ _).2 hr
    · rw [h.others g hg, hl] at hl'
      cases hl'; exact hr

end DK
