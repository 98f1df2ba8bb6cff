import Verif.Lemmas.ProgChange

/-! Lemmas about the comparison of programs with inlining. -/

set_option autoImplicit false

namespace DK

open Spec

/-! ### The log grows -/

section
variable {W C : Type}

def LogGrows (rec : Pair → MSt W C → Except Stop (MSt W C)) : Prop :=
  ∀ p st st', rec p st = .ok st' → ∀ x ∈ st.log, x ∈ st'.log

theorem runCmp_log {rec : Pair → MSt W C → Except Stop (MSt W C)} (hr : LogGrows rec) (p : Pair) :
    ∀ (run : Run W C) (cs : List Pair) (st st' : MSt W C) (eq : Bool),
      runCmp rec p run cs st = .ok (eq, st') → ∀ x ∈ st.log, x ∈ st'.log := by
  intro run
  induction run with
  | done eq w =>
    intro cs st st' eq' h x hx
    rw [runCmp] at h
    cases h
    exact List.mem_cons_of_mem _ hx
  | inline l r k ih =>
    intro cs st st' eq h
    rw [runCmp] at h
    exact ih cs { st with tryInline := (l, r) } st' eq h
  | callee l r w k ih =>
    intro cs st st' eq h x hx
    rw [runCmp] at h
    cases hp0 : st.results p with
    | none => rw [hp0] at h; cases h
    | some y =>
      rw [hp0] at h
      simp only at h
      cases hq0 : st.results (l, r) with
      | some y => rw [hq0] at h; exact ih w _ _ _ _ h x hx
      | none =>
        rw [hq0] at h
        simp only at h
        cases h1 : rec (l, r) { st with w := w } with
        | error s => rw [h1] at h; cases h
        | ok st1 =>
          rw [h1] at h
          exact ih _ _ _ _ _ h x (hr _ _ _ h1 x hx)

theorem runFull_log {e : Engine W C} {rec : Pair → MSt W C → Except Stop (MSt W C)} (hr : LogGrows rec) {p : Pair}
    {st st' : MSt W C} {eq : Bool} (h : runFull e rec p st = .ok (eq, st')) : ∀ x ∈ st.log, x ∈ st'.log := by
  unfold runFull at h
  cases hc : runCmp rec p (e.cmp st.w p) [] st with
  | error s => rw [hc] at h; cases h
  | ok y =>
    obtain ⟨eq', st2⟩ := y
    rw [hc] at h
    simp only at h
    cases h2 : st2.results p with
    | none => rw [h2] at h; cases h
    | some v =>
      rw [h2] at h
      cases h
      exact runCmp_log hr p _ _ _ _ _ hc

theorem dropAll_log {p : Pair} : ∀ (qs : List (Option Nat × Option Nat)) (st : MSt W C),
    ∀ x ∈ st.log, x ∈ (dropAll p qs st).log
  | [], st, x, hx => hx
  | (some l, some r) :: qs, st, x, hx => by
    rw [dropAll]
    exact dropAll_log qs _ x (List.mem_cons_of_mem _ hx)
  | (none, _) :: qs, st, x, hx => by
    rw [dropAll]
    · exact dropAll_log qs st x hx
    · simp
  | (some _, none) :: qs, st, x, hx => by
    rw [dropAll]
    · exact dropAll_log qs st x hx
    · simp

theorem putKind_log {p : Pair} {v : Verd} {st st' : MSt W C} (h : putKind p v st = .ok st') : st'.log = st.log := by
  obtain ⟨_, rfl⟩ := putKind_ok h
  rfl

theorem rounds_log {e : Engine W C} {rec : Pair → MSt W C → Except Stop (MSt W C)} (hr : LogGrows rec) {p : Pair} :
    ∀ (n : Nat) (inl : List (Option Nat × Option Nat)) (st st' : MSt W C), rounds e rec p n inl st = .ok st' →
      ∀ x ∈ st.log, x ∈ st'.log
  | 0, inl, st, st', h => by rw [rounds] at h; cases h
  | n + 1, inl, st, st', h => by
    intro x hx
    rw [rounds] at h
    split at h
    · cases h; exact hx
    · simp only at h
      split at h
      · cases h; exact hx
      · cases hk : putKind p .unknown _ with
        | error s => rw [hk] at h; cases h
        | ok st1 =>
          rw [hk] at h
          simp only at h
          have hx1 : x ∈ st1.log := by rw [putKind_log hk]; exact List.mem_cons_of_mem _ hx
          cases hf : runFull e rec p st1 with
          | error s => rw [hf] at h; cases h
          | ok y =>
            obtain ⟨eq, st2⟩ := y
            rw [hf] at h
            have hx2 := runFull_log hr hf x hx1
            cases eq with
            | true =>
              simp only at h
              cases hk2 : putKind p .equal _ with
              | error s => rw [hk2] at h; cases h
              | ok st4 =>
                rw [hk2] at h
                exact rounds_log hr n _ _ _ h x (by rw [putKind_log hk2]; exact dropAll_log _ _ x hx2)
            | false =>
              simp only at h
              cases hk2 : putKind p .notEqual st2 with
              | error s => rw [hk2] at h; cases h
              | ok st4 =>
                rw [hk2] at h
                exact rounds_log hr n _ _ _ h x (by rw [putKind_log hk2]; exact hx2)

theorem compareFunctions_log (e : Engine W C) : ∀ n, LogGrows (compareFunctions e n)
  | 0 => by intro p st st' h; rw [compareFunctions] at h; cases h
  | n + 1 => by
    intro p st st' h x hx
    have hrec := compareFunctions_log e n
    rw [compareFunctions] at h
    have hel : (emplace p st).log = st.log := by unfold emplace; cases st.results p <;> rfl
    rw [← hel] at hx
    simp only at h
    generalize emplace p st = st0 at *
    split at h
    · rw [putKind_log h]; exact hx
    · split at h
      · cases hk : putKind p (declVerdict e.controlFlowOnly (e.info true p.1) (e.info false p.2) p).1 st0 with
        | error s => rw [hk] at h; cases h
        | ok st1 =>
          rw [hk] at h
          cases h
          show x ∈ st1.log
          rw [putKind_log hk]; exact hx
      · cases hf : runFull e (compareFunctions e n) p st0 with
        | error s => rw [hf] at h; cases h
        | ok y =>
          obtain ⟨eq, st1⟩ := y
          rw [hf] at h
          have hx1 := runFull_log hrec hf x hx
          cases eq with
          | true => simp only at h; rw [putKind_log h]; exact hx1
          | false =>
            simp only at h
            cases hk : putKind p .notEqual st1 with
            | error s => rw [hk] at h; cases h
            | ok st2 =>
              rw [hk] at h
              exact rounds_log hrec n _ _ _ h x (by rw [putKind_log hk]; exact hx1)

end

theorem nothingDropped_mono {l l' : List Ev} (h : NothingDropped l') (hl : ∀ x ∈ l, x ∈ l') : NothingDropped l :=
  fun f hf => h f (by obtain ⟨p, hp⟩ := hf; exact ⟨p, hl _ hp⟩)

/-! ### Changes of programs -/

theorem sameIn_trans {P Q R : DProg} {f : Nat} (h : SameInPrograms P Q f) (h' : SameInPrograms Q R f) :
    SameInPrograms P R f :=
  fun Mem M vals mem res => (h Mem M vals mem res).trans (h' Mem M vals mem res)

theorem sameIn_symm {P Q : DProg} {f : Nat} (h : SameInPrograms P Q f) : SameInPrograms Q P f :=
  fun Mem M vals mem res => (h Mem M vals mem res).symm

theorem sameIn_refl (P : DProg) (f : Nat) : SameInPrograms P P f := fun _ _ _ _ _ => Iff.rfl

/-- Changes of one function of a program that keep what all functions do. -/
structure KeepsAll (f : Nat) (P P' : DProg) : Prop where
  others : ∀ g, g ≠ f → P' g = P g
  body : (P' f).isNone = (P f).isNone
  same : ∀ g, SameInPrograms P P' g

theorem KeepsAll.refl (f : Nat) (P : DProg) : KeepsAll f P P := ⟨fun _ _ => rfl, rfl, sameIn_refl P⟩

theorem KeepsAll.trans {f : Nat} {P Q R : DProg} (h : KeepsAll f P Q) (h' : KeepsAll f Q R) : KeepsAll f P R :=
  ⟨fun g hg => (h'.others g hg).trans (h.others g hg), h'.body.trans h.body, fun g => sameIn_trans (h.same g) (h'.same g)⟩

theorem KeepsAll.bodies {f : Nat} {P Q : DProg} (h : KeepsAll f P Q) (g : Nat) : (Q g).isNone = (P g).isNone := by
  by_cases hg : g = f
  · subst hg; exact h.body
  · rw [h.others g hg]

theorem kept_of {f : Nat} {P Q : DProg} (h : SafeChange f P Q) : KeepsAll f P Q := ⟨h.others, h.body, safeChange_same h⟩

/-- A safe change of a function in both programs. -/
structure StChange (f : Nat) (w w' : ProgSt) : Prop where
  L : KeepsAll f w.L w'.L
  R : KeepsAll f w.R w'.R

theorem StChange.refl (f : Nat) (w : ProgSt) : StChange f w w := ⟨.refl _ _, .refl _ _⟩

theorem StChange.trans {f : Nat} {a b c : ProgSt} (h : StChange f a b) (h' : StChange f b c) :
    StChange f a c := ⟨h.L.trans h'.L, h.R.trans h'.R⟩

variable {C : Type} {cfg : DCfg} {steps : Nat} {diff : ProgSt → Pair → List Nat × Option C × Option C}
  {names : Nat → Str} {I : Inliner C} {PL PR : DProg}

theorem tryToInline_change (hI : SafeInliner I) (w : ProgSt) (side : Bool) (f : Nat) (c : Option C)
    (hc : ∀ x, c = some x → I.has (w.get side) f x = true) :
    StChange f w (tryToInline (inlineEngine cfg steps diff names I PL PR) w side c).2 ∧
      (∀ o, o ≠ side → (tryToInline (inlineEngine cfg steps diff names I PL PR) w side c).2.get o = w.get o) := by
  unfold tryToInline
  cases c with
  | none => exact ⟨.refl _ _, fun _ _ => rfl⟩
  | some x =>
    simp only
    split
    · exact ⟨.refl _ _, fun _ _ => rfl⟩
    · split
      · exact ⟨.refl _ _, fun _ _ => rfl⟩
      · split
        · exact ⟨.refl _ _, fun _ _ => rfl⟩
        · cases hi : I.inline (w.get side) x with
          | none =>
            have : (inlineEngine cfg steps diff names I PL PR).inlineCall w side x = none := by
              simp [inlineEngine, hi]
            rw [this]
            exact ⟨.refl _ _, fun _ _ => rfl⟩
          | some P =>
            have : (inlineEngine cfg steps diff names I PL PR).inlineCall w side x = some (w.put side P) := by
              simp [inlineEngine, hi]
            rw [this]
            have hs := kept_of (hI.inline _ f x P (hc x rfl) hi)
            cases side with
            | true =>
              refine ⟨⟨hs, .refl _ _⟩, ?_⟩
              intro o ho
              cases o with
              | true => exact absurd rfl ho
              | false => rfl
            | false =>
              refine ⟨⟨.refl _ _, hs⟩, ?_⟩
              intro o ho
              cases o with
              | true => rfl
              | false => exact absurd rfl ho

theorem simplify_change (hI : SafeInliner I) (w : ProgSt) (side : Bool) (f : Nat) :
    StChange f w ((inlineEngine cfg steps diff names I PL PR).simplify w side f) := by
  cases side with
  | true => exact ⟨kept_of (hI.simplify _ f), .refl _ _⟩
  | false => exact ⟨.refl _ _, kept_of (hI.simplify _ f)⟩

theorem findCall_has {w : ProgSt} {side : Bool} {f : Nat} {c : Option C} :
    ∀ x, findCall (inlineEngine cfg steps diff names I PL PR) w side f c = some x → I.has (w.get side) f x = true := by
  intro x hx
  unfold findCall at hx
  cases c with
  | none => cases hx
  | some y =>
    simp only at hx
    split at hx
    · next h => cases hx; exact h
    · cases hx

/-! ### The invariant -/

/-- A run that found no difference compared the present bodies and met all called functions. -/
def RanIn (cfg : DCfg) (steps : Nat) (L R : Option DFun) (cs : List Pair) : Prop :=
  ∃ l r sw, L = some l ∧ R = some r ∧ compareD cfg steps l r [] = some (true, sw) ∧ ∀ g ∈ l.calls, (g, g) ∈ cs

/-- The invariant; the functions of `X` are being changed. -/
structure InlInv (cfg : DCfg) (steps : Nat) (PL PR : DProg) (X : Nat → Prop) (st : MSt ProgSt C) : Prop where
  ran : ∀ g cs, ¬ X g → lastRun (g, g) st.log = some (true, cs) → RanIn cfg steps (st.w.L g) (st.w.R g) cs
  recd : ∀ g r, lastRun (g, g) st.log = some r → st.results (g, g) ≠ none
  miss : ∀ f, st.results (f, f) = some .assumedEqual → (PL f).isNone ≠ (PR f).isNone → st.missing ≠ []
  declL : ∀ f, (st.w.L f).isNone = (PL f).isNone
  declR : ∀ f, (st.w.R f).isNone = (PR f).isNone
  sameL : ∀ g, SameInPrograms PL st.w.L g
  sameR : ∀ g, SameInPrograms PR st.w.R g

theorem InlInv.weaken {X Y : Nat → Prop} {st : MSt ProgSt C} (h : InlInv cfg steps PL PR X st)
    (hxy : ∀ g, X g → Y g) : InlInv cfg steps PL PR Y st :=
  ⟨fun g cs hg => h.ran g cs fun hx => hg (hxy g hx), h.recd, h.miss, h.declL, h.declR, h.sameL, h.sameR⟩

/-- What stays: results, bodies of recorded functions not in `X`, last runs of those not in `Y`. -/
structure Stays (X Y : Nat → Prop) (st st' : MSt ProgSt C) : Prop where
  res : ∀ g, st.results (g, g) ≠ none → st'.results (g, g) ≠ none
  bodies : ∀ g, ¬ X g → st.results (g, g) ≠ none → st'.w.L g = st.w.L g ∧ st'.w.R g = st.w.R g
  runs : ∀ g, ¬ Y g → st.results (g, g) ≠ none → lastRun (g, g) st'.log = lastRun (g, g) st.log

theorem Stays.refl (X Y : Nat → Prop) (st : MSt ProgSt C) : Stays X Y st st :=
  ⟨fun _ h => h, fun _ _ _ => ⟨rfl, rfl⟩, fun _ _ _ => rfl⟩

theorem Stays.trans {X Y : Nat → Prop} {a b c : MSt ProgSt C} (h : Stays X Y a b) (h' : Stays X Y b c) :
    Stays X Y a c := by
  refine ⟨fun g hg => h'.res g (h.res g hg), ?_, ?_⟩
  · intro g hx hg
    obtain ⟨h1, h2⟩ := h.bodies g hx hg
    obtain ⟨h3, h4⟩ := h'.bodies g hx (h.res g hg)
    exact ⟨h3.trans h1, h4.trans h2⟩
  · intro g hy hg
    exact (h'.runs g hy (h.res g hg)).trans (h.runs g hy hg)

theorem Stays.weaken {X Y X' Y' : Nat → Prop} {a b : MSt ProgSt C} (h : Stays X Y a b) (hx : ∀ g, X g → X' g)
    (hy : ∀ g, Y g → Y' g) : Stays X' Y' a b :=
  ⟨h.res, fun g hg => h.bodies g fun h => hg (hx g h), fun g hg => h.runs g fun h => hg (hy g h)⟩

def InlRec (cfg : DCfg) (steps : Nat) (PL PR : DProg)
    (rec : Pair → MSt ProgSt C → Except Stop (MSt ProgSt C)) : Prop :=
  ∀ f X st st', InlInv cfg steps PL PR X st → st.results (f, f) = none → rec (f, f) st = .ok st' →
    NothingDropped st'.log →
    InlInv cfg steps PL PR X st' ∧ Stays (fun _ => False) (fun _ => False) st st' ∧ st'.results (f, f) ≠ none

theorem runCmp_done_inl {rec : Pair → MSt ProgSt C → Except Stop (MSt ProgSt C)} {f : Nat} {eq : Bool} {X : Nat → Prop}
    {cs : List Pair} {st st' : MSt ProgSt C} {eq' : Bool}
    (hi : InlInv cfg steps PL PR (fun g => X g ∨ g = f) st) (hp : st.results (f, f) ≠ none)
    (hd : eq = true → RanIn cfg steps (st.w.L f) (st.w.R f) cs)
    (h : runCmp rec (f, f) (.done eq st.w) cs st = .ok (eq', st')) :
    InlInv cfg steps PL PR X st' ∧ Stays (fun _ => False) (fun g => g = f) st st' ∧
      ∃ cs, lastRun (f, f) st'.log = some (eq', cs) := by
  rw [runCmp] at h
  cases h
  have hne : ∀ g, g ≠ f → lastRun (g, g) (.ran (f, f) eq cs :: st.log) = lastRun (g, g) st.log := by
    intro g hg
    rw [lastRun, if_neg (by simpa using fun h => hg h.symm)]
  have hself : lastRun (f, f) (.ran (f, f) eq cs :: st.log) = some (eq, cs) := by rw [lastRun, if_pos rfl]
  refine ⟨⟨?_, ?_, hi.miss, hi.declL, hi.declR, hi.sameL, hi.sameR⟩, ⟨fun _ h => h, fun _ _ _ => ⟨rfl, rfl⟩, ?_⟩, cs,
    hself⟩
  · intro g cs' hg hl
    by_cases hgf : g = f
    · subst hgf
      replace hl := hself.symm.trans hl
      cases hl
      exact hd rfl
    · exact hi.ran g cs' (fun h => h.elim hg hgf) ((hne g hgf).symm.trans hl)
  · intro g r hl
    by_cases hgf : g = f
    · subst hgf; exact hp
    · exact hi.recd g r ((hne g hgf).symm.trans hl)
  · intro g hg _
    exact hne g hg

theorem runCmp_inline {rec : Pair → MSt ProgSt C → Except Stop (MSt ProgSt C)} (hrec : InlRec cfg steps PL PR rec)
    (hlog : LogGrows rec) {f : Nat} {eq : Bool} {X : Nat → Prop} {k : ProgSt → Run ProgSt C} {Lf Rf : Option DFun}
    (hk : ∀ w, k w = .done eq w ∨ ∃ a b, k w = .inline a b (.done eq w)) (todo : List Nat)
    (hd : eq = true → ∃ l r sw, Lf = some l ∧ Rf = some r ∧ compareD cfg steps l r [] = some (true, sw) ∧
      ∀ g ∈ l.calls, g ∈ todo) :
    ∀ (fs : List Nat) (cs : List Pair) (st st' : MSt ProgSt C) (eq' : Bool),
      InlInv cfg steps PL PR (fun g => X g ∨ g = f) st → st.results (f, f) ≠ none → st.w.L f = Lf → st.w.R f = Rf →
      (∀ g ∈ todo, g ∈ fs ∨ (g, g) ∈ cs) →
      runCmp rec (f, f) (calleesThen fs k st.w) cs st = .ok (eq', st') → NothingDropped st'.log →
      InlInv cfg steps PL PR X st' ∧ Stays (fun _ => False) (fun g => g = f) st st' ∧
        ∃ cs, lastRun (f, f) st'.log = some (eq', cs)
  | [], cs, st, st', eq', hi, hp, hl, hr, hds, h, hnd => by
    have hran : eq = true → RanIn cfg steps (st.w.L f) (st.w.R f) cs := by
      intro he
      obtain ⟨l, r, sw, h1, h2, h3, h4⟩ := hd he
      exact ⟨l, r, sw, hl.trans h1, hr.trans h2, h3, fun g hg => (hds g (h4 g hg)).resolve_left (by simp)⟩
    rw [calleesThen] at h
    rcases hk st.w with hk | ⟨a, b, hk⟩
    · rw [hk] at h
      exact runCmp_done_inl hi hp hran h
    · rw [hk, runCmp] at h
      have hi' : InlInv cfg steps PL PR (fun g => X g ∨ g = f) { st with tryInline := (a, b) } :=
        ⟨hi.ran, hi.recd, hi.miss, hi.declL, hi.declR, hi.sameL, hi.sameR⟩
      obtain ⟨h1, h2, h3⟩ := runCmp_done_inl (st := { st with tryInline := (a, b) }) hi' hp hran h
      exact ⟨h1, ⟨h2.res, h2.bodies, h2.runs⟩, h3⟩
  | g :: fs, cs, st, st', eq', hi, hp, hl, hr, hds, h, hnd => by
    rw [calleesThen, runCmp] at h
    have hds' : ∀ g' ∈ todo, g' ∈ fs ∨ (g', g') ∈ (g, g) :: cs := by
      intro g' hg'
      rcases hds g' hg' with h | h
      · rcases List.mem_cons.1 h with rfl | h
        · exact .inr (by simp)
        · exact .inl h
      · exact .inr (List.mem_cons_of_mem _ h)
    cases hp0 : st.results (f, f) with
    | none => exact absurd hp0 hp
    | some x =>
      rw [hp0] at h
      simp only at h
      cases hq : st.results (g, g) with
      | some y =>
        rw [hq] at h
        exact runCmp_inline hrec hlog hk todo hd fs _ st st' eq' hi hp hl hr hds' h hnd
      | none =>
        rw [hq] at h
        simp only at h
        cases hrr : rec (g, g) st with
        | error s =>
          have : rec (g, g) { st with w := st.w } = .error s := hrr
          rw [this] at h; cases h
        | ok st1 =>
          have : rec (g, g) { st with w := st.w } = .ok st1 := hrr
          rw [this] at h
          simp only at h
          have hnd1 : NothingDropped st1.log := nothingDropped_mono hnd (runCmp_log hlog _ _ _ _ _ _ h)
          obtain ⟨i1, s1, _⟩ := hrec g _ st st1 hi hq hrr hnd1
          obtain ⟨b1, b2⟩ := s1.bodies f (by simp) hp
          obtain ⟨i2, s2, c2⟩ := runCmp_inline hrec hlog hk todo hd fs _ st1 st' eq' i1 (s1.res f hp) (b1.trans hl)
            (b2.trans hr) hds' h hnd
          exact ⟨i2, (s1.weaken (fun _ h => h) (fun _ h => h.elim)).trans s2, c2⟩

theorem runFull_inline {rec : Pair → MSt ProgSt C → Except Stop (MSt ProgSt C)} (hrec : InlRec cfg steps PL PR rec)
    (hlog : LogGrows rec) {f : Nat} {X : Nat → Prop} {st st' : MSt ProgSt C} {eq : Bool}
    (hi : InlInv cfg steps PL PR (fun g => X g ∨ g = f) st) (hp : st.results (f, f) ≠ none)
    (h : runFull (inlineEngine cfg steps diff names I PL PR) rec (f, f) st = .ok (eq, st')) (hnd : NothingDropped st'.log) :
    InlInv cfg steps PL PR X st' ∧ Stays (fun _ => False) (fun g => g = f) st st' ∧
      ∃ cs, lastRun (f, f) st'.log = some (eq, cs) := by
  unfold runFull at h
  cases hc : runCmp rec (f, f) ((inlineEngine cfg steps diff names I PL PR).cmp st.w (f, f)) [] st with
  | error s => rw [hc] at h; cases h
  | ok y =>
    obtain ⟨eq', st2⟩ := y
    rw [hc] at h
    simp only at h
    cases h2 : st2.results (f, f) with
    | none => rw [h2] at h; cases h
    | some v =>
      rw [h2] at h
      cases h
      simp only [inlineEngine, inlineCmp] at hc
      cases hl : st.w.L f with
      | none =>
        rw [hl] at hc
        exact runCmp_done_inl (eq := false) (cs := []) hi hp (fun h => (nomatch h)) hc
      | some l =>
        cases hr : st.w.R f with
        | none =>
          rw [hl, hr] at hc
          exact runCmp_done_inl (eq := false) (cs := []) hi hp (fun h => (nomatch h)) hc
        | some r =>
          rw [hl, hr] at hc
          simp only at hc
          have hfalse : ∀ {eq' : Bool} {st2 : MSt ProgSt C}, runCmp rec (f, f) (calleesThen (diff st.w (f, f)).1
              (fun w' => .inline (diff st.w (f, f)).2.1 (diff st.w (f, f)).2.2 (.done false w')) st.w) [] st = .ok (eq', st2) →
              NothingDropped st2.log → InlInv cfg steps PL PR X st2 ∧
                Stays (fun _ => False) (fun g => g = f) st st2 ∧ ∃ cs, lastRun (f, f) st2.log = some (eq', cs) := by
            intro eq' st2 hc hnd
            exact runCmp_inline hrec hlog (eq := false) (fun w => .inr ⟨_, _, rfl⟩) [] (fun h => (nomatch h)) _ [] st st2 eq' hi hp hl
              hr (by simp) hc hnd
          cases hcd : compareD cfg steps l r [] with
          | none => rw [hcd] at hc; exact hfalse hc hnd
          | some z =>
            obtain ⟨b, sw⟩ := z
            rw [hcd] at hc
            cases b with
            | false => exact hfalse hc hnd
            | true =>
              exact runCmp_inline hrec hlog (eq := true) (fun w => .inl rfl) l.calls
                (fun _ => ⟨l, r, sw, rfl, rfl, hcd, fun g hg => hg⟩) l.calls [] st _ _ hi hp hl hr (fun g hg => .inl hg) hc hnd

theorem putKind_inline {f : Nat} {v : Verd} {X : Nat → Prop} {st st' : MSt ProgSt C}
    (hi : InlInv cfg steps PL PR X st) (hv : v ≠ .assumedEqual) (h : putKind (f, f) v st = .ok st') :
    InlInv cfg steps PL PR X st' ∧ Stays (fun _ => False) (fun _ => False) st st' ∧ st'.results (f, f) ≠ none := by
  obtain ⟨_, rfl⟩ := putKind_ok h
  refine ⟨⟨hi.ran, fun g r hg => putVerd_some (hi.recd g r hg), ?_, hi.declL, hi.declR, hi.sameL, hi.sameR⟩,
    ⟨fun g hg => putVerd_some hg, fun _ _ _ => ⟨rfl, rfl⟩, fun _ _ _ => rfl⟩, ?_⟩
  · intro g hg hne
    by_cases hgf : g = f
    · subst hgf
      replace hg : putVerd st.results (g, g) (some v) (g, g) = some .assumedEqual := hg
      rw [putVerd_self] at hg
      exact absurd (Option.some.inj hg) hv
    · replace hg : putVerd st.results (f, f) (some v) (g, g) = some .assumedEqual := hg
      rw [putVerd_ne (by simpa using hgf)] at hg
      exact hi.miss g hg hne
  · show putVerd st.results (f, f) (some v) (f, f) ≠ none
    rw [putVerd_self]; simp

theorem dropAll_inline {p : Pair} {X : Nat → Prop} : ∀ (qs : List (Option Nat × Option Nat)) (st : MSt ProgSt C),
    InlInv cfg steps PL PR X st → NothingDropped (dropAll p qs st).log →
    InlInv cfg steps PL PR X (dropAll p qs st) ∧ Stays (fun _ => False) (fun _ => False) st (dropAll p qs st)
  | [], st, hi, _ => ⟨hi, .refl _ _ _⟩
  | (some l, some r) :: qs, st, hi, hnd => by
    rw [dropAll] at hnd ⊢
    have hlr : l ≠ r := by
      rintro rfl
      exact hnd l ⟨p, dropAll_log qs _ _ List.mem_cons_self⟩
    have hres : ∀ g, putVerd st.results (l, r) none (g, g) = st.results (g, g) := by
      intro g
      refine putVerd_ne ?_
      intro h
      cases h
      exact hlr rfl
    have hi' : InlInv cfg steps PL PR X
        { st with results := putVerd st.results (l, r) none, log := .dropped p (l, r) :: st.log } := by
      refine ⟨hi.ran, ?_, ?_, hi.declL, hi.declR, hi.sameL, hi.sameR⟩
      · intro g x hg
        show putVerd st.results (l, r) none (g, g) ≠ none
        rw [hres]
        exact hi.recd g x hg
      · intro g hg
        replace hg : putVerd st.results (l, r) none (g, g) = some .assumedEqual := hg
        rw [hres] at hg
        exact hi.miss g hg
    obtain ⟨h1, h2⟩ := dropAll_inline qs _ hi' hnd
    have h0 : Stays (fun _ => False) (fun _ => False) st
        { st with results := putVerd st.results (l, r) none, log := .dropped p (l, r) :: st.log } := by
      refine ⟨?_, fun _ _ _ => ⟨rfl, rfl⟩, fun _ _ _ => rfl⟩
      intro g hg
      show putVerd st.results (l, r) none (g, g) ≠ none
      rw [hres]; exact hg
    exact ⟨h1, h0.trans h2⟩
  | (none, o) :: qs, st, hi, hnd => by
    have : dropAll p ((none, o) :: qs) st = dropAll p qs st := by rw [dropAll]; simp
    rw [this] at hnd ⊢
    exact dropAll_inline qs st hi hnd
  | (some o, none) :: qs, st, hi, hnd => by
    have : dropAll p ((some o, none) :: qs) st = dropAll p qs st := by rw [dropAll]; simp
    rw [this] at hnd ⊢
    exact dropAll_inline qs st hi hnd

/-- A change of the programs at `f`, with new missing definitions and an event. -/
theorem change_inline {f : Nat} {X : Nat → Prop} {st : MSt ProgSt C} {w : ProgSt} {missing : List (Option Nat × Option Nat)}
    {log : List Ev} {ti : Option C × Option C} (hi : InlInv cfg steps PL PR X st) (hw : StChange f st.w w)
    (hm : missing = [] → st.missing = []) (hl : ∀ g, lastRun (g, g) log = lastRun (g, g) st.log) :
    InlInv cfg steps PL PR (fun g => X g ∨ g = f) ⟨st.results, missing, ti, w, log⟩ ∧
      Stays (fun g => g = f) (fun _ => False) st ⟨st.results, missing, ti, w, log⟩ := by
  refine ⟨⟨?_, ?_, ?_, ?_, ?_, fun g => sameIn_trans (hi.sameL g) (hw.L.same g), fun g => sameIn_trans (hi.sameR g) (hw.R.same g)⟩, ⟨fun _ h => h, ?_, fun g _ _ => hl g⟩⟩
  · intro g cs hg hr
    have hgf : g ≠ f := fun h => hg (.inr h)
    show RanIn cfg steps (w.L g) (w.R g) cs
    rw [hw.L.others g hgf, hw.R.others g hgf]
    exact hi.ran g cs (fun h => hg (.inl h)) ((hl g).symm.trans hr)
  · intro g r hr
    exact hi.recd g r ((hl g).symm.trans hr)
  · intro g hg hne h
    exact hi.miss g hg hne (hm h)
  · intro g
    exact (hw.L.bodies g).trans (hi.declL g)
  · intro g
    exact (hw.R.bodies g).trans (hi.declR g)
  · intro g hg _
    exact ⟨hw.L.others g hg, hw.R.others g hg⟩

theorem tryToInline_not (w : ProgSt) (side : Bool) (c : Option C)
    (h : (tryToInline (inlineEngine cfg steps diff names I PL PR) w side c).1 ≠ .inlined) :
    (tryToInline (inlineEngine cfg steps diff names I PL PR) w side c).2 = w := by
  unfold tryToInline at h ⊢
  cases c with
  | none => rfl
  | some x =>
    simp only at h ⊢
    split
    · rfl
    · split
      · rfl
      · split
        · rfl
        · rename_i h1 h2 h3
          rw [if_neg h1, if_neg h2, if_neg h3] at h
          cases hc : (inlineEngine cfg steps diff names I PL PR).inlineCall w side x with
          | none => rfl
          | some w' => rw [hc] at h; exact absurd rfl h

theorem rounds_inline (hI : SafeInliner I) {rec : Pair → MSt ProgSt C → Except Stop (MSt ProgSt C)}
    (hrec : InlRec cfg steps PL PR rec) (hlog : LogGrows rec) {f : Nat} {X : Nat → Prop} :
    ∀ (n : Nat) (inl : List (Option Nat × Option Nat)) (st st' : MSt ProgSt C), InlInv cfg steps PL PR X st →
      st.results (f, f) ≠ none → rounds (inlineEngine cfg steps diff names I PL PR) rec (f, f) n inl st = .ok st' →
      NothingDropped st'.log →
      InlInv cfg steps PL PR X st' ∧ Stays (fun g => g = f) (fun g => g = f) st st' ∧ st'.results (f, f) ≠ none
  | 0, inl, st, st', _, _, h, _ => by rw [rounds] at h; cases h
  | n + 1, inl, st, st', hi, hp, h, hnd => by
    rw [rounds] at h
    split at h
    · cases h; exact ⟨hi, .refl _ _ _, hp⟩
    · simp only at h
      have hc1 := findCall_has (cfg := cfg) (steps := steps) (diff := diff) (names := names) (PL := PL) (PR := PR) (I := I)
        (w := st.w) (side := true) (f := f) (c := st.tryInline.1)
      have hc2 := findCall_has (cfg := cfg) (steps := steps) (diff := diff) (names := names) (PL := PL) (PR := PR) (I := I)
        (w := st.w) (side := false) (f := f) (c := st.tryInline.2)
      generalize findCall (inlineEngine cfg steps diff names I PL PR) st.w true f st.tryInline.1 = c1 at h hc1
      generalize findCall (inlineEngine cfg steps diff names I PL PR) st.w false f st.tryInline.2 = c2 at h hc2
      obtain ⟨ch1, keep1⟩ := tryToInline_change (cfg := cfg) (steps := steps) (diff := diff) (names := names) (PL := PL)
        (PR := PR) hI st.w true f c1 hc1
      have not1 := tryToInline_not (cfg := cfg) (steps := steps) (diff := diff) (names := names) (PL := PL)
        (PR := PR) (I := I) st.w true c1
      generalize tryToInline (inlineEngine cfg steps diff names I PL PR) st.w true c1 = r1 at h ch1 keep1 not1
      obtain ⟨ch2, _⟩ := tryToInline_change (cfg := cfg) (steps := steps) (diff := diff) (names := names) (PL := PL)
        (PR := PR) hI r1.2 false f c2 (fun x hx => by rw [keep1 false (by simp)]; exact hc2 x hx)
      have not2 := tryToInline_not (cfg := cfg) (steps := steps) (diff := diff) (names := names) (PL := PL)
        (PR := PR) (I := I) r1.2 false c2
      generalize tryToInline (inlineEngine cfg steps diff names I PL PR) r1.2 false c2 = r2 at h ch2 not2
      generalize hq : (c1.map ((inlineEngine cfg steps diff names I PL PR).called st.w true),
        c2.map ((inlineEngine cfg steps diff names I PL PR).called st.w false)) = q at h
      generalize hmm : (if r1.1 = .missingDef ∨ r2.1 = .missingDef then st.missing ++ [q] else st.missing) = missing at h
      have hm : missing = [] → st.missing = [] := by
        intro h0
        rw [← hmm] at h0
        split at h0
        · simp at h0
        · exact h0
      split at h
      · next hno =>
        cases h
        have hw : r2.2 = st.w := by rw [not2 hno.2, not1 hno.1]
        refine ⟨⟨?_, hi.recd, fun g hg hne h0 => hi.miss g hg hne (hm h0), ?_, ?_, ?_, ?_⟩, ⟨fun _ h => h, ?_, fun _ _ _ => rfl⟩, hp⟩
        · show ∀ g cs, ¬ X g → lastRun (g, g) st.log = some (true, cs) → RanIn cfg steps (r2.2.L g) (r2.2.R g) cs
          rw [hw]; exact hi.ran
        · show ∀ f, (r2.2.L f).isNone = (PL f).isNone
          rw [hw]; exact hi.declL
        · show ∀ f, (r2.2.R f).isNone = (PR f).isNone
          rw [hw]; exact hi.declR
        · show ∀ g, SameInPrograms PL r2.2.L g
          rw [hw]; exact hi.sameL
        · show ∀ g, SameInPrograms PR r2.2.R g
          rw [hw]; exact hi.sameR
        · intro g _ _
          show r2.2.L g = st.w.L g ∧ r2.2.R g = st.w.R g
          rw [hw]; exact ⟨rfl, rfl⟩
      · have chs := (simplify_change (cfg := cfg) (steps := steps) (diff := diff) (names := names) (PL := PL) (PR := PR) hI r2.2
          true f).trans (simplify_change (cfg := cfg) (steps := steps) (diff := diff) (names := names) (PL := PL) (PR := PR) hI
          _ false f)
        obtain ⟨i0, s0⟩ := change_inline (missing := missing) (log := .inlined (f, f) q :: st.log) (ti := st.tryInline) hi
          (ch1.trans (ch2.trans chs)) hm (fun g => rfl)
        cases hk : putKind (f, f) .unknown (MSt.mk st.results missing st.tryInline
            ((inlineEngine cfg steps diff names I PL PR).simplify
              ((inlineEngine cfg steps diff names I PL PR).simplify r2.2 true f) false f)
            (.inlined (f, f) q :: st.log)) with
        | error s => rw [hk] at h; cases h
        | ok st1 =>
          rw [hk] at h
          simp only at h
          obtain ⟨i1, s1, p1⟩ := putKind_inline i0 (by simp) hk
          cases hf : runFull (inlineEngine cfg steps diff names I PL PR) rec (f, f) st1 with
          | error s => rw [hf] at h; cases h
          | ok y =>
            obtain ⟨eq, st2⟩ := y
            rw [hf] at h
            have hres2 : st2.results (f, f) ≠ none := by
              unfold runFull at hf
              cases hc : runCmp rec (f, f) ((inlineEngine cfg steps diff names I PL PR).cmp st1.w (f, f)) [] st1 with
              | error s => rw [hc] at hf; cases hf
              | ok y =>
                obtain ⟨eq', st3⟩ := y
                rw [hc] at hf
                simp only at hf
                cases h2 : st3.results (f, f) with
                | none => rw [h2] at hf; cases hf
                | some v => rw [h2] at hf; cases hf; rw [h2]; simp
            have pre := (s0.weaken (X' := fun g => g = f) (Y' := fun g => g = f) (fun _ h => h) (fun _ h => h.elim)).trans
              (s1.weaken (fun _ h => h.elim) (fun _ h => h.elim))
            cases eq with
            | true =>
              simp only at h
              cases hk2 : putKind (f, f) .equal (dropAll (f, f) (q :: inl) st2) with
              | error s => rw [hk2] at h; cases h
              | ok st4 =>
                rw [hk2] at h
                simp only at h
                have hnd4 : NothingDropped st4.log := nothingDropped_mono hnd (rounds_log hlog _ _ _ _ h)
                have hnd3 : NothingDropped (dropAll (f, f) (q :: inl) st2).log := by rw [← putKind_log hk2]; exact hnd4
                obtain ⟨i2, s2, _⟩ := runFull_inline hrec hlog i1 p1 hf (nothingDropped_mono hnd3 (dropAll_log _ _))
                obtain ⟨i3, s3⟩ := dropAll_inline (q :: inl) st2 i2 hnd3
                obtain ⟨i4, s4, p4⟩ := putKind_inline i3 (by simp) hk2
                obtain ⟨i5, s5, p5⟩ := rounds_inline hI hrec hlog n (q :: inl) st4 st' i4 p4 h hnd
                exact ⟨i5, pre.trans ((s2.weaken (fun _ h => h.elim) (fun _ h => h)).trans
                  ((s3.weaken (fun _ h => h.elim) (fun _ h => h.elim)).trans
                    ((s4.weaken (fun _ h => h.elim) (fun _ h => h.elim)).trans s5))), p5⟩
            | false =>
              simp only at h
              cases hk2 : putKind (f, f) .notEqual st2 with
              | error s => rw [hk2] at h; cases h
              | ok st4 =>
                rw [hk2] at h
                simp only at h
                have hnd4 : NothingDropped st4.log := nothingDropped_mono hnd (rounds_log hlog _ _ _ _ h)
                obtain ⟨i2, s2, _⟩ := runFull_inline hrec hlog i1 p1 hf (by rw [← putKind_log hk2]; exact hnd4)
                obtain ⟨i4, s4, p4⟩ := putKind_inline i2 (by simp) hk2
                obtain ⟨i5, s5, p5⟩ := rounds_inline hI hrec hlog n (q :: inl) st4 st' i4 p4 h hnd
                exact ⟨i5, pre.trans ((s2.weaken (fun _ h => h.elim) (fun _ h => h)).trans
                    ((s4.weaken (fun _ h => h.elim) (fun _ h => h.elim)).trans s5)), p5⟩

/-- What stays after a function without a result was compared. -/
theorem Stays.fresh {f : Nat} {a b c : MSt ProgSt C} (h0 : Stays (fun _ => False) (fun _ => False) a b)
    (h : Stays (fun g => g = f) (fun g => g = f) b c) (hf : a.results (f, f) = none) :
    Stays (fun _ => False) (fun _ => False) a c := by
  have h1 := (h0.weaken (X' := fun g => g = f) (Y' := fun g => g = f) (fun _ h => h.elim) (fun _ h => h.elim)).trans h
  have hne : ∀ g, a.results (g, g) ≠ none → g ≠ f := by rintro g hg rfl; exact hg hf
  exact ⟨h1.res, fun g _ hg => h1.bodies g (hne g hg) hg, fun g _ hg => h1.runs g (hne g hg) hg⟩

theorem compareFunctions_inline (hI : SafeInliner I) : ∀ n, InlRec cfg steps PL PR
    (compareFunctions (inlineEngine cfg steps diff names I PL PR) n)
  | 0 => by intro f X st st' _ _ h; rw [compareFunctions] at h; cases h
  | n + 1 => by
    intro f X st st' hi hnone h hnd
    have hrec := compareFunctions_inline hI n
    have hlog := compareFunctions_log (inlineEngine cfg steps diff names I PL PR) n
    rw [compareFunctions] at h
    have he : emplace (f, f) st = { st with results := putVerd st.results (f, f) (some .unknown) } := by
      unfold emplace; rw [hnone]
    rw [he] at h
    have i0 : InlInv cfg steps PL PR X { st with results := putVerd st.results (f, f) (some .unknown) } := by
      refine ⟨hi.ran, fun g r hg => putVerd_some (hi.recd g r hg), ?_, hi.declL, hi.declR, hi.sameL, hi.sameR⟩
      intro g hg hne
      by_cases hgf : g = f
      · subst hgf
        replace hg : putVerd st.results (g, g) (some .unknown) (g, g) = some .assumedEqual := hg
        rw [putVerd_self] at hg; cases hg
      · replace hg : putVerd st.results (f, f) (some .unknown) (g, g) = some .assumedEqual := hg
        rw [putVerd_ne (by simpa using hgf)] at hg
        exact hi.miss g hg hne
    have s0 : Stays (fun _ => False) (fun _ => False) st
        { st with results := putVerd st.results (f, f) (some .unknown) } :=
      ⟨fun g hg => putVerd_some hg, fun _ _ _ => ⟨rfl, rfl⟩, fun _ _ _ => rfl⟩
    have hp0 : ({ st with results := putVerd st.results (f, f) (some .unknown) } : MSt ProgSt C).results (f, f) ≠ none := by
      show putVerd st.results (f, f) (some .unknown) (f, f) ≠ none
      rw [putVerd_self]; simp
    generalize ({ st with results := putVerd st.results (f, f) (some .unknown) } : MSt ProgSt C) = st0 at *
    simp only at h
    split at h
    · rename_i hc; cases hc
    · split at h
      · cases hk : putKind (f, f) (declVerdict (inlineEngine cfg steps diff names I PL PR).controlFlowOnly
            ((inlineEngine cfg steps diff names I PL PR).info true f)
            ((inlineEngine cfg steps diff names I PL PR).info false f) (f, f)).1 st0 with
        | error s => rw [hk] at h; cases h
        | ok st1 =>
          rw [hk] at h
          cases h
          obtain ⟨_, rfl⟩ := putKind_ok hk
          have s1 : ∀ (m : List (Option Nat × Option Nat)) (v : Option Verd), v.isSome = true →
              Stays (fun _ => False) (fun _ => False) st0 { st0 with results := putVerd st0.results (f, f) v, missing := m } := by
            intro m v hv
            refine ⟨fun g hg => ?_, fun _ _ _ => ⟨rfl, rfl⟩, fun _ _ _ => rfl⟩
            obtain ⟨v, rfl⟩ := Option.isSome_iff_exists.1 hv
            exact putVerd_some hg
          refine ⟨⟨i0.ran, fun g r hg => putVerd_some (i0.recd g r hg), ?_, i0.declL, i0.declR, i0.sameL, i0.sameR⟩,
            s0.trans (s1 _ _ rfl), putVerd_some hp0⟩
          intro g hg hne
          by_cases hgf : g = f
          · subst hgf
            have : (declVerdict (inlineEngine cfg steps diff names I PL PR).controlFlowOnly
              ((inlineEngine cfg steps diff names I PL PR).info true g)
              ((inlineEngine cfg steps diff names I PL PR).info false g) (g, g)).2 ≠ [] := by
              exact declVerdict_missing rfl hne
            simp [this]
          · replace hg : putVerd st0.results (f, f) _ (g, g) = some .assumedEqual := hg
            rw [putVerd_ne (by simpa using hgf)] at hg
            have := i0.miss g hg hne
            simp [this]
      · cases hf : runFull (inlineEngine cfg steps diff names I PL PR)
            (compareFunctions (inlineEngine cfg steps diff names I PL PR) n) (f, f) st0 with
        | error s => rw [hf] at h; cases h
        | ok x =>
          obtain ⟨eq, st1⟩ := x
          rw [hf] at h
          cases eq with
          | true =>
            simp only at h
            have hnd1 : NothingDropped st1.log := by rw [← putKind_log h]; exact hnd
            obtain ⟨i1, s1, _⟩ := runFull_inline hrec hlog (i0.weaken (Y := fun g => X g ∨ g = f) fun g hg => .inl hg) hp0 hf hnd1
            obtain ⟨i2, s2, p2⟩ := putKind_inline i1 (by simp) h
            exact ⟨i2, s0.fresh ((s1.weaken (fun _ h => h.elim) (fun _ h => h)).trans
              (s2.weaken (fun _ h => h.elim) (fun _ h => h.elim))) hnone, p2⟩
          | false =>
            simp only at h
            cases hk : putKind (f, f) .notEqual st1 with
            | error s => rw [hk] at h; cases h
            | ok st2 =>
              rw [hk] at h
              simp only at h
              have hnd2 : NothingDropped st2.log := nothingDropped_mono hnd (rounds_log hlog _ _ _ _ h)
              have hnd1 : NothingDropped st1.log := by rw [← putKind_log hk]; exact hnd2
              obtain ⟨i1, s1, _⟩ := runFull_inline hrec hlog (i0.weaken (Y := fun g => X g ∨ g = f) fun g hg => .inl hg) hp0 hf hnd1
              obtain ⟨i2, s2, p2⟩ := putKind_inline i1 (by simp) hk
              obtain ⟨i3, s3, p3⟩ := rounds_inline hI hrec hlog n [] st2 st' i2 p2 h hnd
              exact ⟨i3, s0.fresh ((s1.weaken (fun _ h => h.elim) (fun _ h => h)).trans
                ((s2.weaken (fun _ h => h.elim) (fun _ h => h.elim)).trans s3)) hnone, p3⟩

theorem compareInlining_inv (hI : SafeInliner I) {n main : Nat} {st : MSt ProgSt C}
    (h : compareInlining cfg steps n diff names I PL PR main = .ok st) (hnd : NothingDropped st.log) :
    InlInv cfg steps PL PR (fun _ => False) st ∧ st.results (main, main) ≠ none := by
  have h0 := h
  unfold compareInlining at h0
  rw [compareAll] at h0
  cases hk : compareFunctions (inlineEngine cfg steps diff names I PL PR) n (main, main) (newComparator ⟨PL, PR⟩) with
  | error s => rw [hk] at h0; cases h0
  | ok st1 =>
    rw [hk] at h0
    cases h0
    obtain ⟨h1, _, h2⟩ := compareFunctions_inline hI n main (fun _ => False) (newComparator ⟨PL, PR⟩) _
      ⟨fun _ _ _ hm => (by cases hm), fun _ _ hm => (by cases hm), fun f hf => (by cases hf), fun _ => rfl, fun _ => rfl,
        sameIn_refl _, sameIn_refl _⟩ rfl hk hnd
    exact ⟨h1, h2⟩

/-- The bodies at the end agree as far as they were compared. -/
theorem compareInlining_same (hI : SafeInliner I) {n main : Nat} {st : MSt ProgSt C}
    (h : compareInlining cfg steps n diff names I PL PR main = .ok st) (he : AllEqual st) (hm : st.missing = [])
    (hnd : NothingDropped st.log)
    (hs : ∀ f l r, st.results (f, f) ≠ none → st.w.L f = some l → st.w.R f = some r → ∀ sw,
      compareD cfg steps l r [] = some (true, sw) → SameResults l r) :
    SameBodies st.w.L st.w.R (fun f => st.results (f, f) ≠ none) := by
  obtain ⟨hpr, _⟩ := compareInlining_inv hI h hnd
  obtain ⟨hinv, _, _⟩ := compareAll_inv (inlineEngine cfg steps diff names I PL PR) n _ _ _
    (newComparator_inv (inlineEngine cfg steps diff names I PL PR) ⟨PL, PR⟩) h
  have hjust : ∀ f v, st.results (f, f) = some v →
      ((PL f).isNone = true ∨ (PR f).isNone = true) ∧ v = .assumedEqual ∨
      ∃ cs, lastRun (f, f) st.log = some (true, cs) := by
    intro f v hv
    have hj := hinv.just (f, f) v (by simp) hv
    unfold Justified at hj
    rw [if_neg (by simp [inlineEngine])] at hj
    split at hj
    · next hd =>
      left
      refine ⟨hd, ?_⟩
      rcases hj with hj | hj
      · exact hj.1
      · exact absurd (sameName_refl _ rfl) hj.2
    · next hd =>
      right
      rcases hj with hj | hj
      · exact hj.2
      · rw [hj.1] at hv
        exact absurd hv (he _)
  refine ⟨?_, ?_, ?_⟩
  · intro f hf
    obtain ⟨v, hv⟩ := Option.ne_none_iff_exists'.1 hf
    rcases hjust f v hv with ⟨_, rfl⟩ | ⟨cs, hcs⟩
    · by_contra hne
      rw [hpr.declL, hpr.declR] at hne
      exact hpr.miss f hv hne hm
    · obtain ⟨l, r, _, h1, h2, _⟩ := hpr.ran f cs (by simp) hcs
      rw [h1, h2]; rfl
  · intro f l r hf hl hr
    obtain ⟨v, hv⟩ := Option.ne_none_iff_exists'.1 hf
    rcases hjust f v hv with ⟨hd, _⟩ | ⟨cs, hcs⟩
    · rw [← hpr.declL, ← hpr.declR, hl, hr] at hd; simp at hd
    · obtain ⟨l', r', sw, h1, h2, h3, _⟩ := hpr.ran f cs (by simp) hcs
      rw [hl] at h1; rw [hr] at h2
      cases h1; cases h2
      exact hs f _ _ hf hl hr sw h3
  · intro f l hf hl g hg
    obtain ⟨v, hv⟩ := Option.ne_none_iff_exists'.1 hf
    rcases hjust f v hv with ⟨hd, rfl⟩ | ⟨cs, hcs⟩
    · exfalso
      refine hpr.miss f hv ?_ hm
      rw [← hpr.declL, ← hpr.declR] at hd ⊢
      rw [hl] at hd ⊢
      rcases hd with hd | hd
      · cases hd
      · rw [hd]; simp
    · obtain ⟨l', r', sw, h1, h2, h3, h4⟩ := hpr.ran f cs (by simp) hcs
      rw [hl] at h1; cases h1
      rcases C82_dropped_partial _ n _ _ st h (g, g) ⟨(f, f), true, cs, hf, hcs, h4 g hg⟩ with h5 | h5
      · exact h5
      · exact absurd h5 (hnd g)

end DK
