import Verif.Lemmas.ModCmp

/-!
Verdicts of the module comparator: C39 (functions without bodies), C40 (verdicts and comparisons),
C82 (results of called functions are kept), C83 (every comparison ends).
-/

set_option autoImplicit false

namespace DK
open Spec

variable {W C : Type}

/-! ### C39 -/

/-- C39: functions of which one has no body are assumed equal iff their names agree up to suffixes, and
are not equal otherwise; when exactly one of two functions of the same name has no body (and not only
control flow is compared), exactly that side is a missing definition; nothing else changes. -/
theorem C39_declarations (e : Engine W C) (n : Nat) (p : Pair) (st : MSt W C)
    (hc : e.cached p = false)
    (hd : (e.info true p.1).isDecl = true ∨ (e.info false p.2).isDecl = true) :
    ∃ st' m, compareFunctions e (n + 1) p st = .ok st' ∧
      (SameName (e.info true p.1) (e.info false p.2) → st'.results p = some .assumedEqual) ∧
      (¬ SameName (e.info true p.1) (e.info false p.2) → st'.results p = some .notEqual) ∧
      (∀ q, q ≠ p → st'.results q = st.results q) ∧ st'.log = st.log ∧ st'.w = st.w ∧
      st'.missing = st.missing ++ m ∧
      (e.controlFlowOnly = false → SameName (e.info true p.1) (e.info false p.2) →
        (e.info false p.2).isDecl = false → m = [(some p.1, none)]) ∧
      (e.controlFlowOnly = false → SameName (e.info true p.1) (e.info false p.2) →
        (e.info true p.1).isDecl = false → m = [(none, some p.2)]) ∧
      (e.controlFlowOnly = true ∨ ¬ SameName (e.info true p.1) (e.info false p.2) ∨
        ((e.info true p.1).isDecl = true ∧ (e.info false p.2).isDecl = true) → m = []) := by
  have he : ∃ x, emplace p st = { st with results := putVerd st.results p (some x) } := by
    unfold emplace
    cases hr : st.results p with
    | none => exact ⟨_, rfl⟩
    | some x =>
      refine ⟨x, ?_⟩
      have : putVerd st.results p (some x) = st.results := by
        funext q
        by_cases hq : q = p
        · subst hq; rw [putVerd_self, hr]
        · rw [putVerd_ne hq]
      simp only [this]
  obtain ⟨x, hx⟩ := he
  rw [compareFunctions, hx]
  have hd' : ((e.info true p.1).isDecl || (e.info false p.2).isDecl) = true := by simpa using hd
  simp only [hc, hd', Bool.false_eq_true, if_false, if_true, putKind, putVerd_self]
  refine ⟨_, _, rfl, ?_, ?_, ?_, rfl, rfl, rfl, ?_⟩
  · intro hs
    rw [sameName_iff] at hs
    refine (putVerd_self _ _ _).trans ?_
    unfold declVerdict
    simp only [hs]
    split
    · simp
    · split
      · rfl
      · simp
  · intro hs
    rw [sameName_iff] at hs
    refine (putVerd_self _ _ _).trans ?_
    unfold declVerdict
    simp only [hs]
    split <;> simp
  · intro q hq
    exact (putVerd_ne hq).trans (putVerd_ne hq)
  · rw [sameName_iff]
    unfold declVerdict
    cases h1 : (e.info true p.1).isDecl <;> cases h2 : (e.info false p.2).isDecl <;>
      cases h3 : e.controlFlowOnly <;>
      by_cases hs : stem (e.info true p.1).name = stem (e.info false p.2).name <;>
      simp_all

/-- C39: a pair from the cache is unknown and nothing else changes. -/
theorem C39_cached (e : Engine W C) (n : Nat) (p : Pair) (st : MSt W C) (hc : e.cached p = true) :
    ∃ st', compareFunctions e (n + 1) p st = .ok st' ∧ st'.results p = some .unknown ∧
      (∀ q, q ≠ p → st'.results q = st.results q) ∧ st'.missing = st.missing ∧ st'.log = st.log := by
  rw [compareFunctions]
  simp only [hc, if_true]
  unfold emplace putKind
  cases hr : st.results p with
  | none =>
    simp only [putVerd_self]
    exact ⟨_, rfl, putVerd_self _ _ _, fun q hq => (putVerd_ne hq).trans (putVerd_ne hq), rfl, rfl⟩
  | some x =>
    simp only [hr]
    exact ⟨_, rfl, putVerd_self _ _ _, fun q hq => putVerd_ne hq, rfl, rfl⟩

/-- All missing definitions are right. -/
def MissInv (e : Engine W C) (st : MSt W C) : Prop := ∀ m ∈ st.missing, MissingOk e m

theorem tryToInline_missing {e : Engine W C} {w : W} {side : Bool} {c : Option C}
    (h : (tryToInline e w side c).1 = .missingDef) : ∃ c', c = some c' ∧
      (e.info side (e.called w side c')).isDecl = true ∧
      (e.info side (e.called w side c')).intrinsic = false ∧
      (e.info side (e.called w side c')).abstraction = false := by
  unfold tryToInline at h
  cases c with
  | none => cases h
  | some c =>
    refine ⟨c, rfl, ?_⟩
    simp only at h
    split at h
    · cases h
    · split at h
      · rename_i hd
        split at h
        · rename_i hi
          exact ⟨hd, hi⟩
        · cases h
      · split at h
        · cases h
        · split at h <;> cases h

theorem runCmp_missing {e : Engine W C} {rec : Pair → MSt W C → Except Stop (MSt W C)}
    (hr : ∀ p st st', rec p st = .ok st' → MissInv e st → MissInv e st') (p : Pair) :
    ∀ (run : Run W C) (cs : List Pair) (st st' : MSt W C) (eq : Bool),
    runCmp rec p run cs st = .ok (eq, st') → MissInv e st → MissInv e st' := by
  intro run
  induction run with
  | done eq w =>
    intro cs st st' eq' h hi
    rw [runCmp] at h
    cases h
    exact hi
  | inline l r k ih =>
    intro cs st st' eq h hi
    rw [runCmp] at h
    exact ih cs { st with tryInline := (l, r) } st' eq h hi
  | callee l r w k ih =>
    intro cs st st' eq h hi
    rw [runCmp] at h
    cases hp0 : st.results p with
    | none => rw [hp0] at h; cases h
    | some x =>
      rw [hp0] at h
      simp only at h
      cases hq0 : st.results (l, r) with
      | some y => rw [hq0] at h; exact ih w _ { st with w := w } _ _ h hi
      | none =>
        rw [hq0] at h
        simp only at h
        cases h1 : rec (l, r) { st with w := w } with
        | error s => rw [h1] at h; cases h
        | ok st1 =>
          rw [h1] at h
          exact ih _ _ _ _ _ h (hr _ _ _ h1 hi)

theorem runFull_missing {e : Engine W C} {rec : Pair → MSt W C → Except Stop (MSt W C)}
    (hr : ∀ p st st', rec p st = .ok st' → MissInv e st → MissInv e st') {p : Pair}
    {st st' : MSt W C} {eq : Bool} (h : runFull e rec p st = .ok (eq, st')) (hi : MissInv e st) :
    MissInv e st' := by
  unfold runFull at h
  cases h1 : runCmp rec p (e.cmp st.w p) [] st with
  | error s => rw [h1] at h; cases h
  | ok y =>
    obtain ⟨eq', st2⟩ := y
    rw [h1] at h
    simp only at h
    cases h2 : st2.results p with
    | none => rw [h2] at h; cases h
    | some v =>
      rw [h2] at h
      cases h
      exact runCmp_missing hr p _ _ _ _ _ h1 hi

theorem putKind_missing {p : Pair} {v : Verd} {st st' : MSt W C} (h : putKind p v st = .ok st') :
    st'.missing = st.missing := by
  unfold putKind at h
  cases hr : st.results p with
  | none => rw [hr] at h; cases h
  | some x => rw [hr] at h; cases h; rfl

theorem dropAll_missing (p : Pair) : ∀ (qs : List (Option Nat × Option Nat)) (st : MSt W C),
    (dropAll p qs st).missing = st.missing
  | [], _ => rfl
  | (some l, some r) :: qs, st => by rw [dropAll, dropAll_missing p qs]
  | (none, _) :: qs, st => by rw [dropAll, dropAll_missing p qs]; simp
  | (some _, none) :: qs, st => by rw [dropAll, dropAll_missing p qs]; simp

theorem findCall_called {e : Engine W C} {w : W} {side : Bool} {f : Nat} {c : Option C} {c' : C}
    (h : findCall e w side f c = some c') : (findCall e w side f c).map (e.called w side) =
      some (e.called w side c') := by rw [h]; rfl

theorem rounds_missing {e : Engine W C} (hinl : ∀ w side c w', e.inlineCall w side c = some w' →
      ∀ side' c', side' ≠ side → e.called w' side' c' = e.called w side' c')
    {rec : Pair → MSt W C → Except Stop (MSt W C)}
    (hr : ∀ p st st', rec p st = .ok st' → MissInv e st → MissInv e st') (p : Pair) :
    ∀ (n : Nat) (inl : List (Option Nat × Option Nat)) (st st' : MSt W C),
    rounds e rec p n inl st = .ok st' → MissInv e st → MissInv e st'
  | 0, _, _, _, h, _ => by rw [rounds] at h; cases h
  | n + 1, inl, st, st', h, hi => by
    rw [rounds] at h
    simp only at h
    split at h
    · cases h; exact hi
    · generalize hc1 : findCall e st.w true p.1 st.tryInline.1 = c1 at h
      generalize hc2 : findCall e st.w false p.2 st.tryInline.2 = c2 at h
      have hsame : ∀ c', e.called (tryToInline e st.w true c1).2 false c' = e.called st.w false c' := by
        intro c'
        unfold tryToInline
        cases c1 with
        | none => rfl
        | some c =>
          simp only
          split
          · rfl
          · split
            · rfl
            · split
              · rfl
              · split
                · rename_i w' hw
                  exact hinl _ _ _ _ hw false c' (by simp)
                · rfl
      have hi1 : ∀ m ∈ (if (tryToInline e st.w true c1).1 = .missingDef ∨
          (tryToInline e (tryToInline e st.w true c1).2 false c2).1 = .missingDef then
          st.missing ++ [(c1.map (e.called st.w true), c2.map (e.called st.w false))]
          else st.missing), MissingOk e m := by
        intro m hm
        split at hm
        · rename_i hmiss
          rcases List.mem_append.1 hm with hm | hm
          · exact hi m hm
          · simp only [List.mem_singleton] at hm
            subst hm
            right; right
            rcases hmiss with h1 | h1
            · obtain ⟨c', rfl, h2⟩ := tryToInline_missing h1
              exact ⟨true, _, rfl, h2⟩
            · obtain ⟨c', rfl, h2⟩ := tryToInline_missing h1
              rw [hsame] at h2
              exact ⟨false, _, rfl, h2⟩
        · exact hi m hm
      split at h
      · cases h; exact hi1
      · cases hk : putKind p .unknown { st with
            w := e.simplify (e.simplify (tryToInline e (tryToInline e st.w true c1).2 false c2).2 true
              p.1) false p.2,
            missing := if (tryToInline e st.w true c1).1 = .missingDef ∨
              (tryToInline e (tryToInline e st.w true c1).2 false c2).1 = .missingDef then
              st.missing ++ [(c1.map (e.called st.w true), c2.map (e.called st.w false))]
              else st.missing,
            log := .inlined p (c1.map (e.called st.w true), c2.map (e.called st.w false)) :: st.log } with
        | error s => rw [hk] at h; cases h
        | ok st1 =>
          rw [hk] at h
          simp only at h
          have hi2 : MissInv e st1 := by
            intro m hm
            rw [putKind_missing hk] at hm
            exact hi1 m hm
          cases hf : runFull e rec p st1 with
          | error s => rw [hf] at h; cases h
          | ok y =>
            obtain ⟨eq, st2⟩ := y
            rw [hf] at h
            have hi3 := runFull_missing hr hf hi2
            cases eq with
            | true =>
              simp only at h
              generalize hin : (c1.map (e.called st.w true), c2.map (e.called st.w false)) :: inl = inl'
                at h
              cases hk2 : putKind p .equal (dropAll p inl' st2) with
              | error s => rw [hk2] at h; cases h
              | ok st3 =>
                rw [hk2] at h
                refine rounds_missing hinl hr p n _ st3 st' h ?_
                intro m hm
                rw [putKind_missing hk2, dropAll_missing] at hm
                exact hi3 m hm
            | false =>
              simp only at h
              cases hk2 : putKind p .notEqual st2 with
              | error s => rw [hk2] at h; cases h
              | ok st3 =>
                rw [hk2] at h
                refine rounds_missing hinl hr p n _ st3 st' h ?_
                intro m hm
                rw [putKind_missing hk2] at hm
                exact hi3 m hm

theorem compareFunctions_missing {e : Engine W C}
    (hinl : ∀ w side c w', e.inlineCall w side c = some w' →
      ∀ side' c', side' ≠ side → e.called w' side' c' = e.called w side' c') : ∀ (n : Nat) (p : Pair)
    (st st' : MSt W C), compareFunctions e n p st = .ok st' → MissInv e st → MissInv e st'
  | 0, _, _, _, h, _ => by rw [compareFunctions] at h; cases h
  | n + 1, p, st, st', h, hi => by
    have ih := compareFunctions_missing hinl n
    have hi0 : MissInv e (emplace p st) := by
      unfold emplace
      cases st.results p <;> exact hi
    rw [compareFunctions] at h
    simp only at h
    generalize emplace p st = st0 at *
    split at h
    · intro m hm
      rw [putKind_missing h] at hm
      exact hi0 m hm
    · split at h
      · rename_i hdecl
        cases hk : putKind p (declVerdict e.controlFlowOnly (e.info true p.1) (e.info false p.2) p).1
            st0 with
        | error s => rw [hk] at h; cases h
        | ok st1 =>
          rw [hk] at h
          cases h
          intro m hm
          rcases List.mem_append.1 hm with hm | hm
          · rw [putKind_missing hk] at hm
            exact hi0 m hm
          · unfold declVerdict at hm
            split at hm
            · cases hm
            · split at hm
              · cases hm
              · split at hm
                · cases hm
                · simp only at hm
                  split at hm
                  · rename_i hl
                    simp only [List.mem_singleton] at hm
                    exact Or.inl ⟨p.1, hm, hl⟩
                  · split at hm
                    · rename_i hr
                      simp only [List.mem_singleton] at hm
                      exact Or.inr (Or.inl ⟨p.2, hm, hr⟩)
                    · cases hm
      · cases hf : runFull e (compareFunctions e n) p st0 with
        | error s => rw [hf] at h; cases h
        | ok x =>
          obtain ⟨eq, st1⟩ := x
          rw [hf] at h
          have hi1 := runFull_missing ih hf hi0
          cases eq with
          | true =>
            simp only at h
            intro m hm
            rw [putKind_missing h] at hm
            exact hi1 m hm
          | false =>
            simp only at h
            cases hk : putKind p .notEqual st1 with
            | error s => rw [hk] at h; cases h
            | ok st2 =>
              rw [hk] at h
              refine rounds_missing hinl ih p n _ st2 st' h ?_
              intro m hm
              rw [putKind_missing hk] at hm
              exact hi1 m hm

/-- C39: every missing definition that is reported is one: a function without a body, not an intrinsic
and not an abstraction of the tool when it was found while inlining. (Inlining in one module does not
change the functions called in the other one.) -/
theorem C39_missing (e : Engine W C) (hinl : ∀ w side c w', e.inlineCall w side c = some w' →
      ∀ side' c', side' ≠ side → e.called w' side' c' = e.called w side' c') (n : Nat)
    (ps : List Pair) (w : W) (st' : MSt W C) (h : compareAll e n ps (newComparator w) = .ok st') :
    ∀ m ∈ st'.missing, MissingOk e m := by
  have : ∀ (ps : List Pair) (st st' : MSt W C), compareAll e n ps st = .ok st' →
      MissInv e st → MissInv e st' := by
    intro ps
    induction ps with
    | nil => intro st st' h; cases h; exact fun h => h
    | cons p ps ih =>
      intro st st' h hi
      rw [compareAll] at h
      cases hk : compareFunctions e n p st with
      | error s => rw [hk] at h; cases h
      | ok st1 =>
        rw [hk] at h
        exact ih st1 st' h (compareFunctions_missing hinl n p st st1 hk hi)
  refine this ps _ _ h ?_
  intro m hm
  cases hm

/-- The hypotheses are met: `main` (0) calls `g` (3), which has no body in the first module. -/
example : ∃ e : Engine Bool Unit,
    (∀ w side c w', e.inlineCall w side c = some w' →
      ∀ side' c', side' ≠ side → e.called w' side' c' = e.called w side' c') ∧
    ∃ st', compareAll e 6 [(0, 0)] (newComparator false) = .ok st' ∧
      st'.missing = [(some 3, some 3)] ∧ st'.results (0, 0) = some .notEqual := by
  refine ⟨⟨fun side f => ⟨str! "g", decide (f = 3) && side, false, false, false⟩, fun _ => false, false,
    true, fun w _ => .inline (some ()) (some ()) (.done false w), fun w _ _ _ => !w, fun _ _ _ => 3,
    fun _ _ _ => some true, fun w _ _ => w⟩, fun _ _ _ _ _ _ _ _ => rfl, _, rfl, rfl, rfl⟩

/-! ### C40 -/

/-- C40: after comparing any pairs of functions, whatever the comparator, inlining and simplification do,
every recorded verdict is justified (for functions with bodies: equal iff the last comparison found no
difference, otherwise not equal), every pair asked for has a verdict or was dropped, and results are
dropped only of inlined pairs right after a comparison that found no difference. -/
theorem C40_verdicts (e : Engine W C) (n : Nat) (ps : List Pair) (w : W) (st' : MSt W C)
    (h : compareAll e n ps (newComparator w) = .ok st') :
    (∀ q v, st'.results q = some v → Justified e st'.log q v) ∧
      (∀ p ∈ ps, st'.results p ≠ none ∨ Dropped st'.log p) ∧ DropsOk st'.log := by
  obtain ⟨hi, _, hp⟩ := compareAll_inv e n ps _ _ (newComparator_inv e w) h
  exact ⟨fun q v hv => hi.just q v (fun h => h) hv, hp, hi.drops⟩

/-- In particular for functions with bodies. -/
theorem C40_equal (e : Engine W C) (n : Nat) (ps : List Pair) (w : W) (st' : MSt W C)
    (h : compareAll e n ps (newComparator w) = .ok st') (p : Pair) (hc : e.cached p = false)
    (hl : (e.info true p.1).isDecl = false) (hr : (e.info false p.2).isDecl = false) :
    (st'.results p = some .equal → ∃ cs, lastRun p st'.log = some (true, cs)) ∧
      (st'.results p = some .notEqual → ∃ cs, lastRun p st'.log = some (false, cs)) ∧
      st'.results p ≠ some .unknown ∧ st'.results p ≠ some .assumedEqual := by
  have hj := (C40_verdicts e n ps w st' h).1 p
  have hj' : ∀ v, st'.results p = some v →
      (v = .equal ∧ ∃ cs, lastRun p st'.log = some (true, cs)) ∨
        (v = .notEqual ∧ ∃ cs, lastRun p st'.log = some (false, cs)) := by
    intro v hv
    have := hj v hv
    unfold Justified at this
    rwa [if_neg (by simp [hc]), if_neg (by simp [hl, hr])] at this
  refine ⟨fun h => ?_, fun h => ?_, fun h => ?_, fun h => ?_⟩
  · rcases hj' _ h with ⟨_, h⟩ | ⟨h, _⟩
    · exact h
    · cases h
  · rcases hj' _ h with ⟨h, _⟩ | ⟨_, h⟩
    · cases h
    · exact h
  · rcases hj' _ h with ⟨h, _⟩ | ⟨h, _⟩ <;> cases h
  · rcases hj' _ h with ⟨h, _⟩ | ⟨h, _⟩ <;> cases h

/-! ### C82 -/

/-- C82: the verdicts rest on recorded results: callees met in the last comparison of a recorded pair
have a result themselves, so a difference found in them is reported. -/
def C82_statement : Prop :=
  ∀ (W C : Type) (e : Engine W C) (n : Nat) (ps : List Pair) (w : W) (st' : MSt W C),
    compareAll e n ps (newComparator w) = .ok st' → ∀ c, ReliedOn st' c → st'.results c ≠ none

namespace ModCmpEx

/-- A function with a body and a given name. -/
def body (name : Str) : FunHead := ⟨name, false, false, false, false⟩

/-- `main` (0) calls `second` (1) and `first` (2), which both call `g` (3). `g(x)` was `x + 1` and is `x`
now; the call `g(1)` in `first` is `g(2)` now, the call `g(y)` in `second` is the same. The state says
whether the calls in `first` were inlined. -/
def hidden : Engine Bool Unit where
  info := fun _ f => body (if f = 0 then str! "main" else if f = 1 then str! "second"
    else if f = 2 then str! "first" else str! "g")
  cached := fun _ => false
  controlFlowOnly := false
  splits := true
  cmp := fun w p =>
    if p = (0, 0) then .callee 1 1 w (fun w => .callee 2 2 w (fun w => .done true w))
    else if p = (1, 1) then .callee 3 3 w (fun w => .done true w)
    else if p = (2, 2) then
      (if w then .done true w
       else .callee 3 3 w (fun w => .inline (some ()) (some ()) (.done false w)))
    else .done false w
  find := fun w _ f _ => decide (f = 2) && !w
  called := fun _ _ _ => 3
  inlineCall := fun _ _ _ => some true
  simplify := fun w _ _ => w

/-- `f(n) { if (n == 1 || n == 2) return 5; return f(1); }`, where the call is `f(2)` now: the functions
are equal after inlining the recursive call. -/
def selfRec : Engine Bool Unit where
  info := fun _ _ => body (str! "f")
  cached := fun _ => false
  controlFlowOnly := false
  splits := true
  cmp := fun w _ =>
    if w then .done true w
    else .callee 0 0 w (fun w => .inline (some ()) (some ()) (.done false w))
  find := fun w _ _ _ => !w
  called := fun _ _ _ => 0
  inlineCall := fun _ _ _ => some true
  simplify := fun w _ _ => w

/-- `f` (0) calls `g` (1), which was renamed to `h` (1); both are recursive with equal bodies. After each
inlining the first difference is the next call. The state counts the inlinings. -/
def renamed : Engine Nat Nat where
  info := fun side f => body (if f = 0 then str! "f" else if side then str! "g" else str! "h")
  cached := fun _ => false
  controlFlowOnly := false
  splits := true
  cmp := fun w _ => .inline (some w) (some w) (.done false w)
  find := fun _ _ _ _ => true
  called := fun _ _ _ => 1
  inlineCall := fun w side _ => some (if side then w else w + 1)
  simplify := fun w _ _ => w

/-- The result of comparing `main` in `hidden`: the difference of `g` was found, all recorded pairs are
equal, `second` rests on `g`, and `g` is not recorded. -/
theorem hidden_result : ∃ st', compareAll hidden 6 [(0, 0)] (newComparator false) = .ok st' ∧
    lastRun (3, 3) st'.log = some (false, []) ∧ st'.results (3, 3) = none ∧
    st'.results (0, 0) = some .equal ∧ st'.results (1, 1) = some .equal ∧
    lastRun (1, 1) st'.log = some (true, [(3, 3)]) ∧ AllEqual st' := by
  have h : ∃ st', compareAll hidden 6 [(0, 0)] (newComparator false) = .ok st' ∧
      st'.results (3, 3) = none ∧ st'.results (0, 0) = some .equal ∧ st'.results (1, 1) = some .equal ∧
      st'.log = [.ran (0, 0) true [(2, 2), (1, 1)], .dropped (2, 2) (3, 3), .ran (2, 2) true [],
        .inlined (2, 2) (some 3, some 3), .ran (2, 2) false [(3, 3)], .ran (1, 1) true [(3, 3)],
        .ran (3, 3) false []] := ⟨_, rfl, rfl, rfl, rfl, rfl⟩
  obtain ⟨st', h1, h2, h3, h4, h5⟩ := h
  refine ⟨st', h1, by rw [h5]; rfl, h2, h3, h4, by rw [h5]; rfl, ?_⟩
  intro p hp
  obtain ⟨cs, hc⟩ := (C40_equal hidden 6 _ _ _ h1 p rfl rfl rfl).2.1 hp
  rw [h5] at hc
  simp only [lastRun] at hc
  split_ifs at hc with a b c d
  all_goals first | cases hc | skip
  · rw [← d, h2] at hp
    cases hp

end ModCmpEx

/-- C82 does not hold: a result is erased when its functions were inlined somewhere else
(ModuleComparator.cpp 200-201), although another function with the verdict equal calls them. All
recorded pairs are equal then, although the comparator has found a difference. -/
theorem C82_fails : ¬ C82_statement := by
  intro h
  obtain ⟨st', h1, _, h3, _, h5, h6, _⟩ := ModCmpEx.hidden_result
  exact h _ _ _ _ _ _ _ h1 (3, 3) ⟨(1, 1), true, [(3, 3)], by rw [h5]; simp, h6, by simp⟩ h3

/-- The part of C82 that holds: a callee relied on has a result unless it was dropped. -/
theorem C82_dropped_partial (e : Engine W C) (n : Nat) (ps : List Pair) (w : W) (st' : MSt W C)
    (h : compareAll e n ps (newComparator w) = .ok st') (c : Pair) (hc : ReliedOn st' c) :
    st'.results c ≠ none ∨ Dropped st'.log c := by
  obtain ⟨hi, _, _⟩ := compareAll_inv e n ps _ _ (newComparator_inv e w) h
  obtain ⟨q, eq, cs, _, hl, hm⟩ := hc
  exact hi.deps q eq cs hl c hm

/-- No call is ever inlined: the pattern for function splits is off and there are no abstractions. -/
def NoInlining (e : Engine W C) : Prop :=
  e.splits = false ∧ ∀ side f, (e.info side f).abstraction = false

theorem tryToInline_off {e : Engine W C} (h : NoInlining e) (w : W) (side : Bool) (c : Option C) :
    tryToInline e w side c = (.notInlined, w) := by
  unfold tryToInline
  cases c with
  | none => rfl
  | some c => simp only [h.1, h.2, and_self, if_true]

theorem rounds_off {e : Engine W C} (h : NoInlining e) (rec : Pair → MSt W C → Except Stop (MSt W C))
    (p : Pair) (n : Nat) (inl : List (Option Nat × Option Nat)) (st : MSt W C) :
    rounds e rec p (n + 1) inl st = .ok st := by
  rw [rounds]
  split
  · rfl
  · simp only [tryToInline_off h]
    simp

/-- Nothing is dropped in a nested comparison. -/
def NoDrop (rec : Pair → MSt W C → Except Stop (MSt W C)) : Prop :=
  ∀ p st st', rec p st = .ok st' → ∀ q, Dropped st'.log q → Dropped st.log q

theorem runCmp_noDrop {rec : Pair → MSt W C → Except Stop (MSt W C)} (hr : NoDrop rec) (p : Pair) :
    ∀ (run : Run W C) (cs : List Pair) (st st' : MSt W C) (eq : Bool),
    runCmp rec p run cs st = .ok (eq, st') → ∀ q, Dropped st'.log q → Dropped st.log q := by
  intro run
  induction run with
  | done eq w =>
    intro cs st st' eq' h q hq
    rw [runCmp] at h
    cases h
    obtain ⟨x, hx⟩ := hq
    rcases List.mem_cons.1 hx with hx | hx
    · cases hx
    · exact ⟨x, hx⟩
  | inline l r k ih =>
    intro cs st st' eq h
    rw [runCmp] at h
    exact ih cs { st with tryInline := (l, r) } st' eq h
  | callee l r w k ih =>
    intro cs st st' eq h q hq
    rw [runCmp] at h
    cases hp0 : st.results p with
    | none => rw [hp0] at h; cases h
    | some x =>
      rw [hp0] at h
      simp only at h
      cases hq0 : st.results (l, r) with
      | some y => rw [hq0] at h; exact ih w _ _ _ _ h q hq
      | none =>
        rw [hq0] at h
        simp only at h
        cases h1 : rec (l, r) { st with w := w } with
        | error s => rw [h1] at h; cases h
        | ok st1 =>
          rw [h1] at h
          exact hr _ _ _ h1 q (ih _ _ _ _ _ h q hq)

theorem compareFunctions_noDrop {e : Engine W C} (hn : NoInlining e) : ∀ n,
    NoDrop (compareFunctions e n)
  | 0 => by intro p st st' h; rw [compareFunctions] at h; cases h
  | n + 1 => by
    intro p st st' h q hq
    have ih := compareFunctions_noDrop hn n
    have hel : (emplace p st).log = st.log := by unfold emplace; cases st.results p <;> rfl
    rw [← hel]
    rw [compareFunctions] at h
    simp only at h
    generalize emplace p st = st0 at *
    split at h
    · rw [← (after_putKind h).2.2.1]; exact hq
    · split at h
      · cases hk : putKind p (declVerdict e.controlFlowOnly (e.info true p.1) (e.info false p.2) p).1
            st0 with
        | error s => rw [hk] at h; cases h
        | ok st1 =>
          rw [hk] at h
          cases h
          rw [← (after_putKind hk).2.2.1]; exact hq
      · cases hf : runFull e (compareFunctions e n) p st0 with
        | error s => rw [hf] at h; cases h
        | ok x =>
          obtain ⟨eq, st1⟩ := x
          rw [hf] at h
          have hd : ∀ q, Dropped st1.log q → Dropped st0.log q := by
            unfold runFull at hf
            cases hr : runCmp (compareFunctions e n) p (e.cmp st0.w p) [] st0 with
            | error s => rw [hr] at hf; cases hf
            | ok y =>
              obtain ⟨eq', st2⟩ := y
              rw [hr] at hf
              simp only at hf
              cases h2 : st2.results p with
              | none => rw [h2] at hf; cases hf
              | some v =>
                rw [h2] at hf
                cases hf
                exact runCmp_noDrop ih p _ _ _ _ _ hr
          cases eq with
          | true =>
            simp only at h
            exact hd q (by rw [← (after_putKind h).2.2.1]; exact hq)
          | false =>
            simp only at h
            cases hk : putKind p .notEqual st1 with
            | error s => rw [hk] at h; cases h
            | ok st2 =>
              rw [hk] at h
              simp only at h
              cases n with
              | zero => rw [rounds] at h; cases h
              | succ m =>
                rw [rounds_off hn] at h
                cases h
                exact hd q (by rw [← (after_putKind hk).2.2.1]; exact hq)

/-- C82 without inlining: every callee relied on has a result. -/
theorem C82_recorded_partial (e : Engine W C) (hn : NoInlining e) (n : Nat) (ps : List Pair) (w : W)
    (st' : MSt W C) (h : compareAll e n ps (newComparator w) = .ok st') (c : Pair)
    (hc : ReliedOn st' c) : st'.results c ≠ none := by
  rcases C82_dropped_partial e n ps w st' h c hc with h1 | h1
  · exact h1
  · exfalso
    have : ∀ (ps : List Pair) (st st' : MSt W C), compareAll e n ps st = .ok st' →
        ∀ q, Dropped st'.log q → Dropped st.log q := by
      intro ps
      induction ps with
      | nil => intro st st' h; cases h; exact fun q h => h
      | cons p ps ih =>
        intro st st' h q hq
        rw [compareAll] at h
        cases hk : compareFunctions e n p st with
        | error s => rw [hk] at h; cases h
        | ok st1 =>
          rw [hk] at h
          exact compareFunctions_noDrop hn n p st st1 hk q (ih st1 st' h q hq)
    obtain ⟨x, hx⟩ := this ps _ _ h c h1
    cases hx

/-- The hypotheses are met: `hidden` without the pattern for function splits; `first` is different
then, and so is `g`. -/
example : NoInlining { ModCmpEx.hidden with splits := false } ∧
    ∃ st', compareAll { ModCmpEx.hidden with splits := false } 6 [(0, 0)] (newComparator false) =
      .ok st' ∧ ReliedOn st' (3, 3) ∧ st'.results (3, 3) = some .notEqual := by
  refine ⟨⟨rfl, fun _ _ => rfl⟩, _, rfl, ⟨(1, 1), true, [(3, 3)], ?_, rfl, by simp⟩, rfl⟩
  intro h
  cases h

/-- No call proposed for inlining can be inlined any more. -/
def Exhausted (e : Engine W C) (p : Pair) (st : MSt W C) : Prop :=
  ∀ side c, (if side = true then st.tryInline.1 else st.tryInline.2) = some c →
    e.find st.w side (if side = true then p.1 else p.2) c = true → ¬ CanInline e st.w side c

theorem tryToInline_can {e : Engine W C} {w : W} {side : Bool} {c : C} (h : CanInline e w side c) :
    (tryToInline e w side (some c)).1 = .inlined := by
  obtain ⟨h1, h2, h3, w', h4⟩ := h
  unfold tryToInline
  have : ¬ (e.splits = false ∧ (e.info side (e.called w side c)).abstraction = false) := by
    rintro ⟨a, b⟩
    rcases h1 with h1 | h1 <;> simp_all
  simp only [this, if_false, h2, h3, h4, Bool.false_eq_true]

theorem tryToInline_state {e : Engine W C} {w : W} {side : Bool} {c : Option C}
    (h : (tryToInline e w side c).1 ≠ .inlined) : (tryToInline e w side c).2 = w := by
  unfold tryToInline at *
  cases c with
  | none => rfl
  | some c =>
    simp only at *
    split at h
    · rw [if_pos (by assumption)]
    · rename_i h1
      rw [if_neg h1]
      split at h
      · rw [if_pos (by assumption)]
      · rename_i h2
        rw [if_neg h2]
        split at h
        · rw [if_pos (by assumption)]
        · rename_i h3
          rw [if_neg h3]
          split at h
          · exact absurd rfl h
          · rfl

theorem rounds_exhausted {e : Engine W C} {rec : Pair → MSt W C → Except Stop (MSt W C)} {p : Pair} :
    ∀ (n : Nat) (inl : List (Option Nat × Option Nat)) (st st' : MSt W C),
    rounds e rec p n inl st = .ok st' → Exhausted e p st'
  | 0, _, _, _, h => by rw [rounds] at h; cases h
  | n + 1, inl, st, st', h => by
    rw [rounds] at h
    simp only at h
    split at h
    · rename_i hnone
      cases h
      intro side c hc
      cases side <;> simp_all
    · split at h
      · rename_i hni
        cases h
        have hw1 := tryToInline_state hni.1
        have hw2 := tryToInline_state hni.2
        intro side c hc hf hcan
        simp only at hc hf hcan
        rw [hw2, hw1] at hf hcan
        rw [hw1] at hni
        cases side with
        | true =>
          simp only [if_true] at hc hf
          have h1 := hni.1
          rw [hc] at h1
          simp only [findCall, hf, if_true] at h1
          exact h1 (tryToInline_can hcan)
        | false =>
          simp only [Bool.false_eq_true, if_false] at hc hf
          have h1 := hni.2
          rw [hc] at h1
          simp only [findCall, hf, if_true] at h1
          exact h1 (tryToInline_can hcan)
      · split at h
        · cases h
        · split at h
          · cases h
          · split at h
            · cases h
            · exact rounds_exhausted n _ _ st' h
          · split at h
            · cases h
            · exact rounds_exhausted n _ _ st' h

/-- C40: functions with bodies are different only after no proposed call can be inlined any more, in
either module. -/
theorem C40_exhausted (e : Engine W C) (n : Nat) (p : Pair) (st st' : MSt W C)
    (h : compareFunctions e n p st = .ok st') (hc : e.cached p = false)
    (hl : (e.info true p.1).isDecl = false) (hr : (e.info false p.2).isDecl = false)
    (hv : st'.results p = some .notEqual) (side : Bool) (c : C)
    (ht : (if side = true then st'.tryInline.1 else st'.tryInline.2) = some c)
    (hf : e.find st'.w side (if side = true then p.1 else p.2) c = true) :
    ¬ CanInline e st'.w side c := by
  cases n with
  | zero => rw [compareFunctions] at h; cases h
  | succ n =>
    rw [compareFunctions] at h
    simp only [hc, hl, hr, Bool.or_self, Bool.false_eq_true, if_false] at h
    split at h
    · cases h
    · exfalso
      unfold putKind at h
      split at h
      · cases h
        replace hv := (putVerd_self _ _ _).symm.trans hv
        cases hv
      · cases h
    · split at h
      · cases h
      · exact rounds_exhausted n _ _ _ h side c ht hf

/-- The hypotheses are met: in `hidden` without the pattern, `first` is different and its call of `g` is
still proposed for inlining. -/
example : ∃ st', compareFunctions ({ ModCmpEx.hidden with splits := false }) 6 (2, 2)
      (newComparator false) = .ok st' ∧ st'.results (2, 2) = some .notEqual ∧
    st'.tryInline.1 = some () ∧ ModCmpEx.hidden.find st'.w true 2 () = true :=
  ⟨_, rfl, rfl, rfl, rfl⟩

/-! ### C83 -/

/-- C83: every comparison ends with a result (for modules with finitely many pairs of functions). -/
def C83_statement : Prop :=
  ∀ (W C : Type) (e : Engine W C) (U : List Pair) (p : Pair) (w : W),
    (∀ w, ∀ q ∈ U, RunIn U (e.cmp w q)) → p ∈ U →
    ∃ n st', compareFunctions e n p (newComparator w) = .ok st'

/-- C83 does not hold: when a recursive function is equal after inlining its recursive call, its own
result is erased, and `ComparedFuns.at` throws (ModuleComparator.cpp 200-206). -/
theorem C83_fails_abort : ¬ C83_statement := by
  intro h
  obtain ⟨n, st', hn⟩ := h Bool Unit ModCmpEx.selfRec [(0, 0)] (0, 0) false (by
    intro w q _
    unfold ModCmpEx.selfRec
    simp only
    split
    · exact .done _ _
    · exact .callee _ _ _ _ (by simp) fun _ => .inline _ _ _ (.done _ _)) (by simp)
  match n, hn with
  | 0, hn => cases hn
  | 1, hn => cases hn
  | n + 2, hn => cases hn

theorem renamed_diverges (rec : Pair → MSt Nat Nat → Except Stop (MSt Nat Nat)) : ∀ (n : Nat)
    (inl : List (Option Nat × Option Nat)) (st : MSt Nat Nat), st.results (0, 0) ≠ none →
    st.tryInline.1 ≠ none → st.tryInline.2 ≠ none →
    rounds ModCmpEx.renamed rec (0, 0) n inl st = .error .fuel
  | 0, _, _, _, _, _ => rfl
  | n + 1, inl, ⟨res, mis, (a, b), w, log⟩, hr, ha, hb => by
    cases a with
    | none => exact absurd rfl ha
    | some a =>
      cases b with
      | none => exact absurd rfl hb
      | some b =>
        cases hx : res (0, 0) with
        | none => exact absurd hx hr
        | some x =>
          rw [rounds]
          simp only [Option.isNone_some, Bool.false_eq_true, false_and, if_false]
          have hf : ∀ w side (c : Nat), findCall ModCmpEx.renamed w side 0 (some c) = some c :=
            fun _ _ _ => rfl
          have ht : ∀ w side (c : Nat), tryToInline ModCmpEx.renamed w side (some c) =
              (.inlined, if side then w else w + 1) := fun _ _ _ => rfl
          simp only [hf, ht, ne_eq, not_true_eq_false, false_and, if_false, putKind, hx, runFull,
            ModCmpEx.renamed, runCmp, putVerd_self]
          exact renamed_diverges rec n _ _ (by simp [putVerd_self]) (by simp) (by simp)

/-- C83 does not hold: the number of rounds is not bounded, so a renamed recursive function is inlined
forever. -/
theorem C83_fails_diverge : ¬ C83_statement := by
  intro h
  obtain ⟨n, st', hn⟩ := h Nat Nat ModCmpEx.renamed [(0, 0)] (0, 0) 0 (by
    intro w q _
    exact .inline _ _ _ (.done _ _)) (by simp)
  cases n with
  | zero => cases hn
  | succ n =>
    rw [compareFunctions] at hn
    simp only [newComparator, emplace, ModCmpEx.renamed, ModCmpEx.body, Bool.false_eq_true, if_false,
      Bool.or_self, runFull, runCmp, putVerd_self, putKind] at hn
    have := renamed_diverges (compareFunctions ModCmpEx.renamed n) n []
      ⟨putVerd (putVerd (fun _ => none) (0, 0) (some .unknown)) (0, 0) (some .notEqual), [],
        (some 0, some 0), 0, [.ran (0, 0) false []]⟩ (by simp [putVerd_self]) (by simp) (by simp)
    simp only [ModCmpEx.renamed, ModCmpEx.body] at this
    rw [this] at hn
    cases hn

/-- Pairs of `U` without result. -/
def openPairs (U : List Pair) (st : MSt W C) : Nat := U.countP (fun q => (st.results q).isNone)

/-- Results are only added. -/
def Grows (st st' : MSt W C) : Prop := ∀ q, st.results q ≠ none → st'.results q ≠ none

theorem openPairs_le {U : List Pair} {st st' : MSt W C} (h : Grows st st') :
    openPairs U st' ≤ openPairs U st := by
  unfold openPairs
  refine List.countP_mono_left fun q _ hq => ?_
  simp only [Option.isNone_iff_eq_none] at *
  by_contra hn
  exact h q hn hq

theorem openPairs_lt {U : List Pair} {st st' : MSt W C} (h : Grows st st') {p : Pair} (hp : p ∈ U)
    (h1 : st.results p = none) (h2 : st'.results p ≠ none) : openPairs U st' < openPairs U st := by
  induction U with
  | nil => cases hp
  | cons q U ih =>
    have hle := openPairs_le (U := U) h
    unfold openPairs at *
    rw [List.countP_cons, List.countP_cons]
    by_cases hq : st'.results q = none
    · have : st.results q = none := by by_contra hn; exact h q hn hq
      have hpq : p ≠ q := fun e => h2 (e ▸ hq)
      have := ih ((List.mem_cons.1 hp).resolve_left hpq)
      simp_all
    · rcases List.mem_cons.1 hp with rfl | hp
      · simp_all; omega
      · have := ih hp
        simp only [Option.isNone_iff_eq_none, hq, if_false]
        split <;> omega

/-- Nested comparisons of open pairs end when there is enough fuel. -/
def Ends (U : List Pair) (n : Nat) (rec : Pair → MSt W C → Except Stop (MSt W C)) : Prop :=
  ∀ q ∈ U, ∀ st, st.results q = none → openPairs U st < n →
    ∃ st', rec q st = .ok st' ∧ Grows st st' ∧ st'.results q ≠ none

theorem runCmp_ends {U : List Pair} {n : Nat} {rec : Pair → MSt W C → Except Stop (MSt W C)}
    (hr : Ends U n rec) (p : Pair) {run : Run W C} (hrun : RunIn U run) : ∀ (cs : List Pair)
    (st : MSt W C), st.results p ≠ none → openPairs U st < n →
    ∃ eq st', runCmp rec p run cs st = .ok (eq, st') ∧ Grows st st' := by
  induction hrun with
  | done eq w => intro cs st _ _; exact ⟨eq, _, rfl, fun _ h => h⟩
  | inline l r k _ ih =>
    intro cs st hp hn
    rw [runCmp]
    exact ih cs { st with tryInline := (l, r) } hp hn
  | callee l r w k hU _ ih =>
    intro cs st hp hn
    rw [runCmp]
    cases hp0 : st.results p with
    | none => exact absurd hp0 hp
    | some x =>
      simp only
      cases hq : st.results (l, r) with
      | some y => exact ih w _ { st with w := w } hp hn
      | none =>
        simp only
        obtain ⟨st1, h1, g1, _⟩ := hr (l, r) hU { st with w := w } hq hn
        rw [h1]
        have g1' : Grows st st1 := g1
        obtain ⟨eq, st2, h2, g2⟩ := ih st1.w ((l, r) :: cs) st1 (g1' p hp)
          (Nat.lt_of_le_of_lt (openPairs_le g1') hn)
        exact ⟨eq, st2, h2, fun q h => g2 q (g1' q h)⟩

theorem grows_putKind {p : Pair} {v : Verd} {st : MSt W C} (h : st.results p ≠ none) :
    ∃ st', putKind p v st = .ok st' ∧ Grows st st' ∧ st'.results p ≠ none := by
  unfold putKind
  cases hr : st.results p with
  | none => exact absurd hr h
  | some x => exact ⟨_, rfl, fun q hq => putVerd_some hq, by simp [putVerd_self]⟩

theorem compareFunctions_ends {e : Engine W C} (hn : NoInlining e) {U : List Pair}
    (hU : ∀ w, ∀ q ∈ U, RunIn U (e.cmp w q)) : ∀ n, Ends U n (compareFunctions e (n + 1))
  | 0 => by
    intro p hp st hnone hopen
    exact absurd hopen (Nat.not_lt_zero _)
  | n + 1 => by
    intro p hp st hnone hopen
    have ih := compareFunctions_ends hn hU n
    rw [compareFunctions]
    have g0 : Grows st (emplace p st) := by
      intro q hq
      unfold emplace
      rw [hnone]
      exact putVerd_some hq
    have p0 : (emplace p st).results p ≠ none := by
      unfold emplace
      rw [hnone]
      simp [putVerd_self]
    have o0 := openPairs_lt g0 hp hnone p0
    simp only
    generalize emplace p st = st0 at *
    split
    · obtain ⟨st1, h1, g1, p1⟩ := grows_putKind (v := .unknown) p0
      exact ⟨st1, h1, fun q h => g1 q (g0 q h), p1⟩
    · split
      · obtain ⟨st1, h1, g1, p1⟩ := grows_putKind
          (v := (declVerdict e.controlFlowOnly (e.info true p.1) (e.info false p.2) p).1) p0
        rw [h1]
        exact ⟨_, rfl, fun q h => g1 q (g0 q h), p1⟩
      · obtain ⟨eq, st1, h1, g1⟩ := runCmp_ends ih p (hU st0.w p hp) [] st0 p0 (by omega)
        have p1 := g1 p p0
        have hf : runFull e (compareFunctions e (n + 1)) p st0 = .ok (eq, st1) := by
          unfold runFull
          rw [h1]
          simp only
          cases h2 : st1.results p with
          | none => exact absurd h2 p1
          | some v => rfl
        rw [hf]
        cases eq with
        | true =>
          obtain ⟨st2, h2, g2, p2⟩ := grows_putKind (v := .equal) p1
          exact ⟨st2, h2, fun q h => g2 q (g1 q (g0 q h)), p2⟩
        | false =>
          obtain ⟨st2, h2, g2, p2⟩ := grows_putKind (v := .notEqual) p1
          simp only [h2, rounds_off hn]
          exact ⟨st2, rfl, fun q h => g2 q (g1 q (g0 q h)), p2⟩

/-- C83 without inlining: every comparison ends with a result, after nested comparisons of at most as
many levels as there are pairs of functions. -/
theorem C83_ends_partial (e : Engine W C) (hn : NoInlining e) (U : List Pair) (p : Pair) (w : W)
    (hU : ∀ w, ∀ q ∈ U, RunIn U (e.cmp w q)) (hp : p ∈ U) :
    ∃ st', compareFunctions e (U.length + 2) p (newComparator w) = .ok st' ∧ st'.results p ≠ none := by
  have ho : openPairs U (newComparator w : MSt W C) < U.length + 1 :=
    Nat.lt_succ_of_le List.countP_le_length
  obtain ⟨st', h1, _, h3⟩ := compareFunctions_ends hn hU (U.length + 1) p hp (newComparator w) rfl ho
  exact ⟨st', h1, h3⟩

/-- The hypotheses are met by the recursive function above, without the pattern. -/
example : NoInlining { ModCmpEx.selfRec with splits := false } ∧
    ∀ w, ∀ q ∈ [((0 : Nat), (0 : Nat))],
      RunIn [(0, 0)] (({ ModCmpEx.selfRec with splits := false } : Engine Bool Unit).cmp w q) := by
  refine ⟨⟨rfl, fun _ _ => rfl⟩, fun w q _ => ?_⟩
  unfold ModCmpEx.selfRec
  simp only
  split
  · exact .done _ _
  · exact .callee _ _ _ _ (by simp) fun _ => .inline _ _ _ (.done _ _)

/-- The hypotheses of C39 and C40 are met: declarations with and without suffix; the functions of
`hidden`. -/
example : ∃ st', compareFunctions
    ({ ModCmpEx.hidden with info := fun side _ => ⟨if side then str! "g" else str! "g.12", side, false,
        false, false⟩ } : Engine Bool Unit) 1 (4, 5) (newComparator false) = .ok st' ∧
    st'.results (4, 5) = some .assumedEqual ∧ st'.missing = [(some 4, none)] := by
  refine ⟨_, rfl, ?_, ?_⟩ <;> decide

end DK
