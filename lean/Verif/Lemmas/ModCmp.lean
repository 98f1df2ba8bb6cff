import Verif.Spec.ModCmp
import Verif.Props.Text

/-! Invariants of the module comparator. -/

set_option autoImplicit false

namespace DK
open Spec

variable {W C : Type}

theorem sameName_iff (l r : FunHead) : SameName l r ↔ stem l.name = stem r.name := by
  unfold SameName
  simp only [stem_iff]
  constructor
  · rintro ⟨b, h1, h2⟩; rw [← h1, ← h2]
  · intro h; exact ⟨_, rfl, h⟩

theorem putVerd_self (res : Pair → Option Verd) (p : Pair) (v : Option Verd) :
    putVerd res p v p = v := by simp [putVerd]

theorem putVerd_ne {res : Pair → Option Verd} {p q : Pair} {v : Option Verd} (h : q ≠ p) :
    putVerd res p v q = res q := by simp [putVerd, h]

theorem putKind_ok {p : Pair} {v : Verd} {st st' : MSt W C} (h : putKind p v st = .ok st') :
    st.results p ≠ none ∧ st' = { st with results := putVerd st.results p (some v) } := by
  unfold putKind at h
  cases hr : st.results p with
  | none => rw [hr] at h; cases h
  | some x => rw [hr] at h; cases h; exact ⟨by simp, rfl⟩

/-- The pair has a result or was dropped. -/
def Have (st : MSt W C) (q : Pair) : Prop := st.results q ≠ none ∨ Dropped st.log q

/-- The state `st'` comes after `st`. -/
def After (st st' : MSt W C) : Prop :=
  (∃ pre, st'.log = pre ++ st.log) ∧ ∀ q, st.results q ≠ none → Have st' q

theorem After.refl (st : MSt W C) : After st st := ⟨⟨[], rfl⟩, fun _ h => .inl h⟩

theorem dropped_mono {st st' : MSt W C} (h : After st st') {q : Pair} (hd : Dropped st.log q) :
    Dropped st'.log q := by
  obtain ⟨⟨pre, hp⟩, _⟩ := h
  obtain ⟨p, hp'⟩ := hd
  exact ⟨p, by rw [hp]; exact List.mem_append_right _ hp'⟩

theorem Have.mono {st st' : MSt W C} (h : After st st') {q : Pair} (hq : Have st q) : Have st' q := by
  rcases hq with hq | hq
  · exact h.2 q hq
  · exact .inr (dropped_mono h hq)

theorem After.trans {a b c : MSt W C} (h1 : After a b) (h2 : After b c) : After a c := by
  refine ⟨?_, fun q hq => (h1.2 q hq).mono h2⟩
  obtain ⟨⟨x, hx⟩, _⟩ := h1
  obtain ⟨⟨y, hy⟩, _⟩ := h2
  exact ⟨y ++ x, by rw [hy, hx, List.append_assoc]⟩

theorem After.mem {a b : MSt W C} (h : After a b) {x : Ev} (hx : x ∈ a.log) : x ∈ b.log := by
  obtain ⟨⟨pre, hp⟩, _⟩ := h
  rw [hp]; exact List.mem_append_right _ hx

/-- A change of the results that keeps all recorded pairs, and of other parts. -/
theorem after_of {st st' : MSt W C} {pre : List Ev} (hl : st'.log = pre ++ st.log)
    (hr : ∀ q, st.results q ≠ none → st'.results q ≠ none) : After st st' :=
  ⟨⟨pre, hl⟩, fun q hq => .inl (hr q hq)⟩

theorem putVerd_some {res : Pair → Option Verd} {p q : Pair} {v : Verd} (h : res q ≠ none) :
    putVerd res p (some v) q ≠ none := by
  unfold putVerd
  split <;> simp_all

theorem after_putKind {p : Pair} {v : Verd} {st st' : MSt W C} (h : putKind p v st = .ok st') :
    After st st' ∧ st'.results p = some v ∧ st'.log = st.log ∧ st'.w = st.w ∧
      st'.tryInline = st.tryInline := by
  obtain ⟨_, rfl⟩ := putKind_ok h
  exact ⟨after_of (pre := []) rfl (fun q hq => putVerd_some hq), putVerd_self _ _ _, rfl, rfl, rfl⟩

theorem dropsOk_cons {x : Ev} {l : List Ev} (hx : ∀ p q, x = .dropped p q →
    (∃ cs, lastRun p l = some (true, cs)) ∧ .inlined p (some q.1, some q.2) ∈ l)
    (hl : DropsOk l) : DropsOk (x :: l) := by
  intro pre p q rest h
  cases pre with
  | nil => cases h; exact hx p q rfl
  | cons y pre => cases h; exact hl pre p q rest rfl

/-- The invariant; the pairs of `S` are being compared. -/
structure MInv (e : Engine W C) (S : Pair → Prop) (st : MSt W C) : Prop where
  just : ∀ q v, ¬ S q → st.results q = some v → Justified e st.log q v
  drops : DropsOk st.log
  runs : ∀ q r, lastRun q st.log = some r → Have st q
  deps : ∀ q eq cs, lastRun q st.log = some (eq, cs) → ∀ c ∈ cs, Have st c

theorem MInv.weaken {e : Engine W C} {S T : Pair → Prop} {st : MSt W C} (h : MInv e S st)
    (hst : ∀ q, S q → T q) : MInv e T st :=
  ⟨fun q v hq => h.just q v (fun hs => hq (hst q hs)), h.drops, h.runs, h.deps⟩

/-- Everything but the log and the results is irrelevant. -/
theorem MInv.congr {e : Engine W C} {S : Pair → Prop} {st st' : MSt W C} (h : MInv e S st)
    (hr : st'.results = st.results) (hl : st'.log = st.log) : MInv e S st' := by
  obtain ⟨h1, h2, h3, h4⟩ := h
  refine ⟨?_, ?_, ?_, ?_⟩ <;> simp only [hr, hl, Have] at *
  exacts [h1, h2, h3, h4]

theorem justified_congr {e : Engine W C} {l l' : List Ev} {q : Pair} {v : Verd}
    (h : lastRun q l' = lastRun q l) (hj : Justified e l q v) : Justified e l' q v := by
  unfold Justified at *
  rw [h]
  exact hj

/-- Recording a justified verdict. -/
theorem MInv.set {e : Engine W C} {S : Pair → Prop} {p : Pair} {v : Verd} {st st' : MSt W C}
    (h : MInv e S st) (hs : putKind p v st = .ok st') (hj : Justified e st.log p v) :
    MInv e (fun q => S q ∧ q ≠ p) st' := by
  obtain ⟨ha, hp, hl, _, _⟩ := after_putKind hs
  obtain ⟨_, rfl⟩ := putKind_ok hs
  refine ⟨?_, h.drops, fun q r hq => (h.runs q r hq).mono ha,
    fun q eq cs hq c hc => (h.deps q eq cs hq c hc).mono ha⟩
  intro q w hq hw
  by_cases hqp : q = p
  · subst hqp
    rw [hp] at hw
    cases hw
    exact hj
  · replace hw := (show putVerd st.results p (some v) q = st.results q from putVerd_ne hqp).symm.trans hw
    exact h.just q w (fun hs => hq ⟨hs, hqp⟩) hw

/-- Any verdict of a pair that is being compared. -/
theorem MInv.setOpen {e : Engine W C} {S : Pair → Prop} {p : Pair} {v : Verd} {st st' : MSt W C}
    (h : MInv e S st) (hs : putKind p v st = .ok st') (hp : S p) : MInv e S st' := by
  obtain ⟨ha, _, _, _, _⟩ := after_putKind hs
  obtain ⟨_, rfl⟩ := putKind_ok hs
  refine ⟨?_, h.drops, fun q r hq => (h.runs q r hq).mono ha,
    fun q eq cs hq c hc => (h.deps q eq cs hq c hc).mono ha⟩
  intro q w hq hw
  have hqp : q ≠ p := fun hqp => hq (hqp ▸ hp)
  replace hw := (show putVerd st.results p (some v) q = st.results q from putVerd_ne hqp).symm.trans hw
  exact h.just q w hq hw

/-- What nested comparisons satisfy. -/
def RecOk (e : Engine W C) (rec : Pair → MSt W C → Except Stop (MSt W C)) : Prop :=
  ∀ p S st st', MInv e S st → rec p st = .ok st' →
    MInv e (fun q => S q ∧ q ≠ p) st' ∧ After st st' ∧ st'.results p ≠ none

theorem runCmp_inv {e : Engine W C} {rec : Pair → MSt W C → Except Stop (MSt W C)}
    (hrec : RecOk e rec) {p : Pair} {S : Pair → Prop} (hp : S p) : ∀ (run : Run W C) (cs : List Pair)
    (st st' : MSt W C) (eq : Bool), MInv e S st → (∀ c ∈ cs, Have st c) →
    runCmp rec p run cs st = .ok (eq, st') → st'.results p ≠ none →
    MInv e S st' ∧ After st st' ∧ ∃ cs', lastRun p st'.log = some (eq, cs') := by
  intro run
  induction run with
  | done eq w =>
    intro cs st st' eq' hi hcs h hpr
    rw [runCmp] at h
    cases h
    have ha : After st { st with w := w, log := .ran p eq cs :: st.log } :=
      after_of (pre := [.ran p eq cs]) rfl (fun q hq => hq)
    have hl : ∀ q, q ≠ p → lastRun q (.ran p eq cs :: st.log) = lastRun q st.log := by
      intro q hq
      rw [lastRun, if_neg (Ne.symm hq)]
    refine ⟨⟨?_, ?_, ?_, ?_⟩, ha, cs, by simp [lastRun]⟩
    · intro q v hq hv
      have hqp : q ≠ p := fun h => hq (h ▸ hp)
      exact justified_congr (hl q hqp) (hi.just q v hq hv)
    · exact dropsOk_cons (by intro _ _ h; cases h) hi.drops
    · intro q r hr
      by_cases hqp : q = p
      · subst hqp; exact .inl hpr
      · exact (hi.runs q r (by rw [← hl q hqp]; exact hr)).mono ha
    · intro q eq' cs' hr c hc
      by_cases hqp : q = p
      · subst hqp
        simp only [lastRun, if_true, Option.some.injEq, Prod.mk.injEq] at hr
        obtain ⟨rfl, rfl⟩ := hr
        exact (hcs c hc).mono ha
      · exact (hi.deps q eq' cs' (by rw [← hl q hqp]; exact hr) c hc).mono ha
  | inline l r k ih =>
    intro cs st st' eq hi hcs h hpr
    rw [runCmp] at h
    obtain ⟨h1, h2, h3⟩ := ih cs { st with tryInline := (l, r) } st' eq (hi.congr rfl rfl) hcs h hpr
    exact ⟨h1, h2, h3⟩
  | callee l r w k ih =>
    intro cs st st' eq hi hcs h hpr
    rw [runCmp] at h
    cases hp0 : st.results p with
    | none => rw [hp0] at h; cases h
    | some x =>
      rw [hp0] at h
      simp only at h
      cases hq : st.results (l, r) with
      | some y =>
        rw [hq] at h
        simp only at h
        obtain ⟨h1, h2, h3⟩ := ih w ((l, r) :: cs) { st with w := w } st' eq (hi.congr rfl rfl)
          (by
            intro c hc
            rcases List.mem_cons.1 hc with rfl | hc
            · exact .inl (by simp [hq])
            · exact hcs c hc) h hpr
        exact ⟨h1, h2, h3⟩
      | none =>
        rw [hq] at h
        simp only at h
        cases hr : rec (l, r) { st with w := w } with
        | error s => rw [hr] at h; cases h
        | ok st1 =>
          rw [hr] at h
          simp only at h
          obtain ⟨i1, a1, r1⟩ := hrec (l, r) S { st with w := w } st1 (hi.congr rfl rfl) hr
          have a1' : After st st1 := a1
          obtain ⟨h1, h2, h3⟩ := ih st1.w ((l, r) :: cs) st1 st' eq (i1.weaken fun q h => h.1)
            (by
              intro c hc
              rcases List.mem_cons.1 hc with rfl | hc
              · exact .inl r1
              · exact (hcs c hc).mono a1') h hpr
          exact ⟨h1, a1'.trans h2, h3⟩

theorem runFull_inv {e : Engine W C} {rec : Pair → MSt W C → Except Stop (MSt W C)}
    (hrec : RecOk e rec) {p : Pair} {S : Pair → Prop} (hp : S p) {st st' : MSt W C} {eq : Bool}
    (hi : MInv e S st) (h : runFull e rec p st = .ok (eq, st')) :
    MInv e S st' ∧ After st st' ∧ (∃ cs, lastRun p st'.log = some (eq, cs)) ∧ st'.results p ≠ none := by
  unfold runFull at h
  cases hr : runCmp rec p (e.cmp st.w p) [] st with
  | error s => rw [hr] at h; cases h
  | ok x =>
    obtain ⟨eq', st1⟩ := x
    rw [hr] at h
    simp only at h
    cases hq : st1.results p with
    | none => rw [hq] at h; cases h
    | some v =>
      rw [hq] at h
      have hne : st1.results p ≠ none := by rw [hq]; simp
      cases h
      obtain ⟨h1, h2, h3⟩ := runCmp_inv hrec hp _ _ _ _ _ hi (by simp) hr hne
      exact ⟨h1, h2, h3, hne⟩

theorem dropAll_inv {e : Engine W C} {p : Pair} {S : Pair → Prop} : ∀ (qs : List (Option Nat × Option Nat))
    (st : MSt W C), MInv e S st → (∃ cs, lastRun p st.log = some (true, cs)) →
    (∀ q ∈ qs, .inlined p q ∈ st.log) →
    MInv e S (dropAll p qs st) ∧ After st (dropAll p qs st) ∧
      ∃ cs, lastRun p (dropAll p qs st).log = some (true, cs)
  | [], st, hi, hl, _ => ⟨hi, After.refl st, hl⟩
  | (some l, some r) :: qs, st, hi, hl, hq => by
    rw [dropAll]
    have ha : After st { st with results := putVerd st.results (l, r) none,
                                 log := .dropped p (l, r) :: st.log } := by
      refine ⟨⟨[.dropped p (l, r)], rfl⟩, fun q hq => ?_⟩
      by_cases h : q = (l, r)
      · exact .inr ⟨p, by rw [h]; simp⟩
      · left
        show putVerd st.results (l, r) none q ≠ none
        rw [putVerd_ne h]; exact hq
    have hi' : MInv e S { st with results := putVerd st.results (l, r) none,
                                  log := .dropped p (l, r) :: st.log } := by
      refine ⟨?_, ?_, fun q r hr => (hi.runs q r hr).mono ha,
        fun q eq cs hr c hc => (hi.deps q eq cs hr c hc).mono ha⟩
      · intro q v hs hv
        have hne : q ≠ (l, r) := by
          rintro rfl
          replace hv := (show putVerd st.results (l, r) none (l, r) = none from putVerd_self _ _ _).symm.trans hv
          cases hv
        replace hv := (show putVerd st.results (l, r) none q = st.results q from putVerd_ne hne).symm.trans hv
        exact justified_congr rfl (hi.just q v hs hv)
      · refine dropsOk_cons ?_ hi.drops
        intro p' q' h
        cases h
        exact ⟨hl, hq (some l, some r) (by simp)⟩
    obtain ⟨h1, h2, h3⟩ := dropAll_inv qs _ hi' hl (fun q hq' =>
      List.mem_cons_of_mem _ (hq q (List.mem_cons_of_mem _ hq')))
    exact ⟨h1, ha.trans h2, h3⟩
  | (none, _) :: qs, st, hi, hl, hq => by
    rw [dropAll]
    · exact dropAll_inv qs st hi hl fun q hq' => hq q (List.mem_cons_of_mem _ hq')
    · simp
  | (some _, none) :: qs, st, hi, hl, hq => by
    rw [dropAll]
    · exact dropAll_inv qs st hi hl fun q hq' => hq q (List.mem_cons_of_mem _ hq')
    · simp

/-- Pairs that are compared by their bodies. -/
def Bodies (e : Engine W C) (p : Pair) : Prop :=
  e.cached p = false ∧ (e.info true p.1).isDecl = false ∧ (e.info false p.2).isDecl = false

theorem justified_equal {e : Engine W C} {p : Pair} (hb : Bodies e p) {log : List Ev}
    (h : ∃ cs, lastRun p log = some (true, cs)) : Justified e log p .equal := by
  obtain ⟨h1, h2, h3⟩ := hb
  unfold Justified
  rw [if_neg (by simp [h1]), if_neg (by simp [h2, h3])]
  exact .inl ⟨rfl, h⟩

theorem justified_notEqual {e : Engine W C} {p : Pair} (hb : Bodies e p) {log : List Ev}
    (h : ∃ cs, lastRun p log = some (false, cs)) : Justified e log p .notEqual := by
  obtain ⟨h1, h2, h3⟩ := hb
  unfold Justified
  rw [if_neg (by simp [h1]), if_neg (by simp [h2, h3])]
  exact .inr ⟨rfl, h⟩

theorem rounds_inv {e : Engine W C} {rec : Pair → MSt W C → Except Stop (MSt W C)}
    (hrec : RecOk e rec) {p : Pair} (hb : Bodies e p) {T : Pair → Prop} : ∀ (n : Nat)
    (inl : List (Option Nat × Option Nat)) (st st' : MSt W C), MInv e T st → st.results p ≠ none →
    (∀ q ∈ inl, .inlined p q ∈ st.log) → rounds e rec p n inl st = .ok st' →
    MInv e T st' ∧ After st st' ∧ st'.results p ≠ none
  | 0, inl, st, st', _, _, _, h => by rw [rounds] at h; cases h
  | n + 1, inl, st, st', hi, hpr, hinl, h => by
    rw [rounds] at h
    split at h
    · cases h; exact ⟨hi, After.refl _, hpr⟩
    · simp only at h
      generalize findCall e st.w true p.1 st.tryInline.1 = c1 at h
      generalize findCall e st.w false p.2 st.tryInline.2 = c2 at h
      generalize hq : (c1.map (e.called st.w true), c2.map (e.called st.w false)) = q at h
      generalize tryToInline e st.w true c1 = r1 at h
      generalize tryToInline e r1.2 false c2 = r2 at h
      generalize (if r1.1 = .missingDef ∨ r2.1 = .missingDef then st.missing ++ [q] else st.missing)
        = missing at h
      split at h
      · cases h
        exact ⟨hi.congr rfl rfl, after_of (pre := []) rfl (fun q hq => hq), hpr⟩
      · generalize hst0 : (MSt.mk st.results missing st.tryInline
          (e.simplify (e.simplify r2.2 true p.1) false p.2) (.inlined p q :: st.log) : MSt W C) = st0 at h
        have a0 : After st st0 := by
          rw [← hst0]; exact after_of (pre := [.inlined p q]) rfl (fun q hq => hq)
        have i0 : MInv e (fun q => T q ∨ q = p) st0 := by
          rw [← hst0]
          refine ⟨?_, dropsOk_cons (by intro _ _ h; cases h) hi.drops, ?_, ?_⟩
          · intro q' v hq' hv
            exact justified_congr rfl (hi.just q' v (fun h => hq' (.inl h)) hv)
          · intro q' r hr
            have := (hi.runs q' r hr).mono a0
            rw [← hst0] at this; exact this
          · intro q' eq cs hr c hc
            have := (hi.deps q' eq cs hr c hc).mono a0
            rw [← hst0] at this; exact this
        have hinl0 : ∀ q' ∈ q :: inl, .inlined p q' ∈ st0.log := by
          intro q' hq'
          rw [← hst0]
          rcases List.mem_cons.1 hq' with rfl | hq'
          · simp
          · exact List.mem_cons_of_mem _ (hinl q' hq')
        have fin : ∀ {st1 : MSt W C}, MInv e (fun q => (T q ∨ q = p) ∧ q ≠ p) st1 → MInv e T st1 :=
          fun h => h.weaken fun q hq => hq.1.resolve_right hq.2
        cases hk : putKind p .unknown st0 with
        | error s => rw [hk] at h; cases h
        | ok st1 =>
          rw [hk] at h
          simp only at h
          obtain ⟨a1, r1', l1, _, _⟩ := after_putKind hk
          have i1 := i0.setOpen hk (.inr rfl)
          cases hf : runFull e rec p st1 with
          | error s => rw [hf] at h; cases h
          | ok x =>
            obtain ⟨eq, st2⟩ := x
            rw [hf] at h
            obtain ⟨i2, a2, c2', p2⟩ := runFull_inv hrec (S := fun q => T q ∨ q = p) (.inr rfl) i1 hf
            have hinl2 : ∀ q' ∈ q :: inl, .inlined p q' ∈ st2.log := fun q' hq' =>
              a2.mem (a1.mem (hinl0 q' hq'))
            cases eq with
            | true =>
              simp only at h
              obtain ⟨i3, a3, c3⟩ := dropAll_inv (q :: inl) st2 i2 c2' hinl2
              cases hk2 : putKind p .equal (dropAll p (q :: inl) st2) with
              | error s => rw [hk2] at h; cases h
              | ok st4 =>
                rw [hk2] at h
                obtain ⟨a4, r4, l4, _, _⟩ := after_putKind hk2
                have i4 := fin (i3.set hk2 (justified_equal hb c3))
                obtain ⟨h1, h2, h3⟩ := rounds_inv hrec hb n (q :: inl) st4 st' i4 (by rw [r4]; simp)
                  (fun q' hq' => a4.mem (a3.mem (hinl2 q' hq'))) h
                exact ⟨h1, a0.trans (a1.trans (a2.trans (a3.trans (a4.trans h2)))), h3⟩
            | false =>
              simp only at h
              cases hk2 : putKind p .notEqual st2 with
              | error s => rw [hk2] at h; cases h
              | ok st4 =>
                rw [hk2] at h
                obtain ⟨a4, r4, l4, _, _⟩ := after_putKind hk2
                have i4 := fin (i2.set hk2 (justified_notEqual hb c2'))
                obtain ⟨h1, h2, h3⟩ := rounds_inv hrec hb n (q :: inl) st4 st' i4 (by rw [r4]; simp)
                  (fun q' hq' => a4.mem (hinl2 q' hq')) h
                exact ⟨h1, a0.trans (a1.trans (a2.trans (a4.trans h2))), h3⟩

theorem emplace_inv {e : Engine W C} {S : Pair → Prop} {p : Pair} {st : MSt W C} (hi : MInv e S st) :
    MInv e (fun q => S q ∨ q = p) (emplace p st) ∧ After st (emplace p st) ∧
      (emplace p st).results p ≠ none := by
  unfold emplace
  cases hr : st.results p with
  | some v =>
    simp only
    exact ⟨hi.weaken fun q h => .inl h, After.refl _, by rw [hr]; simp⟩
  | none =>
    simp only
    have ha : After st { st with results := putVerd st.results p (some .unknown) } :=
      after_of (pre := []) rfl (fun q hq => putVerd_some hq)
    refine ⟨⟨?_, hi.drops, fun q r hq => (hi.runs q r hq).mono ha,
      fun q eq cs hq c hc => (hi.deps q eq cs hq c hc).mono ha⟩, ha, by rw [putVerd_self]; simp⟩
    intro q v hq hv
    have hqp : q ≠ p := fun h => hq (.inr h)
    replace hv := (show putVerd st.results p (some .unknown) q = st.results q from putVerd_ne hqp).symm.trans hv
    exact hi.just q v (fun h => hq (.inl h)) hv

theorem declVerdict_justified {e : Engine W C} {p : Pair} (hc : e.cached p = false)
    (hd : (e.info true p.1).isDecl = true ∨ (e.info false p.2).isDecl = true) (log : List Ev) :
    Justified e log p
      (declVerdict e.controlFlowOnly (e.info true p.1) (e.info false p.2) p).1 := by
  unfold Justified
  rw [if_neg (by simp [hc]), if_pos hd, sameName_iff]
  unfold declVerdict
  by_cases hn : stem (e.info true p.1).name = stem (e.info false p.2).name
  · left
    refine ⟨?_, hn⟩
    simp only [hn]
    split
    · simp
    · split
      · rfl
      · simp
  · right
    refine ⟨?_, hn⟩
    simp only [hn]
    split <;> simp

theorem compareFunctions_inv (e : Engine W C) : ∀ n, RecOk e (compareFunctions e n)
  | 0 => by intro p S st st' _ h; rw [compareFunctions] at h; cases h
  | n + 1 => by
    intro p S st st' hi h
    have hrec := compareFunctions_inv e n
    rw [compareFunctions] at h
    simp only at h
    obtain ⟨i0, a0, p0⟩ := emplace_inv (p := p) hi
    generalize emplace p st = st0 at *
    have fin : ∀ {st1 : MSt W C}, MInv e (fun q => (S q ∨ q = p) ∧ q ≠ p) st1 →
        MInv e (fun q => S q ∧ q ≠ p) st1 :=
      fun h => h.weaken fun q hq => ⟨hq.1.resolve_right hq.2, hq.2⟩
    split at h
    · rename_i hc
      obtain ⟨a1, r1, l1, _, _⟩ := after_putKind h
      refine ⟨fin (i0.set h ?_), a0.trans a1, by rw [r1]; simp⟩
      unfold Justified
      rw [if_pos hc]
    · rename_i hc
      have hc' : e.cached p = false := by simpa using hc
      split at h
      · rename_i hd
        have hd' : (e.info true p.1).isDecl = true ∨ (e.info false p.2).isDecl = true := by
          simpa using hd
        cases hk : putKind p (declVerdict e.controlFlowOnly (e.info true p.1) (e.info false p.2) p).1
            st0 with
        | error s => rw [hk] at h; cases h
        | ok st1 =>
          rw [hk] at h
          cases h
          obtain ⟨a1, r1, l1, _, _⟩ := after_putKind hk
          have i1 := fin (i0.set hk (declVerdict_justified hc' hd' _))
          exact ⟨i1.congr rfl rfl, a0.trans a1, by show st1.results p ≠ none; rw [r1]; simp⟩
      · rename_i hd
        have hb : Bodies e p := by
          refine ⟨hc', ?_⟩
          simpa using hd
        cases hf : runFull e (compareFunctions e n) p st0 with
        | error s => rw [hf] at h; cases h
        | ok x =>
          obtain ⟨eq, st1⟩ := x
          rw [hf] at h
          obtain ⟨i1, a1, c1, p1⟩ := runFull_inv hrec (S := fun q => S q ∨ q = p) (.inr rfl) i0 hf
          cases eq with
          | true =>
            simp only at h
            obtain ⟨a2, r2, l2, _, _⟩ := after_putKind h
            exact ⟨fin (i1.set h (justified_equal hb c1)), a0.trans (a1.trans a2), by rw [r2]; simp⟩
          | false =>
            simp only at h
            cases hk : putKind p .notEqual st1 with
            | error s => rw [hk] at h; cases h
            | ok st2 =>
              rw [hk] at h
              obtain ⟨a2, r2, l2, _, _⟩ := after_putKind hk
              have i2 := fin (i1.set hk (justified_notEqual hb c1))
              obtain ⟨i3, a3, p3⟩ := rounds_inv hrec hb n [] st2 st' i2 (by rw [r2]; simp) (by simp) h
              exact ⟨i3, a0.trans (a1.trans (a2.trans a3)), p3⟩

theorem compareAll_inv (e : Engine W C) (n : Nat) {S : Pair → Prop} : ∀ (ps : List Pair)
    (st st' : MSt W C), MInv e S st → compareAll e n ps st = .ok st' →
    MInv e S st' ∧ After st st' ∧ ∀ p ∈ ps, Have st' p
  | [], st, st', hi, h => by cases h; exact ⟨hi, After.refl _, by simp⟩
  | p :: ps, st, st', hi, h => by
    rw [compareAll] at h
    cases hk : compareFunctions e n p st with
    | error s => rw [hk] at h; cases h
    | ok st1 =>
      rw [hk] at h
      simp only at h
      obtain ⟨i1, a1, p1⟩ := compareFunctions_inv e n p S st st1 hi hk
      obtain ⟨i2, a2, p2⟩ := compareAll_inv e n ps st1 st' (i1.weaken fun q h => h.1) h
      refine ⟨i2, a1.trans a2, ?_⟩
      intro q hq
      rcases List.mem_cons.1 hq with rfl | hq
      · exact Have.mono a2 (.inl p1)
      · exact p2 q hq

theorem newComparator_inv (e : Engine W C) (w : W) : MInv e (fun _ => False) (newComparator w : MSt W C) :=
  ⟨fun _ _ _ h => (by cases h), fun pre _ _ _ h => by
      have : pre ++ _ = ([] : List Ev) := h.symm
      simp at this, fun _ _ h => (by cases h), fun _ _ _ h => (by cases h)⟩

end DK
