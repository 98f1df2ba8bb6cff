import Verif.Spec.FunctionsDiff
import Verif.Lemmas.Dict

set_option autoImplicit false

namespace DK
open Spec

/-! ### Linking -/

/-- What one attempt to link a symbol does to the state. -/
theorem linkSymbolDef_cases (env : FDEnv) (s : Side) (sym : Str) (st : FDState) :
    let r := linkSymbolDef env s sym st
    (r.1.heap = st.heap ∧ r.1.engineRuns = st.engineRuns ∧ r.1.curr = st.curr ∧ r.1.cache = st.cache) ∧
    ((r.2 = false ∧ r.1.mods = st.mods ∧ (r.1.written = st.written ∨ r.1.written = st.written ++ [(st.mods s).linkTarget])) ∨
     (r.2 = true ∧ ∃ new, new ∉ (st.mods s).linked ∧
        ((∃ n, env.snapLookup s n sym = some new) ∨ (∃ look n, env.srcLookup s = some look ∧ look n sym = some new)) ∧
        r.1.written = st.written ++ [(st.mods s).linkTarget] ∧
        r.1.mods = fun t => if t = s then
          { llvm := (st.mods s).linkTarget, unlinked := some ((st.mods s).unlinked.getD (st.mods s).llvm)
            linked := new :: (st.mods s).linked } else st.mods t)) := by
  intro r
  have key : ∀ new : ModId,
      ((∃ n, env.snapLookup s n sym = some new) ∨ (∃ look n, env.srcLookup s = some look ∧ look n sym = some new)) →
      r = (let r := (st.mods s).link new (env.linkOk st.clock)
           ({ st with
              clock := st.clock + 1
              mods := fun t => if t = s then r.1 else st.mods t
              written := st.written ++ r.2.2 }, r.2.1)) →
      (r.1.heap = st.heap ∧ r.1.engineRuns = st.engineRuns ∧ r.1.curr = st.curr ∧ r.1.cache = st.cache) ∧
      ((r.2 = false ∧ r.1.mods = st.mods ∧ (r.1.written = st.written ∨ r.1.written = st.written ++ [(st.mods s).linkTarget])) ∨
       (r.2 = true ∧ ∃ new, new ∉ (st.mods s).linked ∧
        ((∃ n, env.snapLookup s n sym = some new) ∨ (∃ look n, env.srcLookup s = some look ∧ look n sym = some new)) ∧
        r.1.written = st.written ++ [(st.mods s).linkTarget] ∧
        r.1.mods = fun t => if t = s then
          { llvm := (st.mods s).linkTarget, unlinked := some ((st.mods s).unlinked.getD (st.mods s).llvm)
            linked := new :: (st.mods s).linked } else st.mods t)) := by
    intro new hnew hr
    rw [hr]
    have hsame : (fun t => if t = s then st.mods s else st.mods t) = st.mods := by
      funext t; split
      · next h => rw [h]
      · rfl
    by_cases h1 : new ∈ (st.mods s).linked
    · have hl : (st.mods s).link new (env.linkOk st.clock) = (st.mods s, false, []) := by simp [LMod.link, h1]
      rw [hl]
      exact ⟨⟨rfl, rfl, rfl, rfl⟩, Or.inl ⟨rfl, hsame, Or.inl (List.append_nil _)⟩⟩
    · by_cases h2 : env.linkOk st.clock = true
      · have hl : (st.mods s).link new (env.linkOk st.clock) =
            ({ llvm := (st.mods s).linkTarget, unlinked := some ((st.mods s).unlinked.getD (st.mods s).llvm)
               linked := new :: (st.mods s).linked }, true, [(st.mods s).linkTarget]) := by simp [LMod.link, h1, h2]
        rw [hl]
        exact ⟨⟨rfl, rfl, rfl, rfl⟩, Or.inr ⟨rfl, new, h1, hnew, rfl, rfl⟩⟩
      · have hl : (st.mods s).link new (env.linkOk st.clock) = (st.mods s, false, [(st.mods s).linkTarget]) := by
          simp [LMod.link, h1, h2]
        rw [hl]
        exact ⟨⟨rfl, rfl, rfl, rfl⟩, Or.inl ⟨rfl, hsame, Or.inr rfl⟩⟩
  cases h1 : env.snapLookup s st.clock sym with
  | some new => exact key new (Or.inl ⟨_, h1⟩) (by simp only [r, linkSymbolDef, h1])
  | none =>
    cases h2 : env.srcLookup s with
    | none =>
      have : r = ({ st with clock := st.clock + 1 }, false) := by simp only [r, linkSymbolDef, h1, h2]
      rw [this]
      exact ⟨⟨rfl, rfl, rfl, rfl⟩, Or.inl ⟨rfl, rfl, Or.inl rfl⟩⟩
    | some look =>
      cases h3 : look st.clock sym with
      | none =>
        have : r = ({ st with clock := st.clock + 1 }, false) := by simp only [r, linkSymbolDef, h1, h2, h3]
        rw [this]
        exact ⟨⟨rfl, rfl, rfl, rfl⟩, Or.inl ⟨rfl, rfl, Or.inl rfl⟩⟩
      | some new => rw [← h2]; exact key new (Or.inr ⟨look, _, h2, h3⟩) (by simp only [r, linkSymbolDef, h1, h2, h3])

/-- Induction over the attempts of `linkMissing`. -/
theorem linkMissing_ind (env : FDEnv) (Q : FDState × Bool → Prop)
    (hstep : ∀ s sym x, Q x → Q ((linkSymbolDef env s sym x.1).1, x.2 || (linkSymbolDef env s sym x.1).2))
    (st : FDState) (ms : MissingDefs) (h0 : Q (st, false)) : Q (linkMissing env st ms) := by
  have hopt : ∀ s sym x, Q x → Q (linkOpt env s sym x) := by
    intro s sym x hx
    unfold linkOpt
    cases sym with
    | none => exact hx
    | some n => exact hstep s n x hx
  unfold linkMissing
  generalize (st, false) = x at h0
  induction ms generalizing x with
  | nil => exact h0
  | cons m ms ih =>
    rw [List.foldl_cons]
    exact ih _ (hopt _ _ _ (hopt _ _ _ h0))

theorem linkMissing_keeps (env : FDEnv) (st : FDState) (ms : MissingDefs) :
    (linkMissing env st ms).1.heap = st.heap ∧ (linkMissing env st ms).1.engineRuns = st.engineRuns ∧
    (linkMissing env st ms).1.curr = st.curr ∧ (linkMissing env st ms).1.cache = st.cache := by
  refine linkMissing_ind env (fun x => x.1.heap = st.heap ∧ x.1.engineRuns = st.engineRuns ∧ x.1.curr = st.curr ∧
    x.1.cache = st.cache) ?_ st ms ⟨rfl, rfl, rfl, rfl⟩
  intro s sym x hx
  obtain ⟨h, _⟩ := linkSymbolDef_cases env s sym x.1
  exact ⟨h.1.trans hx.1, h.2.1.trans hx.2.1, h.2.2.1.trans hx.2.2.1, h.2.2.2.trans hx.2.2.2⟩

/-- Number of modules that can still be linked. -/
def openMods (L : Side → Finset ModId) (mods : Side → LMod) : Nat :=
  (L .left \ (mods .left).linked.toFinset).card + (L .right \ (mods .right).linked.toFinset).card

theorem linkMissing_measure {env : FDEnv} {L : Side → Finset ModId} (hL : FindsOnly env L) (st : FDState) (ms : MissingDefs) :
    openMods L (linkMissing env st ms).1.mods + (if (linkMissing env st ms).2 then 1 else 0) ≤ openMods L st.mods := by
  refine linkMissing_ind env (fun x => openMods L x.1.mods + (if x.2 then 1 else 0) ≤ openMods L st.mods) ?_ st ms (by simp)
  intro s sym x hx
  obtain ⟨_, h⟩ := linkSymbolDef_cases env s sym x.1
  rcases h with ⟨h1, h2, _⟩ | ⟨h1, new, hnew, hfound, _, h2⟩
  · simp only [h1, Bool.or_false, h2]; exact hx
  · have hmem : new ∈ L s := by
      rcases hfound with ⟨n, hn⟩ | ⟨look, n, h3, h4⟩
      · exact hL.1 s n sym new hn
      · exact hL.2 s look h3 n sym new h4
    simp only [h1, Bool.or_true, if_true, h2]
    have hlt : ∀ m : LMod, new ∉ m.linked →
        (L s \ (new :: m.linked).toFinset).card + 1 = (L s \ m.linked.toFinset).card := by
      intro m hm
      rw [List.toFinset_cons, Finset.sdiff_insert]
      exact Finset.card_erase_add_one (by simp [hmem, hm])
    have := hlt (x.1.mods s) hnew
    have hx' : openMods L x.1.mods ≤ openMods L st.mods := le_trans (Nat.le_add_right _ _) hx
    cases s with
    | left =>
      simp only [openMods, if_true, reduceCtorEq, if_false] at hx' this ⊢
      omega
    | right =>
      simp only [openMods, if_true, reduceCtorEq, if_false] at hx' this ⊢
      omega

/-! ### The loop -/

theorem mergeResults_runs (st : FDState) (prev : Option Graph) (g : Graph) :
    (mergeResults st prev g).1.engineRuns = st.engineRuns ∧ (mergeResults st prev g).1.mods = st.mods ∧
    (mergeResults st prev g).1.written = st.written := by
  unfold mergeResults
  cases prev with
  | none => exact ⟨rfl, rfl, rfl⟩
  | some p =>
    simp only
    cases st.cache <;> exact ⟨rfl, rfl, rfl⟩

theorem engineLoop_ends {env : FDEnv} {L : Side → Finset ModId} (hL : FindsOnly env L) (f1 : Str) (prev : Option Graph) :
    ∀ (n : Nat) (st : FDState), openMods L st.mods + 1 ≤ n →
      ∃ out, engineLoop env f1 prev n st = some out ∧ out.1.engineRuns ≤ st.engineRuns + (openMods L st.mods + 1) := by
  intro n
  induction n with
  | zero => intro st h; omega
  | succ n ih =>
    intro st hn
    unfold engineLoop
    cases hs : shortcut st.heap prev f1 with
    | some p => exact ⟨_, rfl, by simp⟩
    | none =>
      simp only
      cases he : env.engine st.engineRuns (st.mods .left) (st.mods .right) st.heap with
      | error x => exact ⟨_, rfl, by simp⟩
      | ok r =>
        obtain ⟨h, g, missing⟩ := r
        simp only
        have hm := linkMissing_measure hL { st with heap := h, curr := some g, engineRuns := st.engineRuns + 1 } missing
        have hk := linkMissing_keeps env { st with heap := h, curr := some g, engineRuns := st.engineRuns + 1 } missing
        generalize linkMissing env { st with heap := h, curr := some g, engineRuns := st.engineRuns + 1 } missing = r at hm hk
        simp only at hm hk
        by_cases hr : r.2 = true
        · rw [if_pos hr]
          rw [if_pos hr] at hm
          obtain ⟨out, h1, h2⟩ := ih r.1 (by omega)
          refine ⟨out, h1, ?_⟩
          rw [hk.2.1] at h2
          omega
        · rw [if_neg hr]
          refine ⟨_, rfl, ?_⟩
          rw [(mergeResults_runs r.1 prev g).1, hk.2.1]
          omega

/-- More fuel gives the same result. -/
theorem engineLoop_mono {env : FDEnv} {f1 : Str} {prev : Option Graph} :
    ∀ (n : Nat) (st : FDState) (out : FDState × Except PyErr Graph), engineLoop env f1 prev n st = some out →
      ∀ m, n ≤ m → engineLoop env f1 prev m st = some out := by
  intro n
  induction n with
  | zero => intro st out h; simp [engineLoop] at h
  | succ n ih =>
    intro st out h m hm
    obtain ⟨m, rfl⟩ : ∃ k, m = k + 1 := ⟨m - 1, by omega⟩
    unfold engineLoop at h ⊢
    cases hs : shortcut st.heap prev f1 with
    | some p => rw [hs] at h; exact h
    | none =>
      rw [hs] at h
      simp only at h ⊢
      cases he : env.engine st.engineRuns (st.mods .left) (st.mods .right) st.heap with
      | error x => rw [he] at h; exact h
      | ok r =>
        obtain ⟨hp, g, missing⟩ := r
        rw [he] at h
        simp only at h ⊢
        split
        · next hr =>
          rw [if_pos hr] at h
          exact ih _ _ h m (by omega)
        · next hr =>
          rw [if_neg hr] at h
          exact h

/-- An invariant of the loop. `P` holds of every state of the loop; `hmerge` is used at the end. -/
theorem engineLoop_inv {env : FDEnv} {f1 : Str} {prev : Option Graph} (P : FDState → Prop)
    (hengine : ∀ st h g n, P st → P { st with heap := h, curr := some g, engineRuns := n })
    (hruns : ∀ st n, P st → P { st with engineRuns := n })
    (hshort : ∀ st p, P st → P { st with curr := some p })
    (hlink : ∀ s sym st, P st → P (linkSymbolDef env s sym st).1)
    (hmerge : ∀ st g, P st → P (mergeResults st prev g).1) :
    ∀ (n : Nat) (st : FDState) (out : FDState × Except PyErr Graph), engineLoop env f1 prev n st = some out →
      P st → P out.1 := by
  intro n
  induction n with
  | zero => intro st out h; simp [engineLoop] at h
  | succ n ih =>
    intro st out h hP
    unfold engineLoop at h
    cases hs : shortcut st.heap prev f1 with
    | some p => rw [hs] at h; cases h; exact hshort _ _ hP
    | none =>
      rw [hs] at h
      simp only at h
      cases he : env.engine st.engineRuns (st.mods .left) (st.mods .right) st.heap with
      | error x => rw [he] at h; cases h; exact hruns _ _ hP
      | ok r =>
        obtain ⟨hp, g, missing⟩ := r
        rw [he] at h
        simp only at h
        have hP1 : P (linkMissing env { st with heap := hp, curr := some g, engineRuns := st.engineRuns + 1 } missing).1 :=
          linkMissing_ind env (fun x => P x.1) (fun s sym x hx => hlink s sym x.1 hx) _ missing (hengine _ _ _ _ hP)
        split at h
        · exact ih _ _ h hP1
        · cases h; exact hmerge _ _ hP1

/-- The graph returned by the loop is the current graph. -/
theorem engineLoop_curr {env : FDEnv} {f1 : Str} {prev : Option Graph} :
    ∀ (n : Nat) (st st' : FDState) (g : Graph), engineLoop env f1 prev n st = some (st', .ok g) → st'.curr = some g := by
  intro n
  induction n with
  | zero => intro st st' g h; simp [engineLoop] at h
  | succ n ih =>
    intro st st' g h
    unfold engineLoop at h
    cases hs : shortcut st.heap prev f1 with
    | some p => rw [hs] at h; simp only [Option.some.injEq, Prod.mk.injEq, Except.ok.injEq] at h; rw [← h.1, ← h.2]
    | none =>
      rw [hs] at h
      simp only at h
      cases he : env.engine st.engineRuns (st.mods .left) (st.mods .right) st.heap with
      | error x => rw [he] at h; simp at h
      | ok r =>
        obtain ⟨hp, g0, missing⟩ := r
        rw [he] at h
        simp only at h
        have hk := linkMissing_keeps env { st with heap := hp, curr := some g0, engineRuns := st.engineRuns + 1 } missing
        split at h
        · exact ih _ _ _ h
        · simp only [Option.some.injEq] at h
          generalize linkMissing env { st with heap := hp, curr := some g0, engineRuns := st.engineRuns + 1 } missing = r at h hk
          unfold mergeResults at h
          cases prev with
          | none =>
            simp only [Prod.mk.injEq, Except.ok.injEq] at h
            rw [← h.1, ← h.2]; exact hk.2.2.1
          | some p =>
            simp only at h
            cases hc : r.1.cache with
            | none =>
              rw [hc] at h
              simp only [Prod.mk.injEq, Except.ok.injEq] at h
              rw [← h.1, ← h.2]
            | some c =>
              rw [hc] at h
              simp only [Prod.mk.injEq] at h
              obtain ⟨h1, h2⟩ := h
              rw [← h1]
              simp only [Option.some.injEq]
              cases hu : (c.update (absorbGraph r.1.heap p g0).1
                (definiteVertices (absorbGraph r.1.heap p g0).1 (absorbGraph r.1.heap p g0).2)).2 with
              | error x => rw [hu] at h2; simp [Except.map] at h2
              | ok u => rw [hu] at h2; simpa [Except.map] using h2

/-- The two ways in which a comparison ends. -/
theorem functionsDiff_cases {env : FDEnv} {f1 f2 : Str} {prev : Option Graph} {fuel : Nat} {st st' : FDState}
    {out : Except PyErr Res} (h : functionsDiff env f1 f2 prev fuel st = some (st', out)) :
    (∃ x, engineLoop env f1 prev fuel { st with curr := none, engineRuns := 0 } = some (st', .error x) ∧
      out = wrapUp st' prev (Res.new .none f1 f2) (.error x)) ∨
    (∃ st1 g, engineLoop env f1 prev fuel { st with curr := none, engineRuns := 0 } = some (st1, .ok g) ∧
      st1.curr = some g ∧ st' = (finishDiff env f1 f2 st1 g).1 ∧
      out = wrapUp st' prev (finishDiff env f1 f2 st1 g).2.1 (finishDiff env f1 f2 st1 g).2.2) := by
  unfold functionsDiff at h
  cases hl : engineLoop env f1 prev fuel { st with curr := none, engineRuns := 0 } with
  | none => rw [hl] at h; simp at h
  | some r =>
    obtain ⟨st1, e⟩ := r
    rw [hl] at h
    cases e with
    | error x =>
      simp only [Option.some.injEq, Prod.mk.injEq] at h
      obtain ⟨h1, h2⟩ := h
      subst h1
      exact Or.inl ⟨x, rfl, h2.symm⟩
    | ok g =>
      simp only [Option.some.injEq, Prod.mk.injEq] at h
      obtain ⟨h1, h2⟩ := h
      refine Or.inr ⟨st1, g, rfl, engineLoop_curr _ _ _ _ hl, h1.symm, ?_⟩
      rw [← h1]; exact h2.symm

theorem finishDiff_state (env : FDEnv) (f1 f2 : Str) (st : FDState) (g : Graph) :
    (finishDiff env f1 f2 st g).1.heap = st.heap ∧ (finishDiff env f1 f2 st g).1.written = st.written ∧
    (finishDiff env f1 f2 st g).1.curr = st.curr ∧ (finishDiff env f1 f2 st g).1.engineRuns = st.engineRuns ∧
    (finishDiff env f1 f2 st g).1.cache = st.cache := by
  unfold finishDiff
  cases funPairList env.enum st.heap g f1 f2 env.full with
  | error x => exact ⟨rfl, rfl, rfl, rfl, rfl⟩
  | ok acc =>
    simp only
    cases acc.objs <;> exact ⟨rfl, rfl, rfl, rfl, rfl⟩

/-! ### Collecting the results -/

theorem Kind.toNat_lt (k : Kind) : k.toNat < 7 := by cases k <;> decide

theorem Kind.toNat_ofInt {n : Nat} (h : n < 7) : (Kind.ofInt n).toNat = n := by
  match n, h with
  | 0, _ => rfl
  | 1, _ => rfl
  | 2, _ => rfl
  | 3, _ => rfl
  | 4, _ => rfl
  | 5, _ => rfl
  | 6, _ => rfl

theorem Kind.ofInt_toNat (k : Kind) : Kind.ofInt k.toNat = k := by cases k <;> rfl

theorem Kind.toNat_inj {a b : Kind} (h : a.toNat = b.toNat) : a = b := by
  rw [← Kind.ofInt_toNat a, h, Kind.ofInt_toNat]

theorem addInner_toNat (r x : Res) : (r.addInner x).kind.toNat = max r.kind.toNat x.kind.toNat := by
  unfold Res.addInner Res.kind
  simp only
  have a := Kind.toNat_lt r.kind
  have b := Kind.toNat_lt x.kind
  exact Kind.toNat_ofInt (by unfold Res.kind at a b; omega)

/-- The entry made for an object. -/
def entryOf (o : Obj) (k : Kind) (d : Option Str) : Res := .mk k o.first o.second d none []

/-- If all objects are processed, the result consists of the entries of the objects that are not skipped. -/
theorem compareObjs_ok {env : FDEnv} {acc : PairAcc} : ∀ (os : List Obj) (r r' : Res),
    compareObjs env acc r os = (r', .ok ()) →
    ∃ (kinds : List (Kind × Option Str)), kinds.length = os.length ∧
      (∀ (i : Nat) (o : Obj) (kd : Kind × Option Str), os[i]? = some o → kinds[i]? = some kd → objKind env o = .ok kd.1 ∧ objDiff env acc kd.1 o = .ok kd.2) ∧
      r' = (((os.zip kinds).filter (fun x => !(decide (x.2.1 ≠ .notEqual ∧ x.2.2 = some [])))).map
        (fun x => entryOf x.1 x.2.1 x.2.2)).foldl Res.addInner r := by
  intro os
  induction os with
  | nil =>
    intro r r' h
    simp only [compareObjs, Prod.mk.injEq, and_true] at h
    exact ⟨[], rfl, by simp, by simp [h]⟩
  | cons o os ih =>
    intro r r' h
    unfold compareObjs at h
    cases hk : objKind env o with
    | error x => rw [hk] at h; simp at h
    | ok k =>
      rw [hk] at h
      simp only at h
      cases hd : objDiff env acc k o with
      | error x => rw [hd] at h; simp at h
      | ok d =>
        rw [hd] at h
        simp only at h
        by_cases hs : k ≠ .notEqual ∧ d = some []
        · rw [if_pos hs] at h
          obtain ⟨ks, h1, h2, h3⟩ := ih r r' h
          refine ⟨(k, d) :: ks, by simp [h1], ?_, ?_⟩
          · intro i o' kd ho hkd
            cases i with
            | zero => simp at ho hkd; subst ho hkd; exact ⟨hk, hd⟩
            | succ i => exact h2 i o' kd (by simpa using ho) (by simpa using hkd)
          · rw [List.zip_cons_cons, List.filter_cons, if_neg (by simp [hs]), h3]
        · rw [if_neg hs] at h
          obtain ⟨ks, h1, h2, h3⟩ := ih _ r' h
          refine ⟨(k, d) :: ks, by simp [h1], ?_, ?_⟩
          · intro i o' kd ho hkd
            cases i with
            | zero => simp at ho hkd; subst ho hkd; exact ⟨hk, hd⟩
            | succ i => exact h2 i o' kd (by simpa using ho) (by simpa using hkd)
          · rw [List.zip_cons_cons, List.filter_cons, if_pos (by
              rw [Bool.not_eq_true', decide_eq_false_iff_not]; exact hs), List.map_cons, List.foldl_cons, h3]
            rfl

theorem foldl_addInner_le (xs : List Res) : ∀ r : Res, r.kind.toNat ≤ (xs.foldl Res.addInner r).kind.toNat ∧
    ∀ x ∈ xs, x.kind.toNat ≤ (xs.foldl Res.addInner r).kind.toNat := by
  induction xs with
  | nil => intro r; simp
  | cons x xs ih =>
    intro r
    rw [List.foldl_cons]
    obtain ⟨h1, h2⟩ := ih (r.addInner x)
    rw [addInner_toNat] at h1
    refine ⟨by omega, ?_⟩
    intro y hy
    rw [List.mem_cons] at hy
    rcases hy with rfl | hy
    · omega
    · exact h2 y hy

theorem foldl_addInner_mem (xs : List Res) : ∀ r : Res,
    (xs.foldl Res.addInner r).kind = r.kind ∨ ∃ x ∈ xs, (xs.foldl Res.addInner r).kind = x.kind := by
  induction xs with
  | nil => intro r; exact Or.inl rfl
  | cons x xs ih =>
    intro r
    rw [List.foldl_cons]
    rcases ih (r.addInner x) with h | ⟨y, hy, h⟩
    · have := addInner_toNat r x
      by_cases hc : r.kind.toNat ≤ x.kind.toNat
      · right
        refine ⟨x, by simp, ?_⟩
        rw [h]; exact Kind.toNat_inj (by omega)
      · left
        rw [h]; exact Kind.toNat_inj (by omega)
    · exact Or.inr ⟨y, by simp [hy], h⟩

theorem foldl_addInner_inner (xs : List Res) : ∀ r : Res,
    (xs.foldl Res.addInner r).inner = xs.foldl (fun d x => Dict.set d x.first.name x) r.inner := by
  induction xs with
  | nil => intro r; rfl
  | cons x xs ih =>
    intro r
    rw [List.foldl_cons, List.foldl_cons, ih]
    rfl

end DK
