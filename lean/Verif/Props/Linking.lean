import Verif.Props.Entries

/-! C68: which modules are linked. -/

set_option autoImplicit false

namespace DK
open Spec

theorem linkSymbolDef_found (env : FDEnv) (s : Side) (sym : Str) (st : FDState) :
    linkSymbolDef env s sym st =
      match foundModule env s st.clock sym with
      | none => ({ st with clock := st.clock + 1 }, false)
      | some new =>
        let r := (st.mods s).link new (env.linkOk st.clock)
        ({ st with
            clock := st.clock + 1
            mods := fun t => if t = s then r.1 else st.mods t
            written := st.written ++ r.2.2 }, r.2.1) := by
  unfold linkSymbolDef foundModule
  cases h1 : env.snapLookup s st.clock sym with
  | some m => rfl
  | none =>
    cases h2 : env.srcLookup s with
    | none => rfl
    | some look => cases h3 : look st.clock sym <;> simp [h3]

/-- One attempt: either nothing is linked and nothing can be linked, or the found module is. -/
theorem linkSymbolDef_outcome (env : FDEnv) (s : Side) (sym : Str) (st : FDState) :
    ((linkSymbolDef env s sym st).2 = false ∧ (linkSymbolDef env s sym st).1.mods = st.mods ∧
      (foundModule env s st.clock sym = none ∨ ∃ m, foundModule env s st.clock sym = some m ∧
        (m ∈ (st.mods s).linked ∨ env.linkOk st.clock = false))) ∨
    ((linkSymbolDef env s sym st).2 = true ∧ ∃ m, foundModule env s st.clock sym = some m ∧
      (∀ t, t ≠ s → (linkSymbolDef env s sym st).1.mods t = st.mods t) ∧
      ((linkSymbolDef env s sym st).1.mods s).linked = m :: (st.mods s).linked) := by
  rw [linkSymbolDef_found]
  cases hf : foundModule env s st.clock sym with
  | none => exact Or.inl ⟨rfl, rfl, Or.inl rfl⟩
  | some m =>
    have hsame : (fun t => if t = s then st.mods s else st.mods t) = st.mods := by
      funext t; split
      · next h => rw [h]
      · rfl
    simp only
    unfold LMod.link
    by_cases h1 : m ∈ (st.mods s).linked
    · simp only [h1, if_true]
      exact Or.inl ⟨trivial, hsame, Or.inr ⟨m, rfl, Or.inl h1⟩⟩
    · by_cases h2 : env.linkOk st.clock = true
      · simp only [h1, if_false, h2, if_true]
        exact Or.inr ⟨trivial, m, rfl, fun t ht => if_neg ht, rfl⟩
      · simp only [h1, if_false, h2]
        exact Or.inl ⟨rfl, hsame, Or.inr ⟨m, rfl, Or.inr (by simp [h2])⟩⟩

/-- The modules in a state are linked to demanded modules only. -/
def OnlyDemanded (env : FDEnv) (mods : Side → LMod) : Prop := ∀ s, ∀ m ∈ (mods s).linked, Demanded env s m

theorem linkOpt_step (env : FDEnv) (s : Side) (sym : Option Str) (x : FDState × Bool)
    (hd : ∀ n, sym = some n → ∀ time m, foundModule env s time n = some m → Demanded env s m)
    (hx : OnlyDemanded env x.1.mods) :
    OnlyDemanded env (linkOpt env s sym x).1.mods ∧
    (x.2 = true → (linkOpt env s sym x).2 = true) ∧
    ((linkOpt env s sym x).2 = false → (linkOpt env s sym x).1.mods = x.1.mods ∧
      ∀ n, sym = some n → ∃ time, foundModule env s time n = none ∨ ∃ m, foundModule env s time n = some m ∧
        (m ∈ (x.1.mods s).linked ∨ env.linkOk time = false)) := by
  unfold linkOpt
  cases sym with
  | none => exact ⟨hx, id, fun _ => ⟨rfl, by simp⟩⟩
  | some n =>
    simp only
    rcases linkSymbolDef_outcome env s n x.1 with ⟨h1, h2, h3⟩ | ⟨h1, m, h2, h3, h4⟩
    · rw [h1, h2]
      refine ⟨hx, fun h => by simp [h], fun _ => ⟨rfl, ?_⟩⟩
      rintro n' hn
      cases hn
      exact ⟨_, h3⟩
    · rw [h1]
      refine ⟨?_, fun _ => by simp, fun h => by simp at h⟩
      intro t k hk
      by_cases ht : t = s
      · subst ht
        rw [h4, List.mem_cons] at hk
        rcases hk with rfl | hk
        · exact hd n rfl _ _ h2
        · exact hx _ _ hk
      · rw [h3 t ht] at hk
        exact hx _ _ hk

theorem linkMissing_outcome (env : FDEnv) (st : FDState) (ms : MissingDefs)
    (hd : ∀ p ∈ ms, ∀ s n, ofSide s p = some n → ∀ time m, foundModule env s time n = some m → Demanded env s m)
    (hx : OnlyDemanded env st.mods) :
    OnlyDemanded env (linkMissing env st ms).1.mods ∧
    ((linkMissing env st ms).2 = false → (linkMissing env st ms).1.mods = st.mods ∧ Exhausted env st.mods ms) := by
  unfold linkMissing
  suffices H : ∀ x : FDState × Bool, OnlyDemanded env x.1.mods →
      let y := ms.foldl (fun st m => linkOpt env .right m.2 (linkOpt env .left m.1 st)) x
      OnlyDemanded env y.1.mods ∧ (x.2 = true → y.2 = true) ∧
      (y.2 = false → y.1.mods = x.1.mods ∧ Exhausted env x.1.mods ms) by
    have := H (st, false) hx
    exact ⟨this.1, this.2.2⟩
  clear hx
  induction ms with
  | nil => exact fun x hx => ⟨hx, id, fun _ => ⟨rfl, fun p hp => by simp at hp⟩⟩
  | cons q ms ih =>
    intro x hx
    simp only [List.foldl_cons]
    obtain ⟨a1, a2, a3⟩ := linkOpt_step env .left q.1 x (fun n hn => hd q (by simp) .left n hn) hx
    generalize hl : linkOpt env .left q.1 x = l at a1 a2 a3
    obtain ⟨b1, b2, b3⟩ := linkOpt_step env .right q.2 l (fun n hn => hd q (by simp) .right n hn) a1
    generalize hr : linkOpt env .right q.2 l = r at b1 b2 b3
    obtain ⟨c1, c2, c3⟩ := ih (fun p hp => hd p (by simp [hp])) r b1
    refine ⟨c1, fun h => c2 (b2 (a2 h)), fun h => ?_⟩
    obtain ⟨d1, d2⟩ := c3 h
    have hr2 : r.2 = false := by
      cases hh : r.2 with
      | false => rfl
      | true => rw [c2 hh] at h; cases h
    have hl2 : l.2 = false := by
      cases hh : l.2 with
      | false => rfl
      | true => rw [b2 hh] at hr2; cases hr2
    obtain ⟨e1, e2⟩ := b3 hr2
    obtain ⟨f1, f2⟩ := a3 hl2
    refine ⟨d1.trans (e1.trans f1), ?_⟩
    intro p hp s n hn
    rcases List.mem_cons.1 hp with rfl | hp
    · cases s with
      | left => exact f2 n hn
      | right => rw [f1] at e2; exact e2 n hn
    · rw [e1, f1] at d2
      exact d2 p hp s n hn

theorem engineLoop_final {env : FDEnv} {f1 : Str} {prev : Option Graph} :
    ∀ (n : Nat) (st st1 : FDState) (g1 : Graph), engineLoop env f1 prev n st = some (st1, .ok g1) →
      OnlyDemanded env st.mods →
      (∃ p, shortcut st1.heap prev f1 = some p ∧ g1 = p) ∨
      ∃ k mods h h' g ms, env.engine k (mods .left) (mods .right) h = .ok (h', g, ms) ∧ OnlyDemanded env mods ∧
        Exhausted env mods ms ∧ st1.mods = mods ∧
        g1 = (prev.elim g (fun p => (absorbGraph h' p g).2)) := by
  intro n
  induction n with
  | zero => intro st st1 g1 h; simp [engineLoop] at h
  | succ n ih =>
    intro st st1 g1 h hd
    unfold engineLoop at h
    cases hs : shortcut st.heap prev f1 with
    | some p =>
      rw [hs] at h
      simp only [Option.some.injEq, Prod.mk.injEq, Except.ok.injEq] at h
      obtain ⟨rfl, rfl⟩ := h
      exact Or.inl ⟨_, hs, rfl⟩
    | none =>
      rw [hs] at h
      simp only at h
      cases he : env.engine st.engineRuns (st.mods .left) (st.mods .right) st.heap with
      | error x => rw [he] at h; simp at h
      | ok r =>
        obtain ⟨h', g, ms⟩ := r
        rw [he] at h
        simp only at h
        have hdem : ∀ p ∈ ms, ∀ s n, ofSide s p = some n → ∀ time m, foundModule env s time n = some m → Demanded env s m :=
          fun p hp s n hn time m hm => ⟨_, _, _, _, _, p, n, time, he, hp, hn, hm⟩
        have hk := linkMissing_keeps env { st with heap := h', curr := some g, engineRuns := st.engineRuns + 1 } ms
        obtain ⟨a1, a2⟩ := linkMissing_outcome env { st with heap := h', curr := some g, engineRuns := st.engineRuns + 1 } ms hdem hd
        generalize linkMissing env { st with heap := h', curr := some g, engineRuns := st.engineRuns + 1 } ms = r at h a1 a2 hk
        cases hr : r.2 with
        | true =>
          rw [hr, if_pos rfl] at h
          exact ih r.1 st1 g1 h a1
        | false =>
          rw [hr, if_neg (by simp)] at h
          simp only [Option.some.injEq] at h
          obtain ⟨b1, b2⟩ := a2 hr
          refine Or.inr ⟨_, st.mods, st.heap, h', g, ms, he, hd, b2, ?_, ?_⟩
          · have := (mergeResults_runs r.1 prev g).2.1
            rw [h] at this
            exact this.trans b1
          · unfold mergeResults at h
            cases prev with
            | none =>
              simp only [Prod.mk.injEq, Except.ok.injEq] at h
              exact h.2.symm
            | some p =>
              simp only at h ⊢
              rw [hk.1] at h
              simp only at h
              cases hc : r.1.cache with
              | none =>
                rw [hc] at h
                simp only [Prod.mk.injEq, Except.ok.injEq] at h
                exact h.2.symm
              | some c =>
                rw [hc] at h
                simp only [Prod.mk.injEq] at h
                have h2 := h.2
                cases hu : (c.update (absorbGraph h' p g).1 (definiteVertices (absorbGraph h' p g).1 (absorbGraph h' p g).2)).2 with
                | error x => rw [hu] at h2; simp [Except.map] at h2
                | ok u => rw [hu] at h2; simp [Except.map] at h2; exact h2.symm

/-- **C68** If the comparison of two modules does not end with the verdict error, its result either was known before, or
comes (merged with what was known) from a run of the engine on modules `mods` such that
* every module linked to one of them was found, on that side, for a symbol that the engine reported missing on that side,
* nothing more could be linked for the definitions that this run still reported missing. -/
theorem C68_missing_definitions_linked (env : FDEnv) (f1 f2 : Str) (prev : Option Graph) (fuel : Nat) (st st' : FDState)
    (res : Res) (hu : ∀ s, (st.mods s).linked = [])
    (h : functionsDiff env f1 f2 prev fuel st = some (st', .ok res)) (hk : res.kind ≠ .error) :
    (∃ p v, prev = some p ∧ p.vertices.get? f1 = some v ∧ (st'.heap v).result ≠ .assumedEqual ∧ res.graph = some p) ∨
    ∃ n mods hp h' g ms, env.engine n (mods .left) (mods .right) hp = .ok (h', g, ms) ∧
      (∀ s, ∀ m ∈ (mods s).linked, Demanded env s m) ∧ Exhausted env mods ms ∧
      res.graph = some (prev.elim g (fun p => (absorbGraph h' p g).2)) := by
  obtain ⟨st1, g1, acc, h1, _, hh, hg, _⟩ := functionsDiff_good h hk
  rcases engineLoop_final _ _ _ _ h1 (by intro s m hm; simp [hu s] at hm) with ⟨p, hp, rfl⟩ | ⟨n, mods, hp, hp', g, ms, a, b, c, _, d⟩
  · left
    unfold shortcut at hp
    cases prev with
    | none => simp at hp
    | some q =>
      simp only at hp
      cases hv : q.vertices.get? f1 with
      | none => rw [hv] at hp; simp at hp
      | some v =>
        rw [hv] at hp
        simp only at hp
        split at hp
        · next hc =>
          cases hp
          exact ⟨_, v, rfl, hv, by rw [hh]; exact hc.1, hg⟩
        · simp at hp
  · exact Or.inr ⟨n, mods, hp, hp', g, ms, a, b, c, by rw [hg, d]⟩

namespace LinkEx2
/-- The engine reports `g` missing on the right side until module 7 is linked there. -/
def env : FDEnv where
  engine _ _ r _ := .ok (NoneEx.heap, NoneEx.graph, if 7 ∈ r.linked then [] else [(none, some (str! "g"))])
  snapLookup s _ _ := match s with | .left => some 6 | .right => some 7
  srcLookup _ := none
  linkOk _ := true
  semdiff := none
  syntaxDiff _ := .ok []
  enum := id
  full := true
end LinkEx2

/-- In this run the engine is run twice, and the second run gets the left module unlinked and the right one with module 7. -/
example : ∃ st' res, functionsDiff LinkEx2.env (str! "f") (str! "f") none 2 LinkEx.state = some (st', .ok res) ∧
    res.kind ≠ .error ∧ st'.engineRuns = 2 ∧ st'.written = [str! "a-linked.ll"] ∧
    Demanded LinkEx2.env .right 7 ∧ ¬ Demanded LinkEx2.env .left 6 := by
  have hl : engineLoop LinkEx2.env (str! "f") none 2 { LinkEx.state with curr := none, engineRuns := 0 } =
      some ({ LinkEx.state with
        heap := NoneEx.heap, curr := some NoneEx.graph, engineRuns := 2, clock := 1, written := [str! "a-linked.ll"]
        mods := fun t => if t = .right then { llvm := str! "a-linked.ll", unlinked := some (str! "a.ll"), linked := [7] }
          else { llvm := str! "a.ll" } }, .ok NoneEx.graph) := rfl
  have hd := functionsDiff_eval (f2 := str! "f") hl NoneEx.list
  refine ⟨_, _, hd, by decide, rfl, rfl, ?_, ?_⟩
  · exact ⟨0, { llvm := [] }, { llvm := [] }, NoneEx.heap, _, (none, some (str! "g")), str! "g", 0, rfl, by decide, rfl, rfl⟩
  · rintro ⟨n, l, r, h, out, p, sym, time, h1, h2, h3, _⟩
    cases h1
    simp only at h2
    split at h2
    · simp at h2
    · rw [List.mem_singleton] at h2
      subst h2
      simp [ofSide] at h3

end DK
