import Verif.Lemmas.EngineOut
import Verif.Spec.EngineOut

/-! C58, C63: import of the engine's results. -/

set_option autoImplicit false

namespace DK
open Spec

theorem mem_callsAfter (f : Str) (s : Side) (evs : List CallEvent) (e : Edge) :
    e ∈ callsAfter f s evs ↔ RecordedCall evs s f e := by
  induction evs using List.reverseRecOn generalizing e with
  | nil =>
    simp only [callsAfter, List.foldl_nil, List.not_mem_nil, false_iff]
    rintro ⟨_, pre, ev, post, h, _⟩
    simp at h
  | append_singleton evs ev ih =>
    have hexists : (∀ c ∈ callsAfter f s evs, c.target ≠ e.target) ↔ ∀ x ∈ evs, ∀ l, x.called s ≠ some (e.target, l) := by
      constructor
      · intro hc x hx l hl
        -- the first call of this callee is in the set
        have : ∀ (l : List CallEvent), (∃ x ∈ l, ∃ n, x.called s = some (e.target, n)) →
            ∃ pre y post n, l = pre ++ y :: post ∧ y.called s = some (e.target, n) ∧
              ∀ z ∈ pre, ∀ m, z.called s ≠ some (e.target, m) := by
          intro l
          induction l with
          | nil => rintro ⟨x, hx, _⟩; simp at hx
          | cons a l ihl =>
            rintro ⟨x, hx, n, hn⟩
            by_cases ha : ∃ m, a.called s = some (e.target, m)
            · obtain ⟨m, hm⟩ := ha
              exact ⟨[], a, l, m, rfl, hm, by simp⟩
            · rcases List.mem_cons.1 hx with rfl | hx
              · exact absurd ⟨n, hn⟩ ha
              · obtain ⟨pre, y, post, m, h1, h2, h3⟩ := ihl ⟨x, hx, n, hn⟩
                refine ⟨a :: pre, y, post, m, by rw [h1]; rfl, h2, ?_⟩
                intro z hz m' hm'
                rcases List.mem_cons.1 hz with rfl | hz
                · exact ha ⟨m', hm'⟩
                · exact h3 z hz m' hm'
        obtain ⟨pre, y, post, n, h1, h2, h3⟩ := this evs ⟨x, hx, l, hl⟩
        by_cases hw : ∃ x ∈ post, x.weakens s = some e.target
        · exact hc ⟨e.target, f, n, true⟩ ((ih _).2 ⟨rfl, pre, y, post, h1, h2, h3, by simp [hw]⟩) rfl
        · exact hc ⟨e.target, f, n, false⟩ ((ih _).2 ⟨rfl, pre, y, post, h1, h2, h3, by simpa using hw⟩) rfl
      · intro hx c hc he
        obtain ⟨_, pre, y, post, h1, h2, _⟩ := (ih c).1 hc
        exact hx y (by rw [h1]; simp) c.line (by rw [← he]; exact h2)
    -- how the description changes when one event is appended
    have hsplit : RecordedCall (evs ++ [ev]) s f e ↔
        (∃ pre y post, evs = pre ++ y :: post ∧ e.file = f ∧ y.called s = some (e.target, e.line) ∧
          (∀ x ∈ pre, ∀ l, x.called s ≠ some (e.target, l)) ∧
          (e.weak = true ↔ ∃ x ∈ post ++ [ev], x.weakens s = some e.target)) ∨
        (e.file = f ∧ ev.called s = some (e.target, e.line) ∧ (∀ x ∈ evs, ∀ l, x.called s ≠ some (e.target, l)) ∧
          e.weak = false) := by
      constructor
      · rintro ⟨hf, pre, y, post, h1, h2, h3, h4⟩
        rcases List.eq_nil_or_concat post with rfl | ⟨post', z, rfl⟩
        · right
          obtain ⟨e1, e2⟩ := List.append_inj' h1 rfl
          subst e1
          injection e2 with e2; subst e2
          refine ⟨hf, h2, h3, ?_⟩
          simpa using h4
        · left
          rw [List.concat_eq_append] at h1 h4
          rw [show pre ++ y :: (post' ++ [z]) = (pre ++ y :: post') ++ [z] by simp] at h1
          obtain ⟨e1, e2⟩ := List.append_inj' h1 rfl
          injection e2 with e2; subst e2
          exact ⟨pre, y, post', e1, hf, h2, h3, h4⟩
      · rintro (⟨pre, y, post, h1, hf, h2, h3, h4⟩ | ⟨hf, h2, h3, h4⟩)
        · exact ⟨hf, pre, y, post ++ [ev], by rw [h1]; simp, h2, h3, h4⟩
        · exact ⟨hf, evs, ev, [], rfl, h2, h3, by simp [h4]⟩
    rw [callsAfter_snoc, hsplit]
    unfold applyEvent
    cases hcall : ev.called s with
    | some p =>
      obtain ⟨n, l⟩ := p
      have hnw : ev.weakens s = none := by
        cases ev with
        | call => rfl
        | inlined => simp [CallEvent.called] at hcall
      simp only
      rw [mem_insertCall (callsAfter_sorted f s evs), ih]
      have hpost : ∀ post : List CallEvent, (∃ x ∈ post ++ [ev], x.weakens s = some e.target) ↔
          ∃ x ∈ post, x.weakens s = some e.target := by
        intro post
        simp [or_and_right, exists_or, hnw]
      constructor
      · rintro (⟨hf, pre, y, post, h1, h2, h3, h4⟩ | ⟨rfl, hx⟩)
        · exact Or.inl ⟨pre, y, post, h1, hf, h2, h3, by rw [hpost]; exact h4⟩
        · exact Or.inr ⟨rfl, rfl, hexists.1 hx, rfl⟩
      · rintro (⟨pre, y, post, h1, hf, h2, h3, h4⟩ | ⟨hf, h2, h3, h4⟩)
        · exact Or.inl ⟨hf, pre, y, post, h1, h2, h3, by rw [← hpost]; exact h4⟩
        · right
          simp only [Option.some.injEq, Prod.mk.injEq] at h2
          obtain ⟨rfl, rfl⟩ := h2
          refine ⟨?_, hexists.2 h3⟩
          cases e; simp_all
    | none =>
      cases hw : ev.weakens s with
      | none =>
        simp only
        rw [ih]
        have hpost : ∀ post : List CallEvent, (∃ x ∈ post ++ [ev], x.weakens s = some e.target) ↔
            ∃ x ∈ post, x.weakens s = some e.target := by
          intro post
          simp [or_and_right, exists_or, hw]
        constructor
        · rintro ⟨hf, pre, y, post, h1, h2, h3, h4⟩
          exact Or.inl ⟨pre, y, post, h1, hf, h2, h3, by rw [hpost]; exact h4⟩
        · rintro (⟨pre, y, post, h1, hf, h2, h3, h4⟩ | ⟨_, h2, _⟩)
          · exact ⟨hf, pre, y, post, h1, h2, h3, by rw [← hpost]; exact h4⟩
          · simp at h2
      | some n =>
        simp only [weakenCalls, List.mem_map]
        constructor
        · rintro ⟨c, hc, rfl⟩
          obtain ⟨hf, pre, y, post, h1, h2, h3, h4⟩ := (ih c).1 hc
          left
          split
          · rename_i hcn
            exact ⟨pre, y, post, h1, hf, h2, h3, by simp [or_and_right, exists_or, hw, hcn]⟩
          · rename_i hcn
            have hcn' : ¬ n = c.target := fun e => hcn e.symm
            exact ⟨pre, y, post, h1, hf, h2, h3, by
              simp only [List.mem_append, List.mem_singleton, or_and_right, exists_or, exists_eq_left, hw,
                Option.some.injEq, hcn', or_false]; exact h4⟩
        · rintro (⟨pre, y, post, h1, hf, h2, h3, h4⟩ | ⟨_, h2, _⟩)
          · by_cases hen : n = e.target
            · have hwt : e.weak = true := h4.2 ⟨ev, by simp, by rw [hw, hen]⟩
              by_cases hp : ∃ x ∈ post, x.weakens s = some e.target
              · refine ⟨e, (ih e).2 ⟨hf, pre, y, post, h1, h2, h3, by simp [hp, hwt]⟩, ?_⟩
                rw [if_pos hen.symm]; cases e; simp_all
              · refine ⟨{ e with weak := false }, (ih _).2 ⟨hf, pre, y, post, h1, h2, h3, by simpa using hp⟩, ?_⟩
                rw [if_pos hen.symm]; cases e; simp_all
            · refine ⟨e, (ih e).2 ⟨hf, pre, y, post, h1, h2, h3, ?_⟩, ?_⟩
              · rw [h4]
                simp only [List.mem_append, List.mem_singleton, or_and_right, exists_or, exists_eq_left, hw,
                  Option.some.injEq, hen, or_false]
              · rw [if_neg (fun e => hen e.symm)]
          · simp at h2

/-- **C58** Import of everything the engine emits succeeds, and the object created for the `i`-th result has the verdict,
names, files and differing objects of that result and on each side exactly the calls recorded for that side, each callee
once. -/
theorem C58_import_complete (rs : List EngineResult) (v : Nat) (h : Heap) (g : Graph) :
    ∃ h' g', importResults v (h, g) (rs.map EngineResult.emit) = .ok (h', g') ∧
      ∀ (i : Nat) (r : EngineResult), rs[i]? = some r →
        (h' (v + i)).result = r.result ∧ (h' (v + i)).nonfunDiffs = r.diffs ∧
        ∀ s, (h' (v + i)).names s = r.name s ∧ (h' (v + i)).files s = some (r.file s) ∧
          (((h' (v + i)).succs s).map Edge.target).Nodup ∧
          ∀ e, e ∈ (h' (v + i)).succs s ↔ RecordedCall r.events s (r.file s) e := by
  obtain ⟨h', g', h1, h2, _, _⟩ := importResults_objects (rs.map EngineResult.emit) v h g (by
    intro x hx
    obtain ⟨r, _, rfl⟩ := List.mem_map.1 hx
    exact emit_paired r)
  refine ⟨h', g', h1, ?_⟩
  intro i r hr
  rw [h2 i r.emit (by simp [hr])]
  refine ⟨rfl, rfl, ?_⟩
  intro s
  refine ⟨by cases s <;> rfl, by cases s <;> rfl, ?_, ?_⟩
  · show ((r.emit.callsOf s).map Edge.target).Nodup
    rw [emit_callsOf]
    have := callsAfter_sorted (r.file s) s r.events
    unfold List.Nodup
    rw [List.pairwise_map]
    refine this.imp ?_
    intro a b hab he
    rw [he, strLt_irrefl] at hab; cases hab
  · intro e
    show e ∈ r.emit.callsOf s ↔ _
    rw [emit_callsOf, mem_callsAfter]

/-- A function that calls `b` twice and `a`, where `b` is inlined in the end. -/
def exEngineResult : EngineResult :=
  { result := .equal, name := fun _ => str! "f", file := fun _ => str! "f.c"
    events := [.call (str! "b") (str! "b") 3 4, .call (str! "a") (str! "a") 5 6, .call (str! "b") (str! "b") 7 8,
      .inlined (some (str! "b")) none] }

example : (importResults 0 (emptyHeap, {}) ([exEngineResult].map EngineResult.emit)).map
      (fun st => ((st.1 0).succs .left, (st.1 0).succs .right)) =
    .ok ([⟨str! "a", str! "f.c", 5, false⟩, ⟨str! "b", str! "f.c", 3, true⟩],
      [⟨str! "a", str! "f.c", 6, false⟩, ⟨str! "b", str! "f.c", 4, false⟩]) := by rfl

/-! ### C63 -/

/-- The full statement of C63: every emitted result can be found in the imported graph. -/
def C63_statement : Prop :=
  ∀ rs : List EngineResult, (rs.map (fun r => (r.name .left, r.name .right))).Nodup →
    ∃ h g, importResults 0 (emptyHeap, {}) (rs.map EngineResult.emit) = .ok (h, g) ∧
      ∀ (i : Nat) (r : EngineResult), rs[i]? = some r → ∃ k, g.vertices.get? k = some i

/-- **C63 (violated)** The pairs (`f.1`, `f`) and (`f.1`, `f.2`) are stored under the same key, so the first one – here a
difference – is lost. -/
theorem C63_fails : ¬ C63_statement := by
  intro hall
  let mk (k : Kind) (l r : Str) : EngineResult :=
    { result := k, name := fun s => match s with | .left => l | .right => r, file := fun _ => str! "f.c", events := [] }
  obtain ⟨h, g, h1, h2⟩ := hall [mk .notEqual (str! "f.1") (str! "f"), mk .equal (str! "f.1") (str! "f.2")] (by decide)
  have hrun : ∃ h', importResults 0 (emptyHeap, {})
      ([mk .notEqual (str! "f.1") (str! "f"), mk .equal (str! "f.1") (str! "f.2")].map EngineResult.emit) =
      .ok (h', { vertices := [(str! "f.1", 1)], equalFuns := [str! "f.1"] }) := ⟨_, rfl⟩
  obtain ⟨h', hrun⟩ := hrun
  rw [hrun] at h1
  injection h1 with h1
  injection h1 with _ h1
  subst h1
  obtain ⟨k, hk⟩ := h2 0 _ rfl
  simp only [Dict.get?] at hk
  split at hk <;> simp at hk

/-- **C63 (partial)** If no two results share a key, every result is found under its key. Missing: results with a common
key, of which only the last one is kept (`C63_last_wins`). -/
theorem C63_results_kept_partial (rs : List EngineResult) (hk : (rs.map (fun r => r.emit.key)).Nodup) :
    ∃ h g, importResults 0 (emptyHeap, {}) (rs.map EngineResult.emit) = .ok (h, g) ∧
      ∀ (i : Nat) (r : EngineResult), rs[i]? = some r → g.vertices.get? r.emit.key = some i := by
  obtain ⟨h', g', h1, _, _, h4⟩ := importResults_objects (rs.map EngineResult.emit) 0 emptyHeap {} (by
    intro x hx
    obtain ⟨r, _, rfl⟩ := List.mem_map.1 hx
    exact emit_paired r)
  refine ⟨h', g', h1, ?_⟩
  intro i r hr
  rw [h4]
  have hmem : (r.emit.key, i) ∈ (keyIds 0 (rs.map EngineResult.emit)).reverse := by
    rw [List.mem_reverse, mem_keyIds]
    exact ⟨i, r.emit, by simp [hr], rfl, by omega⟩
  have hnod : (Dict.keys (keyIds 0 (rs.map EngineResult.emit)).reverse).Nodup := by
    have : Dict.keys (keyIds 0 (rs.map EngineResult.emit)).reverse =
        (Dict.keys (keyIds 0 (rs.map EngineResult.emit))).reverse := by simp [Dict.keys]
    rw [this, List.nodup_reverse, keys_keyIds, List.map_map]
    exact hk
  rw [Dict.mem_get? hnod hmem]

example : ∃ h g, importResults 0 (emptyHeap, {}) ([exEngineResult].map EngineResult.emit) = .ok (h, g) ∧
      ∀ (i : Nat) (r : EngineResult), [exEngineResult][i]? = some r → g.vertices.get? r.emit.key = some i :=
  C63_results_kept_partial [exEngineResult] (by simp)

/-- In general the last result with a key is the one that is kept. -/
theorem C63_last_wins (rs : List EngineResult) (r : EngineResult) :
    ∃ h g, importResults 0 (emptyHeap, {}) ((rs ++ [r]).map EngineResult.emit) = .ok (h, g) ∧
      g.vertices.get? r.emit.key = some rs.length := by
  obtain ⟨h', g', h1, _, _, h4⟩ := importResults_objects ((rs ++ [r]).map EngineResult.emit) 0 emptyHeap {} (by
    intro x hx
    obtain ⟨r, _, rfl⟩ := List.mem_map.1 hx
    exact emit_paired r)
  refine ⟨h', g', h1, ?_⟩
  rw [h4]
  have : ∀ (l : List FunResult) (x : FunResult) (v : Nat), keyIds v (l ++ [x]) = keyIds v l ++ [(x.key, v + l.length)] := by
    intro l x
    induction l with
    | nil => intro v; simp [keyIds]
    | cons a l ih => intro v; simp [keyIds, ih]; omega
  rw [List.map_append, List.map_singleton, this, List.reverse_append]
  simp [Dict.get?]

end DK
