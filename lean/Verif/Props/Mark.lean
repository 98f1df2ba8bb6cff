import Verif.Lemmas.Mark
import Verif.Lemmas.Absorb

/-! C13, C61: functions that must not be cached. -/

set_option autoImplicit false

namespace DK
open Spec

/-! Example: `a` (a.c) and `b` (b.c) are assumed equal; `u` and `w` are in headers, `w` calls `u`, `u` calls `a` and `b`;
`main` (m.c) calls `w` and `a`. -/
namespace MarkEx
def vertex (n f : Str) (k : Kind) (calls : List Str) : Vertex :=
  { names := fun _ => n, result := k, files := fun _ => some f
    succs := fun _ => calls.map (fun c => ⟨c, f, 1, false⟩) }
def heap : Heap
  | 0 => vertex (str! "main") (str! "m.c") .equal [str! "w", str! "a"]
  | 1 => vertex (str! "u") (str! "u.h") .equal [str! "a", str! "b"]
  | 2 => vertex (str! "w") (str! "w.h") .equal [str! "u"]
  | 3 => vertex (str! "a") (str! "a.c") .assumedEqual []
  | 4 => vertex (str! "b") (str! "b.c") .assumedEqual []
  | 5 => vertex (str! "a") (str! "a.c") .equal []
  | _ => vertex (str! "x") (str! "x.c") .equal []
def graph : Graph :=
  { vertices := [(str! "main", 0), (str! "u", 1), (str! "w", 2), (str! "a", 3), (str! "b", 4)] }
/-- A later comparison that has seen the definition of `a`. -/
def next : Graph := { vertices := [(str! "a", 5)] }
end MarkEx

/-- Chains over predecessor lists are chains of calls. -/
theorem chain_iff {h : Heap} {g : Graph} (hn : g.vertices.keys.Nodup) (hp : ∀ x s, (h x).preds s = []) (a u : Vid) :
    Chain (populatePreds h g) a u ↔ ReachesThroughHeaders h g a u := by
  obtain ⟨p1, p2⟩ := populatePreds_spec g g.vertices.values h
  have hpred : ∀ t x, x ∈ (populatePreds h g t).preds .left ↔
      ∃ n, g.vertices.get? n = some x ∧ ∃ e ∈ (h x).succs .left, g.vertices.get? e.target = some t := by
    intro t x
    unfold populatePreds
    rw [p2, hp t .left, Dict.mem_values_iff hn]
    simp only [List.not_mem_nil, false_or]
    constructor
    · rintro ⟨⟨n, h1⟩, h2⟩; exact ⟨n, h1, h2⟩
    · rintro ⟨n, h1, h2⟩; exact ⟨⟨n, h1⟩, h2⟩
  have hIn : ∀ t, InHeader (populatePreds h g) t ↔ InHeader h t := by
    intro t
    unfold InHeader populatePreds
    rw [(p1 t).files]
  constructor
  · intro hc
    induction hc with
    | direct h1 h2 =>
      obtain ⟨n, q1, e, q2, q3⟩ := (hpred _ _).1 h1
      exact .direct q1 ((hIn _).1 h2) q2 q3
    | step h1 h2 _ ih =>
      obtain ⟨n, q1, e, q2, q3⟩ := (hpred _ _).1 h1
      exact .step q1 ((hIn _).1 h2) q2 q3 ih
  · intro hc
    induction hc with
    | direct q1 h2 q2 q3 => exact .direct ((hpred _ _).2 ⟨_, q1, _, q2, q3⟩) ((hIn _).2 h2)
    | step q1 h2 q2 q3 _ ih => exact .step ((hpred _ _).2 ⟨_, q1, _, q2, q3⟩) ((hIn _).2 h2) ih

/-- **C13** Marking terminates, and afterwards a function is uncachable iff it is defined in a header and calls, through
functions that are all defined in headers, a function that is assumed equal and not defined in a header; each
assumed-equal function remembers exactly the functions it makes uncachable. Nothing but these two attributes and the
predecessor lists changes. (Applied to a freshly imported graph: no predecessors, no marks, file names known.) -/
theorem C13_uncachable_iff (h : Heap) (g : Graph) (hn : g.vertices.keys.Nodup)
    (hpreds : ∀ x s, (h x).preds s = []) (hcach : ∀ x, (h x).cachable = true) (hprev : ∀ x, (h x).prevents = [])
    (hfiles : ∀ n v, g.vertices.get? n = some v → (h v).files .left ≠ none) :
    ∃ fuel h', (∀ k, fuel ≤ k → markAll k (populatePreds h g) g.vertices.values = some (.ok h')) ∧
      (∀ u, (h' u).cachable = false ↔ BlockedByAssumption h g u) ∧
      (∀ n a, g.vertices.get? n = some a → ∀ u, u ∈ (h' a).prevents ↔
        (h a).result = .assumedEqual ∧ ¬ InHeader h a ∧ ReachesThroughHeaders h g a u) ∧
      (∀ x, (h' x).names = (h x).names ∧ (h' x).result = (h x).result ∧ (h' x).files = (h x).files ∧
        (h' x).succs = (h x).succs ∧ (h' x).nonfunDiffs = (h x).nonfunDiffs) := by
  obtain ⟨p1, p2⟩ := populatePreds_spec g g.vertices.values h
  have hIn : ∀ t, InHeader (populatePreds h g) t ↔ InHeader h t := by
    intro t
    unfold InHeader populatePreds
    rw [(p1 t).files]
  have hvals : ∀ v, v ∈ g.vertices.values ↔ ∃ n, g.vertices.get? n = some v := fun v => Dict.mem_values_iff hn
  have hfv : ∀ v ∈ g.vertices.values, (populatePreds h g v).files .left ≠ none := by
    intro v hv
    obtain ⟨n, hv⟩ := (hvals v).1 hv
    unfold populatePreds
    rw [(p1 v).files]
    exact hfiles n v hv
  obtain ⟨fuel, h', a1, a2, a3, a4⟩ := markAll_spec (U := g.vertices.values) g.vertices.values (populatePreds h g)
    (by
      intro x p hp
      unfold populatePreds at hp
      rw [p2, hpreds] at hp
      simp only [List.not_mem_nil, false_or] at hp
      exact hp.1) hfv hfv
  have hbl : ∀ a, Blocks (populatePreds h g) a ↔ ((h a).result = .assumedEqual ∧ ¬ InHeader h a) := by
    intro a
    unfold Blocks
    rw [hIn]
    unfold populatePreds
    rw [(p1 a).result]
  refine ⟨fuel, h', a1, ?_, ?_, ?_⟩
  · intro u
    rw [a3]
    have : (populatePreds h g u).cachable = true := by
      unfold populatePreds; rw [(p1 u).cachable]; exact hcach u
    rw [this]
    unfold BlockedByAssumption
    simp only [Bool.true_eq_false, false_or, hbl, chain_iff hn hpreds]
    constructor
    · rintro ⟨a, h1, h2, h3⟩
      obtain ⟨n, h1⟩ := (hvals a).1 h1
      exact ⟨n, a, h1, h2.1, h2.2, h3⟩
    · rintro ⟨n, a, h1, h2, h3, h4⟩
      exact ⟨a, (hvals a).2 ⟨n, h1⟩, ⟨h2, h3⟩, h4⟩
  · intro n a ha u
    rw [a4]
    have : (populatePreds h g a).prevents = [] := by
      unfold populatePreds; rw [(p1 a).prevents]; exact hprev a
    rw [this]
    simp only [List.not_mem_nil, false_or, hbl, chain_iff hn hpreds]
    constructor
    · rintro ⟨_, h2, h3⟩; exact ⟨h2.1, h2.2, h3⟩
    · rintro ⟨h2, h3, h4⟩; exact ⟨(hvals a).2 ⟨n, ha⟩, ⟨h2, h3⟩, h4⟩
  · intro x
    have hm := a2 x
    have hp := p1 x
    unfold SameButMarks at hm
    unfold SameButPreds at hp
    rw [← hm]
    unfold populatePreds
    rw [← hp]
    exact ⟨rfl, rfl, rfl, rfl, rfl⟩

/-- In the example exactly `u` and `w` are uncachable. -/
theorem MarkEx.blocked (v : Vid) : BlockedByAssumption MarkEx.heap MarkEx.graph v ↔ v = 1 ∨ v = 2 := by
  have hdr1 : InHeader heap 1 := ⟨str! "u.h", rfl, by decide⟩
  have hdr2 : InHeader heap 2 := ⟨str! "w.h", rfl, by decide⟩
  have r1 : ReachesThroughHeaders heap graph 3 1 :=
    .direct (n := str! "u") (e := ⟨str! "a", str! "u.h", 1, false⟩) (by decide) hdr1 (by decide) (by decide)
  constructor
  · rintro ⟨n, a, _, _, _, hr⟩
    have key : ∀ m, graph.vertices.get? m = some v → InHeader heap v → v = 1 ∨ v = 2 := by
      intro m hm hh
      have := Dict.get?_mem hm
      obtain ⟨f, hf, hs⟩ := hh
      simp [graph] at this
      rcases this with ⟨_, rfl⟩ | ⟨_, rfl⟩ | ⟨_, rfl⟩ | ⟨_, rfl⟩ | ⟨_, rfl⟩
      · injection hf with hf; subst hf; exact absurd hs (by decide)
      · exact Or.inl rfl
      · exact Or.inr rfl
      · injection hf with hf; subst hf; exact absurd hs (by decide)
      · injection hf with hf; subst hf; exact absurd hs (by decide)
    cases hr with
    | direct q1 q2 _ _ => exact key _ q1 q2
    | step q1 q2 _ _ _ => exact key _ q1 q2
  · have base : ∀ u, ReachesThroughHeaders heap graph 3 u → BlockedByAssumption heap graph u := by
      intro u hu
      refine ⟨str! "a", 3, by decide, rfl, ?_, hu⟩
      rintro ⟨f, hf, hs⟩
      injection hf with hf; subst hf; exact absurd hs (by decide)
    rintro (rfl | rfl)
    · exact base _ r1
    · exact base _ (.step (n := str! "w") (e := ⟨str! "u", str! "w.h", 1, false⟩) (by decide) hdr2 (by decide) (by decide) r1)

example : ∃ fuel h', (∀ k, fuel ≤ k →
      markAll k (populatePreds MarkEx.heap MarkEx.graph) MarkEx.graph.vertices.values = some (.ok h')) ∧
    (h' 1).cachable = false ∧ (h' 0).cachable ≠ false := by
  have hall : ∀ v : Nat, (∀ s, (MarkEx.heap v).preds s = []) ∧ (MarkEx.heap v).cachable = true ∧
      (MarkEx.heap v).prevents = [] ∧ (MarkEx.heap v).files .left ≠ none := by
    intro v
    unfold MarkEx.heap
    split <;> exact ⟨fun _ => rfl, rfl, rfl, by simp [MarkEx.vertex]⟩
  obtain ⟨fuel, h', a1, a2, _⟩ := C13_uncachable_iff MarkEx.heap MarkEx.graph (by decide)
    (fun x => (hall x).1) (fun x => (hall x).2.1) (fun x => (hall x).2.2.1) (fun _ v _ => (hall v).2.2.2)
  refine ⟨fuel, h', a1, (a2 1).2 ((MarkEx.blocked 1).2 (Or.inl rfl)), ?_⟩
  rw [Ne, a2 0, MarkEx.blocked]; decide

/-! ### C61: cachability after merging -/

theorem resetCachable_iff (vs : List Vid) : ∀ (h : Heap) (x : Vid),
    (resetCachable h vs x).cachable = true ↔ (h x).cachable = true ∨ x ∈ vs := by
  induction vs with
  | nil => intro h x; simp [resetCachable]
  | cons v vs ih =>
    intro h x
    unfold resetCachable
    rw [ih]
    by_cases hx : x = v
    · subst hx; simp [Heap.upd]
    · simp [Heap.upd, hx]

theorem Spec.SameButCachable.prevents {a b : Vertex} (h : SameButCachable a b) : b.prevents = a.prevents := by
  rw [← h]

/-- **C61 (partial)** Merging makes a function cachable again exactly if some assumed-equal function that had made it
uncachable gets a definite result; all other marks stay as they are. Missing for the full statement: the function may
still be blocked by another assumed-equal function, see `C61_fails`. -/
theorem C61_reset_iff_partial (h : Heap) (self other : Graph) (hn : other.vertices.keys.Nodup) (x : Vid) :
    ((absorbGraph h self other).1 x).cachable = true ↔ (h x).cachable = true ∨
      ∃ n old v, self.vertices.get? n = some old ∧ other.vertices.get? n = some v ∧
        (h old).result = .assumedEqual ∧ (h v).result ≠ .assumedEqual ∧ x ∈ (h old).prevents := by
  unfold absorbGraph
  have gen : ∀ (l : Dict Str Vid) (h : Heap) (g : Graph), l.keys.Nodup →
      (((l.foldl absorbOne (h, g)).1 x).cachable = true ↔ (h x).cachable = true ∨
      ∃ n old v, g.vertices.get? n = some old ∧ (n, v) ∈ l ∧
        (h old).result = .assumedEqual ∧ (h v).result ≠ .assumedEqual ∧ x ∈ (h old).prevents) := by
    intro l
    induction l with
    | nil => intro h g _; simp
    | cons p l ih =>
      intro h g hn
      obtain ⟨n, v⟩ := p
      simp only [Dict.keys, List.map_cons, List.nodup_cons] at hn
      obtain ⟨s1, s2⟩ := absorbOne_spec h g n v
      rw [List.foldl_cons]
      have ih' := ih (absorbOne (h, g) (n, v)).1 (absorbOne (h, g) (n, v)).2 hn.2
      rw [show absorbOne (h, g) (n, v) = ((absorbOne (h, g) (n, v)).1, (absorbOne (h, g) (n, v)).2) from rfl, ih']
      have hget : ∀ m, m ≠ n → (absorbOne (h, g) (n, v)).2.vertices.get? m = g.vertices.get? m := by
        intro m hm
        rw [s2]
        cases hg : g.vertices.get? n with
        | none => simp only; rw [Dict.get?_set_ne _ _ hm]
        | some old =>
          simp only
          split
          · rw [Dict.get?_set_ne _ _ hm]
          · rfl
      have hone : ((absorbOne (h, g) (n, v)).1 x).cachable = true ↔ (h x).cachable = true ∨
          ∃ old, g.vertices.get? n = some old ∧ (h old).result = .assumedEqual ∧ (h v).result ≠ .assumedEqual ∧
            x ∈ (h old).prevents := by
        unfold absorbOne
        simp only
        cases hg : g.vertices.get? n with
        | none => simp
        | some old =>
          simp only [Option.some.injEq, exists_eq_left']
          by_cases hc : (h old).result = .assumedEqual ∧ (h v).result ≠ .assumedEqual
          · have hp : (h old).comparePriority (h v) = true := (comparePriority_iff _ _).2 (Or.inl (Or.inl hc.1))
            rw [if_pos hp, if_pos hc]
            simp only
            rw [resetCachable_iff]
            simp [hc.1, hc.2]
          · have : ¬ ((h old).result = .assumedEqual ∧ (h v).result ≠ .assumedEqual ∧ x ∈ (h old).prevents) :=
              fun hh => hc ⟨hh.1, hh.2.1⟩
            rw [if_neg hc]
            simp only [this, or_false]
            split <;> rfl
      rw [hone]
      constructor
      · rintro ((h1 | ⟨old, q1, q2⟩) | ⟨m, old, w, q1, q2, q3, q4, q5⟩)
        · exact Or.inl h1
        · exact Or.inr ⟨n, old, v, q1, by simp, q2⟩
        · right
          have hmn : m ≠ n := fun he => hn.1 (he ▸ List.mem_map.2 ⟨(m, w), q2, rfl⟩)
          rw [hget m hmn] at q1
          rw [(s1 old).result] at q3
          rw [(s1 w).result] at q4
          rw [(s1 old).prevents] at q5
          exact ⟨m, old, w, q1, by simp [q2], q3, q4, q5⟩
      · rintro (h1 | ⟨m, old, w, q1, q2, q3, q4, q5⟩)
        · exact Or.inl (Or.inl h1)
        · rcases List.mem_cons.1 q2 with q2 | q2
          · injection q2 with e1 e2
            subst e1; subst e2
            exact Or.inl (Or.inr ⟨old, q1, q3, q4, q5⟩)
          · right
            have hmn : m ≠ n := fun he => hn.1 (he ▸ List.mem_map.2 ⟨(m, w), q2, rfl⟩)
            refine ⟨m, old, w, by rw [hget m hmn]; exact q1, q2, ?_, ?_, ?_⟩
            · rw [(s1 old).result]; exact q3
            · rw [(s1 w).result]; exact q4
            · rw [(s1 old).prevents]; exact q5
  rw [gen other.vertices h self hn]
  simp only [Dict.mem_iff_get? hn]

/-- The full statement of C61: after marking a graph and merging a later result, a function that still depends through
headers on an assumed-equal function outside of headers is still uncachable. -/
def C61_statement : Prop :=
  ∀ (h : Heap) (g other : Graph) (fuel : Nat) (h1 : Heap),
    g.vertices.keys.Nodup → other.vertices.keys.Nodup →
    markAll fuel (populatePreds h g) g.vertices.values = some (.ok h1) →
    ∀ n u, (absorbGraph h1 g other).2.vertices.get? n = some u → g.vertices.get? n = some u →
      BlockedByAssumption (absorbGraph h1 g other).1 (absorbGraph h1 g other).2 u →
      ((absorbGraph h1 g other).1 u).cachable = false

/-- **C61 (violated)** `u` calls the assumed-equal functions `a` and `b`. When a later comparison finds `a` equal, `u`
becomes cachable again although `b` is still only assumed equal. -/
theorem C61_fails : ¬ C61_statement := by
  intro hall
  have run : ∃ h1, markAll 10 (populatePreds MarkEx.heap MarkEx.graph) MarkEx.graph.vertices.values = some (.ok h1) ∧
      1 ∈ (h1 3).prevents ∧ (h1 3).result = .assumedEqual ∧ (h1 5).result = .equal := by
    refine ⟨_, rfl, ?_, rfl, rfl⟩
    decide
  obtain ⟨h1, hr, hp, hra, hrn⟩ := run
  have hother : MarkEx.next.vertices.keys.Nodup := by decide
  -- the contents of the objects after marking
  have hall2 : ∀ v : Nat, (∀ s, (MarkEx.heap v).preds s = []) ∧ (MarkEx.heap v).cachable = true ∧
      (MarkEx.heap v).prevents = [] ∧ (MarkEx.heap v).files .left ≠ none := by
    intro v
    unfold MarkEx.heap
    split <;> exact ⟨fun _ => rfl, rfl, rfl, by simp [MarkEx.vertex]⟩
  obtain ⟨fuel, h', a1, _, _, a4⟩ := C13_uncachable_iff MarkEx.heap MarkEx.graph (by decide)
    (fun x => (hall2 x).1) (fun x => (hall2 x).2.1) (fun x => (hall2 x).2.2.1) (fun _ v _ => (hall2 v).2.2.2)
  have mono : ∀ k, 10 ≤ k → markAll k (populatePreds MarkEx.heap MarkEx.graph) MarkEx.graph.vertices.values =
      some (.ok h1) := by
    have loopMono : ∀ (a : Vid) (n m : Nat) (st : Mark) (r : Except PyErr Mark), n ≤ m → markLoop a n st = some r →
        markLoop a m st = some r := by
      intro a n
      induction n with
      | zero => intro m st r _ h; simp [markLoop] at h
      | succ n ih =>
        intro m st r hm h
        obtain ⟨j, rfl⟩ : ∃ j, m = j + 1 := ⟨m - 1, by omega⟩
        unfold markLoop at h ⊢
        cases hs : markStep a st with
        | error x => rw [hs] at h; exact h
        | ok o =>
          cases o with
          | none => rw [hs] at h; exact h
          | some st' => rw [hs] at h; exact ih j st' r (by omega) h
    have fromMono : ∀ (n m : Nat) (h : Heap) (a : Vid) (r : Except PyErr Heap), n ≤ m → markFrom n h a = some r →
        markFrom m h a = some r := by
      intro n m h a r hnm hx
      unfold markFrom at hx ⊢
      split
      · rename_i hc; simpa [hc] using hx
      · rename_i hc
        simp only [hc, if_false] at hx
        split
        · rename_i hd; simpa [hd] using hx
        · rename_i hd; simpa [hd] using hx
        · rename_i hd
          simp only [hd] at hx
          cases hl : markLoop a n { heap := h, visited := [], queue := [a] } with
          | none => rw [hl] at hx; cases hx
          | some q =>
            rw [hl] at hx
            rw [loopMono a n m _ q hnm hl]
            exact hx
    have allMono : ∀ (n m : Nat) (vs : List Vid) (h : Heap) (r : Except PyErr Heap), n ≤ m → markAll n h vs = some r →
        markAll m h vs = some r := by
      intro n m vs
      induction vs with
      | nil => intro h r _ hx; exact hx
      | cons v vs ih =>
        intro h r hnm hx
        unfold markAll at hx ⊢
        cases hf : markFrom n h v with
        | none => rw [hf] at hx; cases hx
        | some q =>
          rw [hf] at hx
          rw [fromMono n m h v q hnm hf]
          cases q with
          | error x => exact hx
          | ok h' => exact ih h' r hnm hx
    intro k hk
    exact allMono 10 k _ _ _ hk hr
  have hh : h' = h1 := by
    have e1 := a1 (max fuel 10) (by omega)
    have e2 := mono (max fuel 10) (by omega)
    rw [e1] at e2
    injection e2 with e2
    injection e2
  subst hh
  have hs := absorb_heap MarkEx.next.vertices h' MarkEx.graph
  have hsucc : ∀ x, ((absorbGraph h' MarkEx.graph MarkEx.next).1 x).succs = (MarkEx.heap x).succs := by
    intro x; unfold absorbGraph; rw [(hs x).succs]; exact (a4 x).2.2.2.1
  have hfile : ∀ x, ((absorbGraph h' MarkEx.graph MarkEx.next).1 x).files = (MarkEx.heap x).files := by
    intro x; unfold absorbGraph; rw [(hs x).files]; exact (a4 x).2.2.1
  have hres : ∀ x, ((absorbGraph h' MarkEx.graph MarkEx.next).1 x).result = (MarkEx.heap x).result := by
    intro x; unfold absorbGraph; rw [(hs x).result]; exact (a4 x).2.1
  have hget : ∀ n, MarkEx.next.vertices.get? n = none →
      (absorbGraph h' MarkEx.graph MarkEx.next).2.vertices.get? n = MarkEx.graph.vertices.get? n := by
    intro n hn
    unfold absorbGraph
    rw [absorb_get? _ h' MarkEx.graph n hother, hn]
  have hu : (absorbGraph h' MarkEx.graph MarkEx.next).2.vertices.get? (str! "u") = some 1 := by
    rw [hget _ (by decide)]; decide
  have hb : (absorbGraph h' MarkEx.graph MarkEx.next).2.vertices.get? (str! "b") = some 4 := by
    rw [hget _ (by decide)]; decide
  have hfalse := hall MarkEx.heap MarkEx.graph MarkEx.next 10 h' (by decide) hother hr (str! "u") 1 hu (by decide) (by
    refine ⟨str! "b", 4, hb, by rw [hres]; rfl, ?_, ?_⟩
    · rintro ⟨f, hf, hsx⟩
      rw [hfile] at hf
      injection hf with hf; subst hf; exact absurd hsx (by decide)
    · refine .direct (n := str! "u") (e := ⟨str! "b", str! "u.h", 1, false⟩) hu ⟨str! "u.h", by rw [hfile]; rfl, by decide⟩
        (by rw [hsucc]; decide) hb)
  have htrue := (C61_reset_iff_partial h' MarkEx.graph MarkEx.next hother 1).2
    (Or.inr ⟨str! "a", 3, 5, by decide, by decide, hra, by rw [hrn]; decide, hp⟩)
  rw [htrue] at hfalse
  cases hfalse

end DK
