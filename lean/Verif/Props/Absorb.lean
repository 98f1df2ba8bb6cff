import Verif.Lemmas.Absorb

/-! C09, C10: merging result graphs. -/

set_option autoImplicit false

namespace DK
open Spec

/-- A vertex with `n` calls on each side. -/
def exVertex (name : Str) (k : Kind) (n : Nat) : Vertex :=
  { names := fun _ => name, result := k, files := fun _ => some (str! "a.c")
    succs := fun _ => List.replicate n ⟨str! "callee", str! "a.c", 1, false⟩ }

namespace AbsorbEx
/-- 0: `f` unknown, 1: `g` equal, 2: `f` not-equal (new), 3: `k` equal (new). -/
def heap : Heap
  | 0 => exVertex (str! "f") .unknown 0
  | 1 => exVertex (str! "g") .equal 1
  | 2 => exVertex (str! "f") .notEqual 1
  | _ => exVertex (str! "k") .equal 0
def old : Graph := { vertices := [(str! "f", 0), (str! "g", 1)] }
def new : Graph := { vertices := [(str! "f", 2), (str! "k", 3)] }
end AbsorbEx

/-- **C09** Merging keeps every function of both graphs and adds no other. -/
theorem C09_no_function_lost (h : Heap) (self other : Graph) (hn : other.vertices.keys.Nodup) (n : Str) :
    (∃ v, (absorbGraph h self other).2.vertices.get? n = some v) ↔
      (∃ v, self.vertices.get? n = some v) ∨ (∃ v, other.vertices.get? n = some v) := by
  unfold absorbGraph
  rw [absorb_get? _ h self n hn]
  cases ho : other.vertices.get? n with
  | none => simp
  | some v =>
    cases hs : self.vertices.get? n with
    | none => simp
    | some old =>
      simp only
      split <;> simp

/-- **C09** A function known to only one of the graphs keeps its object; a function known to both keeps the old object
unless the new result replaces it. No merge changes the contents of any object except its cachability. -/
theorem C09_merge_decision (h : Heap) (self other : Graph) (hn : other.vertices.keys.Nodup) (n : Str) (v old : Vid) :
    (other.vertices.get? n = none →
      (absorbGraph h self other).2.vertices.get? n = self.vertices.get? n) ∧
    (other.vertices.get? n = some v → self.vertices.get? n = none →
      (absorbGraph h self other).2.vertices.get? n = some v) ∧
    (other.vertices.get? n = some v → self.vertices.get? n = some old → Replaces (h old) (h v) →
      (absorbGraph h self other).2.vertices.get? n = some v) ∧
    (other.vertices.get? n = some v → self.vertices.get? n = some old → ¬ Replaces (h old) (h v) →
      (absorbGraph h self other).2.vertices.get? n = some old) ∧
    (∀ x, SameButCachable (h x) ((absorbGraph h self other).1 x)) := by
  unfold absorbGraph
  rw [absorb_get? _ h self n hn]
  refine ⟨?_, ?_, ?_, ?_, absorb_heap _ h self⟩
  · intro h1; simp [h1]
  · intro h1 h2; simp [h1, h2]
  · intro h1 h2 h3
    simp [h1, h2, (comparePriority_iff _ _).2 h3]
  · intro h1 h2 h3
    have : (h old).comparePriority (h v) = false := by
      rw [Bool.eq_false_iff]; intro hc; exact h3 ((comparePriority_iff _ _).1 hc)
    simp [h1, h2, this]

example : (absorbGraph AbsorbEx.heap AbsorbEx.old AbsorbEx.new).2.vertices.get? (str! "f") = some 2 :=
  (C09_merge_decision AbsorbEx.heap AbsorbEx.old AbsorbEx.new (by decide) (str! "f") 2 0).2.2.1
    (by decide) (by decide) (Or.inl (Or.inr rfl))

example : (absorbGraph AbsorbEx.heap AbsorbEx.old AbsorbEx.new).2.vertices.get? (str! "g") = some 1 :=
  (C09_merge_decision AbsorbEx.heap AbsorbEx.old AbsorbEx.new (by decide) (str! "g") 0 0).1 (by decide)

/-- **C09** Merging the same graph again changes nothing in the name map. -/
theorem C09_merge_idempotent (h : Heap) (self other : Graph) (hn : other.vertices.keys.Nodup) (n : Str) :
    (absorbGraph (absorbGraph h self other).1 (absorbGraph h self other).2 other).2.vertices.get? n =
      (absorbGraph h self other).2.vertices.get? n := by
  have hheap := absorb_heap other.vertices h self
  have h1 := absorb_get? other.vertices h self n hn
  have h2 := absorb_get? other.vertices (absorbGraph h self other).1 (absorbGraph h self other).2 n hn
  unfold absorbGraph at *
  rw [show List.foldl absorbOne ((List.foldl absorbOne (h, self) other.vertices).1,
    (List.foldl absorbOne (h, self) other.vertices).2) other.vertices =
    List.foldl absorbOne (List.foldl absorbOne (h, self) other.vertices) other.vertices from rfl] at *
  rw [h2, h1]
  cases ho : other.vertices.get? n with
  | none => rfl
  | some v =>
    cases hs : self.vertices.get? n with
    | none => simp
    | some old =>
      simp only
      by_cases hp : (h old).comparePriority (h v) = true
      · simp [hp]
      · have hp' := hp
        rw [← comparePriority_congr (hheap old) (hheap v)] at hp'
        simp only [hp, if_false, Bool.false_eq_true]
        simp [hp']

/-- The part of C09 about verdicts: a definite verdict is never replaced by an indefinite one. -/
def C09_verdicts_statement : Prop :=
  ∀ (h : Heap) (self other : Graph), self.vertices.keys.Nodup → other.vertices.keys.Nodup →
    ∀ n old, self.vertices.get? n = some old → Definite (h old).result →
      ∃ v, (absorbGraph h self other).2.vertices.get? n = some v ∧
        Definite ((absorbGraph h self other).1 v).result

/-- **C09 (violated)** A not-equal verdict is replaced by assumed-equal if the new result has more calls. (Such results
occur: normalisation turns an equal variant function into an assumed-equal base function and keeps its calls.) -/
theorem C09_verdicts_fails : ¬ C09_verdicts_statement := by
  intro hall
  let h : Heap := fun v => if v = 0 then exVertex (str! "f") .notEqual 0 else exVertex (str! "f") .assumedEqual 1
  obtain ⟨v, h1, h2⟩ := hall h { vertices := [(str! "f", 0)] } { vertices := [(str! "f", 1)] } (by decide) (by decide)
    (str! "f") 0 (by decide) (Or.inr rfl)
  have e1 : (absorbGraph h { vertices := [(str! "f", 0)] } { vertices := [(str! "f", 1)] }).2.vertices.get? (str! "f")
      = some 1 := by rfl
  rw [e1] at h1
  injection h1 with h1
  subst h1
  rw [show (absorbGraph h { vertices := [(str! "f", 0)] } { vertices := [(str! "f", 1)] }).1 1 =
    exVertex (str! "f") .assumedEqual 1 from rfl] at h2
  rcases h2 with h2 | h2 <;> cases h2

/-- **C09 (partial)** A definite verdict is never replaced by an indefinite one as long as indefinite new results have
no more calls than the old ones (as is the case for cached functions and for declarations, which have no calls).
Missing for the full statement: assumed-equal results with additional calls, see `C09_verdicts_fails`. -/
theorem C09_definite_verdicts_kept_partial (h : Heap) (self other : Graph) (hn : other.vertices.keys.Nodup)
    (hcalls : ∀ n old v, self.vertices.get? n = some old → other.vertices.get? n = some v →
      ¬ Definite (h v).result → ∀ s, ((h v).succs s).length ≤ ((h old).succs s).length)
    (n : Str) (old : Vid) (ho : self.vertices.get? n = some old) (hd : Definite (h old).result) :
    ∃ v, (absorbGraph h self other).2.vertices.get? n = some v ∧
      Definite ((absorbGraph h self other).1 v).result := by
  have hheap := absorb_heap other.vertices h self
  cases hv : other.vertices.get? n with
  | none =>
    refine ⟨old, ?_, ?_⟩
    · rw [(C09_merge_decision h self other hn n 0 0).1 hv, ho]
    · unfold absorbGraph; rw [(hheap old).result]; exact hd
  | some v =>
    by_cases hr : Replaces (h old) (h v)
    · refine ⟨v, (C09_merge_decision h self other hn n v old).2.2.1 hv ho hr, ?_⟩
      unfold absorbGraph; rw [(hheap v).result]
      by_cases hdv : Definite (h v).result
      · exact hdv
      · exfalso
        rcases hr with hr | ⟨_, _, hr⟩ | ⟨s, hr⟩
        · rcases hd with hd | hd <;> rw [hd] at hr <;> simp at hr
        · exact hdv (Or.inl hr)
        · have := hcalls n old v ho hv hdv s; omega
    · refine ⟨old, (C09_merge_decision h self other hn n v old).2.2.2.1 hv ho hr, ?_⟩
      unfold absorbGraph; rw [(hheap old).result]; exact hd

example : ∃ v, (absorbGraph AbsorbEx.heap AbsorbEx.old AbsorbEx.new).2.vertices.get? (str! "g") = some v ∧
    Definite ((absorbGraph AbsorbEx.heap AbsorbEx.old AbsorbEx.new).1 v).result :=
  C09_definite_verdicts_kept_partial AbsorbEx.heap AbsorbEx.old AbsorbEx.new (by decide)
    (by
      intro n old v h1 h2 h3
      exfalso; apply h3
      have := Dict.get?_mem h2
      simp [AbsorbEx.new] at this
      rcases this with ⟨_, rfl⟩ | ⟨_, rfl⟩
      · exact Or.inr rfl
      · exact Or.inl rfl)
    (str! "g") 1 (by decide) (Or.inl rfl)

/-! ### C10 -/

/-- The operations by which a graph is filled: inserting a result and merging another graph. -/
inductive GraphOp where
  | insert (name : Str) (v : Vid)
  | absorb (other : Graph)

def GraphOp.run (st : Heap × Graph) : GraphOp → Heap × Graph
  | .insert n v => (st.1, st.2.setItem st.1 n v)
  | .absorb other => absorbGraph st.1 st.2 other

/-- The full statement of C10. -/
def C10_statement : Prop :=
  ∀ (h : Heap) (ops : List GraphOp),
    let st := ops.foldl GraphOp.run (h, {})
    ∀ n, n ∈ st.2.equalFuns ↔
      ∃ k v, st.2.vertices.get? k = some v ∧ (st.1 v).result = .equal ∧ (st.1 v).names .left = n

/-- **C10 (violated)** A function stays in the set of equal functions when its verdict changes to not-equal. -/
theorem C10_fails : ¬ C10_statement := by
  intro hall
  let h : Heap := fun v => if v = 0 then exVertex (str! "f") .equal 0 else exVertex (str! "f") .notEqual 1
  have := (hall h [.insert (str! "f") 0, .absorb { vertices := [(str! "f", 1)] }] (str! "f")).1 (by decide)
  obtain ⟨k, v, h1, h2, h3⟩ := this
  have h1' := Dict.get?_mem h1
  rw [show ([GraphOp.insert (str! "f") 0, .absorb { vertices := [(str! "f", 1)] }].foldl GraphOp.run (h, {})).2.vertices
    = [(str! "f", 1)] from rfl] at h1'
  simp at h1'
  rw [h1'.2] at h2
  exact absurd h2 (by decide)

/-- **C10 (partial)** Every function whose verdict is equal is in the set of equal functions, after any sequence of
insertions and merges. Missing: functions that are no longer equal remain in the set, see `C10_fails`. -/
theorem C10_equal_functions_recorded_partial (h : Heap) (ops : List GraphOp) :
    let st := ops.foldl GraphOp.run (h, {})
    ∀ k v, st.2.vertices.get? k = some v → (st.1 v).result = .equal → (st.1 v).names .left ∈ st.2.equalFuns := by
  -- the invariant holds for every operation
  have setOk : ∀ (h : Heap) (g : Graph) (n : Str) (w : Vid),
      (∀ k v, g.vertices.get? k = some v → (h v).result = .equal → (h v).names .left ∈ g.equalFuns) →
      ∀ k v, (g.setItem h n w).vertices.get? k = some v → (h v).result = .equal →
        (h v).names .left ∈ (g.setItem h n w).equalFuns := by
    intro h g n w hi k v hk hr
    simp only [Graph.setItem, Dict.get?_set] at hk ⊢
    by_cases hkn : k = n
    · simp only [hkn, if_true, Option.some.injEq] at hk
      subst hk
      simp [hr]
    · simp only [hkn, if_false] at hk
      have := hi k v hk hr
      split
      · exact List.mem_cons_of_mem _ this
      · exact this
  have transfer : ∀ (h h' : Heap) (g : Graph), (∀ x, SameButCachable (h x) (h' x)) →
      (∀ k v, g.vertices.get? k = some v → (h v).result = .equal → (h v).names .left ∈ g.equalFuns) →
      (∀ k v, g.vertices.get? k = some v → (h' v).result = .equal → (h' v).names .left ∈ g.equalFuns) := by
    intro h h' g hs hi k v hk hr
    rw [(hs v).result] at hr
    rw [(hs v).names]
    exact hi k v hk hr
  have oneOk : ∀ (h : Heap) (g : Graph) (n : Str) (w : Vid),
      (∀ k v, g.vertices.get? k = some v → (h v).result = .equal → (h v).names .left ∈ g.equalFuns) →
      ∀ k v, (absorbOne (h, g) (n, w)).2.vertices.get? k = some v →
        ((absorbOne (h, g) (n, w)).1 v).result = .equal →
        ((absorbOne (h, g) (n, w)).1 v).names .left ∈ (absorbOne (h, g) (n, w)).2.equalFuns := by
    intro h g n w hi
    unfold absorbOne
    simp only
    cases g.vertices.get? n with
    | none => exact setOk h g n w hi
    | some old =>
      simp only
      split
      · split
        · exact setOk _ g n w (transfer h _ g (resetCachable_same _ h) hi)
        · exact setOk h g n w hi
      · exact hi
  have absorbOk : ∀ (l : Dict Str Vid) (st : Heap × Graph),
      (∀ k v, st.2.vertices.get? k = some v → (st.1 v).result = .equal → (st.1 v).names .left ∈ st.2.equalFuns) →
      ∀ k v, (l.foldl absorbOne st).2.vertices.get? k = some v → ((l.foldl absorbOne st).1 v).result = .equal →
        ((l.foldl absorbOne st).1 v).names .left ∈ (l.foldl absorbOne st).2.equalFuns := by
    intro l
    induction l with
    | nil => intro st hi; exact hi
    | cons p l ih => intro st hi; exact ih (absorbOne st p) (oneOk st.1 st.2 p.1 p.2 hi)
  have all : ∀ (ops : List GraphOp) (st : Heap × Graph),
      (∀ k v, st.2.vertices.get? k = some v → (st.1 v).result = .equal → (st.1 v).names .left ∈ st.2.equalFuns) →
      ∀ k v, (ops.foldl GraphOp.run st).2.vertices.get? k = some v →
        ((ops.foldl GraphOp.run st).1 v).result = .equal →
        ((ops.foldl GraphOp.run st).1 v).names .left ∈ (ops.foldl GraphOp.run st).2.equalFuns := by
    intro ops
    induction ops with
    | nil => intro st hi; exact hi
    | cons o ops ih =>
      intro st hi
      apply ih
      cases o with
      | insert n v => exact setOk st.1 st.2 n v hi
      | absorb other => exact absorbOk other.vertices st hi
  exact all ops (h, {}) (by intro k v hk; simp at hk)

example : (str! "g") ∈ ([GraphOp.absorb AbsorbEx.old, .absorb AbsorbEx.new].foldl GraphOp.run (AbsorbEx.heap, {})).2.equalFuns :=
  C10_equal_functions_recorded_partial AbsorbEx.heap [.absorb AbsorbEx.old, .absorb AbsorbEx.new] (str! "g") 1
    (by rfl) (by rfl)

end DK
