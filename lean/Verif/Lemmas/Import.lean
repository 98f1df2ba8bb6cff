import Verif.Model.GraphOps
import Verif.Lemmas.Search
import Verif.Spec.GraphOps

/-! Lemmas about importing the engine's output. -/

set_option autoImplicit false

namespace DK
open Spec

theorem endsWith_void_iff (n : Str) : endsWith n dotVoid = true ↔ IsVariant n := by
  simp [endsWith, dotVoid, IsVariant, List.isSuffixOf_iff_suffix]

/-- References to the edges with variant targets in a list, the first element having index `k`. -/
def refsOf (v : Nat) (s : Side) : Nat → List Edge → List EdgeRef
  | _, [] => []
  | k, e :: es => if endsWith e.target dotVoid then ⟨v, s, k⟩ :: refsOf v s (k + 1) es else refsOf v s (k + 1) es

theorem mem_refsOf {v : Nat} {s : Side} {es : List Edge} : ∀ {k : Nat} {r : EdgeRef},
    r ∈ refsOf v s k es ↔ r.parent = v ∧ r.side = s ∧ k ≤ r.idx ∧
      ∃ e, es[r.idx - k]? = some e ∧ IsVariant e.target := by
  induction es with
  | nil => intro k r; simp [refsOf]
  | cons e es ih =>
    intro k r
    have key : (r ∈ refsOf v s (k + 1) es) ↔ r.parent = v ∧ r.side = s ∧ k + 1 ≤ r.idx ∧
      ∃ e', (e :: es)[r.idx - k]? = some e' ∧ IsVariant e'.target := by
      rw [ih]
      constructor
      · rintro ⟨h1, h2, h3, e', h4, h5⟩
        refine ⟨h1, h2, h3, e', ?_, h5⟩
        have : r.idx - k = (r.idx - (k + 1)) + 1 := by omega
        rw [this]; simpa using h4
      · rintro ⟨h1, h2, h3, e', h4, h5⟩
        refine ⟨h1, h2, h3, e', ?_, h5⟩
        have : r.idx - k = (r.idx - (k + 1)) + 1 := by omega
        rw [this] at h4; simpa using h4
    unfold refsOf
    split
    · rename_i hv
      rw [List.mem_cons, key]
      constructor
      · rintro (rfl | ⟨h1, h2, h3, h4⟩)
        · exact ⟨rfl, rfl, Nat.le_refl _, e, by simp, (endsWith_void_iff _).1 hv⟩
        · exact ⟨h1, h2, by omega, h4⟩
      · rintro ⟨h1, h2, h3, e', h4, h5⟩
        by_cases hk : r.idx = k
        · left; cases r; simp_all
        · right; exact ⟨h1, h2, by omega, e', h4, h5⟩
    · rename_i hv
      rw [key]
      constructor
      · rintro ⟨h1, h2, h3, h4⟩
        exact ⟨h1, h2, by omega, h4⟩
      · rintro ⟨h1, h2, h3, e', h4, h5⟩
        by_cases hk : r.idx = k
        · exfalso
          rw [hk] at h4
          simp at h4
          subst h4
          exact hv ((endsWith_void_iff _).2 h5)
        · exact ⟨h1, h2, by omega, e', h4, h5⟩

theorem refsOf_nodup {v : Nat} {s : Side} {es : List Edge} : ∀ {k : Nat}, (refsOf v s k es).Nodup := by
  induction es with
  | nil => intro k; simp [refsOf]
  | cons e es ih =>
    intro k
    unfold refsOf
    split
    · rw [List.nodup_cons]
      refine ⟨?_, ih⟩
      rw [mem_refsOf]
      rintro ⟨_, _, h, _⟩
      exact absurd h (Nat.not_succ_le_self k)
    · exact ih

theorem upd_self (h : Heap) (v : Nat) (x : Vertex) : (h.upd v x) v = x := by simp [Heap.upd]
theorem upd_ne (h : Heap) {v w : Nat} (x : Vertex) (hne : w ≠ v) : (h.upd v x) w = h w := by simp [Heap.upd, hne]

theorem addCalls_spec (v : Nat) (s : Side) : ∀ (es : List Edge) (h : Heap) (g : Graph),
    (∀ w, w ≠ v → (addCalls v s (h, g) es).1 w = h w) ∧
    (addCalls v s (h, g) es).1 v =
      { h v with succs := fun t => if t = s then (h v).succs t ++ es else (h v).succs t } ∧
    (addCalls v s (h, g) es).2 =
      { g with edgeCache := g.edgeCache ++ refsOf v s ((h v).succs s).length es } := by
  intro es
  induction es with
  | nil =>
    intro h g
    refine ⟨fun w _ => rfl, ?_, ?_⟩
    · have : (fun t => if t = s then (h v).succs t ++ [] else (h v).succs t) = (h v).succs := by
        funext t; simp
      rw [this]; rfl
    · simp [addCalls, refsOf]
  | cons e es ih =>
    intro h g
    have e0 : addCalls v s (h, g) (e :: es) = addCalls v s (g.addEdge h v s e) es := rfl
    rw [e0]
    obtain ⟨i1, i2, i3⟩ := ih (g.addEdge h v s e).1 (g.addEdge h v s e).2
    have hv : (g.addEdge h v s e).1 v = (h v).addSucc s e := by simp [Graph.addEdge, Heap.upd]
    refine ⟨?_, ?_, ?_⟩
    · intro w hw
      have := i1 w hw
      rw [show ((g.addEdge h v s e).1, (g.addEdge h v s e).2) = g.addEdge h v s e from rfl] at this
      rw [this]
      simp [Graph.addEdge, Heap.upd, hw]
    · rw [show ((g.addEdge h v s e).1, (g.addEdge h v s e).2) = g.addEdge h v s e from rfl] at i2
      rw [i2, hv]
      simp only [Vertex.addSucc]
      congr 1
      funext t
      by_cases ht : t = s <;> simp [ht]
    · rw [show ((g.addEdge h v s e).1, (g.addEdge h v s e).2) = g.addEdge h v s e from rfl] at i3
      rw [i3, hv]
      have hl : (((h v).addSucc s e).succs s).length = ((h v).succs s).length + 1 := by
        simp [Vertex.addSucc]
      rw [hl]
      unfold Graph.addEdge
      conv => rhs; unfold refsOf
      split <;> simp

/-- The calls of one side as they are imported. -/
def FunResult.callsOf (r : FunResult) : Side → List Edge
  | .left => r.first.calls.getD []
  | .right => r.second.calls.getD []

/-- The engine omits both call lists or none (it records calls in pairs). -/
def CallsPaired (r : FunResult) : Prop := r.first.calls = none ↔ r.second.calls = none

/-- The object created for a result. -/
def FunResult.fullVertex (r : FunResult) : Vertex := { r.vertex with succs := r.callsOf }

/-- Edge references created for a result with id `v`. -/
def FunResult.refs (r : FunResult) (v : Nat) : List EdgeRef :=
  refsOf v .left 0 (r.callsOf .left) ++ refsOf v .right 0 (r.callsOf .right)

theorem vertexFromYaml_spec (v : Nat) (h : Heap) (g : Graph) (r : FunResult) (hp : CallsPaired r) :
    ∃ h', vertexFromYaml v (h, g) r = .ok (h', { g with edgeCache := g.edgeCache ++ r.refs v }) ∧
      h' v = r.fullVertex ∧ ∀ w, w ≠ v → h' w = h w := by
  unfold vertexFromYaml
  simp only
  cases hl : r.first.calls with
  | none =>
    have hr := hp.1 hl
    simp only
    refine ⟨h.upd v r.vertex, ?_, ?_, ?_⟩
    · simp [FunResult.refs, FunResult.callsOf, hl, hr, refsOf]
    · rw [upd_self]
      have : r.callsOf = r.vertex.succs := by
        funext s; cases s <;> simp [FunResult.callsOf, hl, hr, FunResult.vertex]
      simp [FunResult.fullVertex, this]
    · intro w hw; exact upd_ne _ _ hw
  | some cl =>
    cases hr : r.second.calls with
    | none => rw [hp.2 hr] at hl; cases hl
    | some cr =>
      simp only
      obtain ⟨a1, a2, a3⟩ := addCalls_spec v .left cl (h.upd v r.vertex) g
      obtain ⟨b1, b2, b3⟩ := addCalls_spec v .right cr (addCalls v .left (h.upd v r.vertex, g) cl).1
        (addCalls v .left (h.upd v r.vertex, g) cl).2
      rw [show ((addCalls v .left (h.upd v r.vertex, g) cl).1, (addCalls v .left (h.upd v r.vertex, g) cl).2) =
        addCalls v .left (h.upd v r.vertex, g) cl from rfl] at b1 b2 b3
      refine ⟨(addCalls v .right (addCalls v .left (h.upd v r.vertex, g) cl) cr).1, ?_, ?_, ?_⟩
      · congr 1
        apply Prod.ext
        · rfl
        · rw [b3, a3, a2, upd_self]
          simp [FunResult.refs, FunResult.callsOf, hl, hr, FunResult.vertex]
      · rw [b2, a2, upd_self]
        simp only [FunResult.fullVertex, FunResult.vertex]
        congr 1
        funext s
        cases s <;> simp [FunResult.callsOf, hl, hr]
      · intro w hw
        rw [b1 w hw, a1 w hw, upd_ne _ _ hw]

/-- Pairs of key and id, in order. -/
def keyIds : Nat → List FunResult → Dict Str Nat
  | _, [] => []
  | v, r :: rs => (r.key, v) :: keyIds (v + 1) rs

def allRefs : Nat → List FunResult → List EdgeRef
  | _, [] => []
  | v, r :: rs => r.refs v ++ allRefs (v + 1) rs

def weakIds : Nat → List FunResult → List Nat
  | _, [] => []
  | v, r :: rs => if endsWith r.key dotVoid then v :: weakIds (v + 1) rs else weakIds (v + 1) rs

theorem keys_keyIds : ∀ (rs : List FunResult) (v : Nat), (keyIds v rs).keys = rs.map FunResult.key := by
  intro rs
  induction rs with
  | nil => intro v; rfl
  | cons r rs ih => intro v; simp [keyIds, Dict.keys] at *; exact ih (v + 1)

theorem mem_keyIds : ∀ {rs : List FunResult} {v : Nat} {k : Str} {w : Nat},
    (k, w) ∈ keyIds v rs ↔ ∃ (i : Nat) (r : FunResult), rs[i]? = some r ∧ k = r.key ∧ w = v + i := by
  intro rs
  induction rs with
  | nil => intro v k w; simp [keyIds]
  | cons r rs ih =>
    intro v k w
    simp only [keyIds, List.mem_cons, Prod.mk.injEq, ih]
    constructor
    · rintro (⟨rfl, rfl⟩ | ⟨i, r', h1, h2, h3⟩)
      · exact ⟨0, r, by simp, rfl, by simp⟩
      · exact ⟨i + 1, r', by simpa using h1, h2, by omega⟩
    · rintro ⟨i, r', h1, h2, h3⟩
      cases i with
      | zero => left; simp at h1; subst h1; exact ⟨h2, by omega⟩
      | succ i => right; exact ⟨i, r', by simpa using h1, h2, by omega⟩

theorem mem_allRefs : ∀ {rs : List FunResult} {v : Nat} {x : EdgeRef},
    x ∈ allRefs v rs ↔ ∃ (i : Nat) (r : FunResult), rs[i]? = some r ∧ x ∈ r.refs (v + i) := by
  intro rs
  induction rs with
  | nil => intro v x; simp [allRefs]
  | cons r rs ih =>
    intro v x
    simp only [allRefs, List.mem_append, ih]
    constructor
    · rintro (h | ⟨i, r', h1, h2⟩)
      · exact ⟨0, r, by simp, by simpa using h⟩
      · exact ⟨i + 1, r', by simpa using h1, by rw [show v + (i + 1) = v + 1 + i by omega]; exact h2⟩
    · rintro ⟨i, r', h1, h2⟩
      cases i with
      | zero => left; simp at h1; subst h1; simpa using h2
      | succ i => right; exact ⟨i, r', by simpa using h1, by rw [show v + 1 + i = v + (i + 1) by omega]; exact h2⟩

theorem refs_parent {r : FunResult} {v : Nat} {x : EdgeRef} (hx : x ∈ r.refs v) : x.parent = v := by
  simp only [FunResult.refs, List.mem_append, mem_refsOf] at hx
  rcases hx with h | h <;> exact h.1

theorem refs_nodup (r : FunResult) (v : Nat) : (r.refs v).Nodup := by
  unfold FunResult.refs
  rw [List.nodup_append]
  refine ⟨refsOf_nodup, refsOf_nodup, ?_⟩
  intro a ha b hb
  rw [mem_refsOf] at ha hb
  rintro rfl
  rw [ha.2.1] at hb
  simp at hb

theorem allRefs_nodup : ∀ (rs : List FunResult) (v : Nat), (allRefs v rs).Nodup := by
  intro rs
  induction rs with
  | nil => intro v; simp [allRefs]
  | cons r rs ih =>
    intro v
    unfold allRefs
    rw [List.nodup_append]
    refine ⟨refs_nodup r v, ih _, ?_⟩
    intro a ha b hb
    rintro rfl
    obtain ⟨i, r', _, h2⟩ := mem_allRefs.1 hb
    have e1 := refs_parent ha
    have e2 := refs_parent h2
    have e3 : (v : Nat) = v + 1 + i := e1.symm.trans e2
    omega

theorem mem_weakIds : ∀ {rs : List FunResult} {v w : Nat},
    w ∈ weakIds v rs ↔ ∃ (i : Nat) (r : FunResult), rs[i]? = some r ∧ w = v + i ∧ IsVariant r.key := by
  intro rs
  induction rs with
  | nil => intro v w; simp [weakIds]
  | cons r rs ih =>
    intro v w
    have key : (w ∈ weakIds (v + 1) rs) ↔ ∃ (i : Nat) (r' : FunResult), (r :: rs)[i + 1]? = some r' ∧ w = v + (i + 1) ∧ IsVariant r'.key := by
      rw [ih]
      constructor
      · rintro ⟨i, r', h1, h2, h3⟩; exact ⟨i, r', by simpa using h1, by omega, h3⟩
      · rintro ⟨i, r', h1, h2, h3⟩; exact ⟨i, r', by simpa using h1, by omega, h3⟩
    unfold weakIds
    split
    · rename_i hv
      rw [List.mem_cons, key]
      constructor
      · rintro (rfl | ⟨i, r', h⟩)
        · exact ⟨0, r, by simp, by simp, (endsWith_void_iff _).1 hv⟩
        · exact ⟨i + 1, r', h⟩
      · rintro ⟨i, r', h1, h2, h3⟩
        cases i with
        | zero => left; omega
        | succ i => right; exact ⟨i, r', h1, h2, h3⟩
    · rename_i hv
      rw [key]
      constructor
      · rintro ⟨i, r', h⟩; exact ⟨i + 1, r', h⟩
      · rintro ⟨i, r', h1, h2, h3⟩
        cases i with
        | zero => simp at h1; subst h1; exact absurd ((endsWith_void_iff _).2 h3) hv
        | succ i => exact ⟨i, r', h1, h2, h3⟩

theorem weakIds_nodup : ∀ (rs : List FunResult) (v : Nat), (weakIds v rs).Nodup := by
  intro rs
  induction rs with
  | nil => intro v; simp [weakIds]
  | cons r rs ih =>
    intro v
    unfold weakIds
    split
    · rw [List.nodup_cons]
      refine ⟨?_, ih _⟩
      rw [mem_weakIds]
      rintro ⟨i, _, _, h, _⟩
      omega
    · exact ih _

/-- Import of a whole output with distinct keys. -/
theorem importResults_spec : ∀ (rs : List FunResult) (v : Nat) (h : Heap) (g : Graph),
    (∀ r ∈ rs, CallsPaired r) → (rs.map FunResult.key).Nodup → (∀ r ∈ rs, r.key ∉ g.vertices.keys) →
    ∃ h' eq', importResults v (h, g) rs = .ok (h',
        { vertices := g.vertices ++ keyIds v rs
          equalFuns := eq'
          edgeCache := g.edgeCache ++ allRefs v rs
          weakCache := g.weakCache ++ weakIds v rs }) ∧
      (∀ (i : Nat) (r : FunResult), rs[i]? = some r → h' (v + i) = r.fullVertex) ∧
      (∀ w, w < v ∨ v + rs.length ≤ w → h' w = h w) := by
  intro rs
  induction rs with
  | nil =>
    intro v h g _ _ _
    exact ⟨h, g.equalFuns, by simp [importResults, keyIds, allRefs, weakIds], by simp, fun _ _ => rfl⟩
  | cons r rs ih =>
    intro v h g hp hn hk
    simp only [List.map_cons, List.nodup_cons] at hn
    obtain ⟨h1, e1, e2, e3⟩ := vertexFromYaml_spec v h g r (hp r (by simp))
    simp only [importResults, e1]
    have hset : ({ g with edgeCache := g.edgeCache ++ r.refs v } : Graph).setItem h1 r.key v =
        { vertices := g.vertices ++ [(r.key, v)]
          equalFuns := if (h1 v).result = .equal then (h1 v).names .left :: g.equalFuns else g.equalFuns
          edgeCache := g.edgeCache ++ r.refs v
          weakCache := if endsWith r.key dotVoid then g.weakCache ++ [v] else g.weakCache } := by
      have hs : g.vertices.set r.key v = g.vertices ++ [(r.key, v)] := by
        have := hk r (by simp)
        exact set_absent this
      simp [Graph.setItem, hs]
    rw [hset]
    obtain ⟨h2, eq', f1, f2, f3⟩ := ih (v + 1) h1
      ⟨g.vertices ++ [(r.key, v)], _, _, _⟩ (fun x hx => hp x (by simp [hx])) hn.2 (by
      intro x hx
      simp only [Dict.keys, List.map_append, List.map_cons, List.map_nil, List.mem_append, List.mem_singleton, not_or]
      refine ⟨by simpa [Dict.keys] using hk x (by simp [hx]), ?_⟩
      intro he
      exact hn.1 (List.mem_map.2 ⟨x, hx, he⟩))
    refine ⟨h2, eq', ?_, ?_, ?_⟩
    · rw [f1]
      simp only [keyIds, allRefs, weakIds]
      congr 2
      simp only [Graph.mk.injEq, List.append_assoc, List.singleton_append, true_and]
      split <;> simp
    · intro i x hx
      cases i with
      | zero =>
        simp at hx
        subst hx
        rw [f3 (v + 0) (Or.inl (by omega))]
        exact e2
      | succ i =>
        have := f2 i x (by simpa using hx)
        rw [show v + (i + 1) = v + 1 + i by omega]
        exact this
    · intro w hw
      simp only [List.length_cons] at hw
      rw [f3 w (by omega), e3 w (by omega)]

end DK
