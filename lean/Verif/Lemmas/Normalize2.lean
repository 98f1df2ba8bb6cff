import Verif.Lemmas.Normalize

/-! Normalisation of a well-formed engine output. -/

set_option autoImplicit false

namespace DK
open Spec

theorem pointed_eq_key (r : FunResult) (hv : IsVariant r.key) : pointedName r.vertex = r.key := by
  unfold pointedName FunResult.vertex FunResult.key at *
  simp only
  by_cases hd : '.' ∈ r.first.function
  · simp only [hd, if_true] at hv ⊢
    rw [if_pos ((endsWith_void_iff _).2 hv)]
  · simp only [hd, if_false] at hv ⊢
    rw [if_neg]
    intro hc
    obtain ⟨t, ht⟩ := (endsWith_void_iff _).1 hc
    exact hd (by rw [← ht]; simp)

theorem single_strip {n : Str} (hv : IsVariant n) (hs : ∀ m, n ≠ m ++ (str! ".void.void")) : ¬ IsVariant (stripVoid n) := by
  rintro ⟨t, ht⟩
  apply hs t
  rw [← stripVoid_append hv, ← ht]
  simp

/-- The facts about the imported graph that normalisation needs. -/
structure Imported (rs : List FunResult) (h : Heap) (g : Graph) : Prop where
  verts : g.vertices = keyIds 0 rs
  edges : g.edgeCache = allRefs 0 rs
  weak : g.weakCache = weakIds 0 rs
  heap : ∀ (i : Nat) (r : FunResult), rs[i]? = some r → h i = r.fullVertex

theorem import_wf {rs : List FunResult} (hp : ∀ r ∈ rs, CallsPaired r) (hk : (rs.map FunResult.key).Nodup) :
    ∃ h g, importResults 0 (emptyHeap, {}) rs = .ok (h, g) ∧ Imported rs h g := by
  obtain ⟨h, eq', e1, e2, e3⟩ := importResults_spec rs 0 emptyHeap {} hp hk (by intro r _; simp [Dict.keys])
  refine ⟨h, _, e1, ⟨by simp, by simp, by simp, ?_⟩⟩
  intro i r hi
  have := e2 i r hi
  simpa using this

theorem Imported.get? {rs : List FunResult} {h : Heap} {g : Graph} (hi : Imported rs h g)
    (hk : (rs.map FunResult.key).Nodup) {k : Str} {v : Nat} :
    g.vertices.get? k = some v ↔ ∃ r, rs[v]? = some r ∧ k = r.key := by
  have hn : (keyIds 0 rs).keys.Nodup := by rw [keys_keyIds]; exact hk
  rw [hi.verts, ← Dict.mem_iff_get? hn, mem_keyIds]
  constructor
  · rintro ⟨i, r, h1, h2, h3⟩
    refine ⟨r, ?_, h2⟩
    rw [h3]; simpa using h1
  · rintro ⟨r, h1, h2⟩
    exact ⟨v, r, h1, h2, by simp⟩

theorem fullVertex_succs (r : FunResult) : r.fullVertex.succs = r.callsOf := rfl

theorem mem_refs_iff {r : FunResult} {v : Nat} {x : EdgeRef} :
    x ∈ r.refs v ↔ x.parent = v ∧ ∃ e, (r.callsOf x.side)[x.idx]? = some e ∧ IsVariant e.target := by
  unfold FunResult.refs
  rw [List.mem_append, mem_refsOf, mem_refsOf]
  obtain ⟨p, s, i⟩ := x
  cases s <;> simp

/-- Calls to variant functions are exactly the edges in the cache. -/
theorem Imported.mem_edges {rs : List FunResult} {h : Heap} {g : Graph} (hi : Imported rs h g) {x : EdgeRef}
    (hx : x.parent < rs.length) :
    x ∈ g.edgeCache ↔ ∃ e, h.edge? x.parent x.side x.idx = some e ∧ IsVariant e.target := by
  rw [hi.edges, mem_allRefs]
  constructor
  · rintro ⟨i, r, h1, h2⟩
    rw [mem_refs_iff] at h2
    obtain ⟨h2, h3⟩ := h2
    rw [Nat.zero_add] at h2
    unfold Heap.edge?
    rw [h2, hi.heap i r h1, fullVertex_succs]
    exact h3
  · rintro ⟨e, h1, h2⟩
    have hr : rs[x.parent]? = some rs[x.parent] := List.getElem?_eq_getElem hx
    refine ⟨x.parent, rs[x.parent], hr, ?_⟩
    rw [mem_refs_iff]
    refine ⟨by simp, e, ?_, h2⟩
    unfold Heap.edge? at h1
    rw [hi.heap _ _ hr, fullVertex_succs] at h1
    exact h1

theorem Imported.edges_lt {rs : List FunResult} {h : Heap} {g : Graph} (hi : Imported rs h g) {x : EdgeRef}
    (hx : x ∈ g.edgeCache) : x.parent < rs.length := by
  rw [hi.edges, mem_allRefs] at hx
  obtain ⟨i, r, h1, h2⟩ := hx
  have := (mem_refs_iff.1 h2).1
  rw [this, Nat.zero_add]
  exact (List.getElem?_eq_some_iff.1 h1).1

theorem callsOf_mem {r : FunResult} {s : Side} {e : Edge} (he : e ∈ r.callsOf s) :
    ∃ cs, (r.first.calls = some cs ∨ r.second.calls = some cs) ∧ e ∈ cs := by
  cases s with
  | left =>
    unfold FunResult.callsOf at he
    simp only at he
    cases hc : r.first.calls with
    | none => simp [hc] at he
    | some cs => exact ⟨cs, Or.inl rfl, by simpa [hc] using he⟩
  | right =>
    unfold FunResult.callsOf at he
    simp only at he
    cases hc : r.second.calls with
    | none => simp [hc] at he
    | some cs => exact ⟨cs, Or.inr rfl, by simpa [hc] using he⟩

theorem pointed_congr {a b : Vertex} (h : b.names = a.names) : pointedName b = pointedName a := by
  unfold pointedName; rw [h]

/-- The combined result. -/
theorem normalize_wf {rs : List FunResult} (hwf : WellFormedOutput rs) {h : Heap} {g : Graph} (hi : Imported rs h g) :
    ∃ h1 h' g', normalizeEdges g h g.edgeCache = .ok h1 ∧ normalize h g = .ok (h', g') ∧
      (∀ v, SameButSuccs (h v) (h1 v)) ∧
      (∀ v s i, EdgeChange g.edgeCache v s i (h.edge? v s i) (h1.edge? v s i)) ∧
      (∀ k ∈ g'.vertices.keys, ¬ IsVariant k) ∧
      (∀ k v, g.vertices.get? k = some v → ¬ IsVariant k → g'.vertices.get? k = some v ∧ h' v = h1 v) ∧
      (∀ k v, g.vertices.get? (k ++ (str! ".void")) = some v → g.vertices.get? k = none →
        g'.vertices.get? k = some v ∧ h' v = strengthen (h1 v)) ∧
      (∀ k v, g'.vertices.get? k = some v → g.vertices.get? k = some v ∨
        (g.vertices.get? k = none ∧ g.vertices.get? (k ++ (str! ".void")) = some v)) ∧
      (∀ v, (h' v).succs = (h1 v).succs) := by
  have hk := hwf.keys
  have hkn : g.vertices.keys.Nodup := by rw [hi.verts, keys_keyIds]; exact hk
  obtain ⟨h1, a1, a2, a3⟩ := normalizeEdges_spec g g.edgeCache h (by rw [hi.edges]; exact allRefs_nodup _ _) (by
    intro r hr
    have hlt := hi.edges_lt hr
    obtain ⟨e, he, hv⟩ := (hi.mem_edges hlt).1 hr
    refine ⟨e, he, ?_⟩
    unfold Heap.edge? at he
    have hrr : rs[r.parent]? = some rs[r.parent] := List.getElem?_eq_getElem hlt
    rw [hi.heap _ _ hrr, fullVertex_succs] at he
    obtain ⟨cs, hc1, hc2⟩ := callsOf_mem (List.mem_of_getElem? he)
    rw [hi.verts, keys_keyIds]
    exact hwf.called _ (List.getElem_mem hlt) cs hc1 e hc2 hv)
  have hptr : ∀ v r, rs[v]? = some r → IsVariant r.key → pointedName (h1 v) = r.key := by
    intro v r hr hv
    rw [pointed_congr (a2 v).names, hi.heap v r hr]
    exact pointed_eq_key r hv
  have hweak : ∀ w, w ∈ g.weakCache ↔ ∃ r, rs[w]? = some r ∧ IsVariant r.key := by
    intro w
    rw [hi.weak, mem_weakIds]
    constructor
    · rintro ⟨i, r, b1, b2, b3⟩; exact ⟨r, by rw [b2]; simpa using b1, b3⟩
    · rintro ⟨r, b1, b2⟩; exact ⟨w, r, b1, by simp, b2⟩
  have hfuel : g.weakCache.length ≤ normalizeFuel h1 g.weakCache := by
    unfold normalizeFuel
    induction g.weakCache with
    | nil => simp
    | cons a l ih => simp only [List.length_cons, List.map_cons, List.sum_cons]; omega
  obtain ⟨h', g', r1, r2, r3, r4, r5, r6, r7, r8⟩ := normalizeVertices_spec g.weakCache _ h1 g hfuel
    (by rw [hi.weak]; exact weakIds_nodup _ _) hkn
    (by
      intro w hw
      obtain ⟨r, hr, hv⟩ := (hweak w).1 hw
      rw [hptr w r hr hv]
      refine ⟨hv, single_strip hv (hwf.single r (List.mem_of_getElem? hr)), ?_⟩
      exact (hi.get? hk).2 ⟨r, hr, rfl⟩)
    (by
      intro k hkm hv
      obtain ⟨v, hv1⟩ := (Dict.mem_keys_iff_ex _ _).1 hkm
      obtain ⟨r, hr, rfl⟩ := (hi.get? hk).1 hv1
      exact ⟨v, (hweak v).2 ⟨r, hr, hv⟩, hptr v r hr hv⟩)
    (by
      intro k v hv1 hnv hw
      obtain ⟨r, hr, rfl⟩ := (hi.get? hk).1 hv1
      obtain ⟨r', hr', hv'⟩ := (hweak v).1 hw
      rw [hr] at hr'; injection hr' with hr'; subst hr'
      exact hnv hv')
  refine ⟨h1, h', g', a1, ?_, a2, a3, r3, ?_, ?_, ?_, r8⟩
  · unfold normalize
    rw [a1]
    simp only [r1]
  · intro k v hv1 hnv
    refine ⟨r4 k v hv1 hnv, r7 v ?_⟩
    intro hw
    obtain ⟨r, hr, rfl⟩ := (hi.get? hk).1 hv1
    obtain ⟨r', hr', hv'⟩ := (hweak v).1 hw
    rw [hr] at hr'; injection hr' with hr'; subst hr'
    exact hnv hv'
  · intro k v hv1 hnone
    obtain ⟨r, hr, hkr⟩ := (hi.get? hk).1 hv1
    have hv : IsVariant r.key := by rw [← hkr]; exact List.suffix_append _ _
    have hw := (hweak v).2 ⟨r, hr, hv⟩
    have hs : stripVoid (pointedName (h1 v)) = k := by
      rw [hptr v r hr hv, ← hkr, stripVoid_variant]
    have := r5 v hw
    rw [hs] at this
    exact this hnone
  · intro k v hv1
    rcases r6 k v hv1 with h2 | ⟨h2, h3, h4⟩
    · exact Or.inl h2
    · right
      refine ⟨h2, ?_⟩
      obtain ⟨r, hr, hv⟩ := (hweak v).1 h3
      rw [hptr v r hr hv] at h4
      rw [← h4, stripVoid_append hv]
      exact (hi.get? hk).2 ⟨r, hr, rfl⟩

end DK
