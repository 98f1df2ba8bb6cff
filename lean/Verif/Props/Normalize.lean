import Verif.Lemmas.Normalize3

/-! C11, C12: import of the engine's output and removal of variant functions. -/

set_option autoImplicit false

namespace DK
open Spec

/-- A function result with the given calls on both sides. -/
def exResult (l r : Str) (k : Kind) (calls : Option (List Edge)) : FunResult :=
  { result := k
    first := { function := l, file := some (str! "a.c"), calls := calls }
    second := { function := r, file := some (str! "a.c"), calls := calls } }

def exCall (n : Str) : Edge := ⟨n, str! "a.c", 1, false⟩

/-- The import followed by normalisation, simpll.py 183-203. -/
def importNormalize (rs : List FunResult) : Except PyErr (Heap × Graph) :=
  match importResults 0 (emptyHeap, {}) rs with
  | .error x => .error x
  | .ok (h, g) => normalize h g

/-- `f` calls `g.void` and `g`, `k` is compared in a variant only. -/
def NormEx : List FunResult :=
  [exResult (str! "f") (str! "f") .notEqual (some [exCall (str! "g.void"), exCall (str! "g")]),
   exResult (str! "g.void") (str! "g.void") .equal none,
   exResult (str! "g") (str! "g") .notEqual none,
   exResult (str! "k") (str! "k.void") .equal (some [exCall (str! "g")])]

theorem NormEx_wf : WellFormedOutput NormEx where
  keys := by decide
  paired := by decide
  called := by
    intro r hr cs hc e he _
    simp [NormEx] at hr
    rcases hr with rfl | rfl | rfl | rfl <;> simp [exResult] at hc <;> subst hc <;> simp [exCall] at he
    · rcases he with rfl | rfl <;> decide
    · subst he; decide
  single := by
    intro r hr n
    simp [NormEx] at hr
    have hlen : ∀ k : Str, k.length < 10 → k ≠ n ++ (str! ".void.void") := by
      intro k hk he
      have := congrArg List.length he
      simp at this; omega
    rcases hr with rfl | rfl | rfl | rfl <;> exact hlen _ (by decide)

/-- The full statement of C11, for every output the engine can produce (calls are recorded in pairs, see C58). -/
def C11_statement : Prop :=
  ∀ rs : List FunResult, (∀ r ∈ rs, (r.first.calls = none ↔ r.second.calls = none)) →
    ∃ h g, importNormalize rs = .ok (h, g) ∧ (∀ k ∈ g.vertices.keys, ¬ IsVariant k) ∧
      ∀ v ∈ g.vertices.values, ∀ s, ∀ e ∈ (h v).succs s, ¬ IsVariant e.target

/-- **C11 (violated)** Normalisation raises `KeyError` when a called variant function has no result of its own (the
engine drops the results of functions it has inlined, ModuleComparator.cpp 204-210). -/
theorem C11_fails : ¬ C11_statement := by
  intro hall
  obtain ⟨h, g, e, _⟩ := hall [exResult (str! "f") (str! "f") .equal (some [exCall (str! "g.void")])] (by decide)
  have : importNormalize [exResult (str! "f") (str! "f") .equal (some [exCall (str! "g.void")])] = .error .keyError := rfl
  rw [this] at e
  cases e

/-- A second way to fail: the pairs (`f`, `f.void`) and (`f.void`, `f.void`) are stored under the same key, the key is
removed for the first one and missing for the second one. -/
theorem C11_fails_shared_key :
    importNormalize [exResult (str! "f") (str! "f.void") .equal none, exResult (str! "f.void") (str! "f.void") .equal none]
      = .error .keyError := by rfl

/-- **C11 (partial)** For well-formed outputs normalisation succeeds and leaves no variant function. Missing: outputs in
which a called variant function has no result or two results share a key, for which the code fails (`C11_fails`), and
names that carry the suffix twice. -/
theorem C11_no_variants_left_partial (rs : List FunResult) (hwf : WellFormedOutput rs) :
    ∃ h g, importNormalize rs = .ok (h, g) ∧ (∀ k ∈ g.vertices.keys, ¬ IsVariant k) ∧
      ∀ v ∈ g.vertices.values, ∀ s, ∀ e ∈ (h v).succs s, ¬ IsVariant e.target := by
  obtain ⟨h0, g0, e0, hi⟩ := import_wf hwf.paired hwf.keys
  obtain ⟨h1, h', g', n1, n2, b1, b2, b3, b4, b5, b6, b7⟩ := normalize_wf hwf hi
  refine ⟨h', g', by unfold importNormalize; rw [e0]; exact n2, b3, ?_⟩
  intro v hv s e he
  have hvlt : v < rs.length := by
    obtain ⟨i, hi'⟩ := List.mem_iff_getElem?.1 he
    rw [b7 v] at hi'
    have hch := b2 v s i
    -- an edge of the final heap comes from an edge of the imported heap
    cases hc : h0.edge? v s i with
    | none =>
      rw [hc] at hch
      unfold EdgeChange Heap.edge? at hch
      simp only at hch
      rw [hch] at hi'; cases hi'
    | some a0 =>
      by_contra hge
      have hempty : ∀ w, rs.length ≤ w → h0 w = emptyHeap w := by
        intro w hw
        obtain ⟨hh, eq', f1, _, f3⟩ := importResults_spec rs 0 emptyHeap {} hwf.paired hwf.keys (by intro r _; simp [Dict.keys])
        rw [e0] at f1
        injection f1 with f1
        injection f1 with f1 f2
        rw [f1]
        exact f3 w (Or.inr (by omega))
      unfold Heap.edge? at hc
      rw [hempty v (Nat.le_of_not_lt hge)] at hc
      simp [emptyHeap] at hc
  obtain ⟨i, hi'⟩ := List.mem_iff_getElem?.1 he
  rw [b7 v] at hi'
  have hch := b2 v s i
  cases hc : h0.edge? v s i with
  | none =>
    rw [hc] at hch
    unfold EdgeChange Heap.edge? at hch
    simp only at hch
    rw [hch] at hi'; cases hi'
  | some e0' =>
    rw [hc] at hch
    obtain ⟨e', f1, f2, _⟩ := hch
    unfold Heap.edge? at f1
    rw [hi'] at f1; injection f1 with f1; subst f1
    rw [f2]
    by_cases hm : (⟨v, s, i⟩ : EdgeRef) ∈ g0.edgeCache
    · rw [if_pos hm]
      obtain ⟨e1, q1, q2⟩ := (hi.mem_edges hvlt).1 hm
      simp only at q1
      rw [hc] at q1; injection q1 with q1; subst q1
      have hrr : rs[v]? = some rs[v] := List.getElem?_eq_getElem hvlt
      unfold Heap.edge? at hc
      rw [hi.heap _ _ hrr, fullVertex_succs] at hc
      obtain ⟨cs, hc1, hc2⟩ := callsOf_mem (List.mem_of_getElem? hc)
      have hkm := hwf.called _ (List.getElem_mem hvlt) cs hc1 _ hc2 q2
      obtain ⟨r, hr, hrk⟩ := List.mem_map.1 hkm
      rw [← hrk] at q2 ⊢
      exact single_strip q2 (hwf.single r hr)
    · rw [if_neg hm]
      intro hv'
      exact hm ((hi.mem_edges hvlt).2 ⟨e0', hc, hv'⟩)

example : ∃ h g, importNormalize NormEx = .ok (h, g) ∧ (∀ k ∈ g.vertices.keys, ¬ IsVariant k) ∧
    ∀ v ∈ g.vertices.values, ∀ s, ∀ e ∈ (h v).succs s, ¬ IsVariant e.target :=
  C11_no_variants_left_partial NormEx NormEx_wf

/-- The outcome of the example: `f`, `g` and the renamed `k` remain. -/
example : (importNormalize NormEx).map (fun st => (st.2.vertices, (st.1 3).result, (st.1 3).names .left,
    (st.1 0).succs .left)) =
    .ok ([(str! "f", 0), (str! "g", 2), (str! "k", 3)], .assumedEqual, str! "k",
      [⟨str! "g", str! "a.c", 1, true⟩, ⟨str! "g", str! "a.c", 1, true⟩]) := by rfl

/-- **C12** Whatever the engine has output, if normalisation succeeds then every ordinary function keeps its key, its
names and its verdict, and every other ordinary name in the graph was absent before and now belongs to a former variant
function that got this name, whose verdict is assumed-equal if it was equal and unchanged otherwise. -/
theorem C12_verdicts_any_output (rs : List FunResult) (h0 h : Heap) (g0 g : Graph)
    (himp : importResults 0 (emptyHeap, {}) rs = .ok (h0, g0)) (hnorm : normalize h0 g0 = .ok (h, g)) :
    (∀ k v, g0.vertices.get? k = some v → ¬ IsVariant k →
      g.vertices.get? k = some v ∧ (h v).names = (h0 v).names ∧ (h v).result = (h0 v).result) ∧
    (∀ k v, g.vertices.get? k = some v → ¬ IsVariant k → g0.vertices.get? k ≠ some v →
      g0.vertices.get? k = none ∧ (∃ r, rs[v]? = some r ∧ IsVariant r.key) ∧ (∀ s, (h v).names s = k) ∧
      ((h0 v).result = .equal → (h v).result = .assumedEqual) ∧
      ((h0 v).result ≠ .equal → (h v).result = (h0 v).result)) := by
  obtain ⟨a1, a2, -, a4⟩ := importResults_general rs 0 emptyHeap {} h0 g0 himp
  have hkn : g0.vertices.keys.Nodup := by
    clear a1 a2 a4 hnorm
    have : ∀ (rs : List FunResult) (v : Nat) (st : Heap × Graph), st.2.vertices.keys.Nodup →
        ∀ h0 g0, importResults v st rs = .ok (h0, g0) → g0.vertices.keys.Nodup := by
      intro rs
      induction rs with
      | nil =>
        intro v st hn h0 g0 hok
        simp only [importResults, Except.ok.injEq] at hok
        rw [hok] at hn; exact hn
      | cons r rs ih =>
        intro v st hn h0 g0 hok
        unfold importResults at hok
        cases hv : vertexFromYaml v st r with
        | error x => rw [hv] at hok; cases hok
        | ok st1 =>
          obtain ⟨h1, g1⟩ := st1
          rw [hv] at hok
          refine ih _ _ ?_ _ _ hok
          simp only [Graph.setItem]
          have := (vertexFromYaml_general (h := st.1) (g := st.2) hv).2.2.1
          exact Dict.nodup_keys_set (by rw [this]; exact hn) _ _
    exact this rs 0 (emptyHeap, {}) (by simp [Dict.keys]) h0 g0 himp
  have hweak : ∀ w, w ∈ g0.weakCache ↔ ∃ r, rs[w]? = some r ∧ IsVariant r.key := by
    intro w
    rw [a1]
    simp only [List.nil_append, mem_weakIds]
    constructor
    · rintro ⟨i, r, b1, b2, b3⟩; exact ⟨r, by rw [b2]; simpa using b1, b3⟩
    · rintro ⟨r, b1, b2⟩; exact ⟨w, r, b1, by simp, b2⟩
  have hdisj : ∀ k v, g0.vertices.get? k = some v → ¬ IsVariant k → v ∉ g0.weakCache := by
    intro k v hk hv hw
    rcases a4 k v hk with h2 | ⟨i, r, h2, h3, h4⟩
    · simp at h2
    · obtain ⟨r', b1, b2⟩ := (hweak v).1 hw
      rw [h4, Nat.zero_add, h2] at b1
      injection b1 with b1; subst b1
      rw [h3] at hv; exact hv b2
  unfold normalize at hnorm
  cases he : normalizeEdges g0 h0 g0.edgeCache with
  | error x => rw [he] at hnorm; cases hnorm
  | ok h1 =>
    rw [he] at hnorm
    simp only at hnorm
    have hs := normalizeEdges_general _ _ _ he
    cases hv : normalizeVertices (normalizeFuel h1 g0.weakCache) h1 g0 g0.weakCache with
    | none => exact absurd hv (normalizeVertices_fuel _ _ _ _ (Nat.le_refl _))
    | some res =>
      rw [hv] at hnorm
      simp only at hnorm
      subst hnorm
      have hinv := normalizeVertices_general (h0 := h1) (g0 := g0) (w0 := g0.weakCache) _ _ _ _ _ _
        (by
          refine ⟨by rw [a1]; exact weakIds_nodup _ _, hkn, ?_, hdisj, fun v _ => rfl, fun k v hk _ => hk,
            fun k v hk _ => Or.inl hk⟩
          intro w hw
          refine ⟨hw, ?_, Or.inl rfl⟩
          obtain ⟨r, b1, b2⟩ := (hweak w).1 hw
          have hr := a2 w r b1
          rw [Nat.zero_add] at hr
          rw [pointed_congr (hs w).names, pointed_congr hr.names, pointed_eq_key r b2]
          exact b2) hv
      constructor
      · intro k v hk hkv
        have hvw := hdisj k v hk hkv
        refine ⟨hinv.keep k v hk hkv, ?_, ?_⟩
        · rw [hinv.same v hvw, (hs v).names]
        · rw [hinv.same v hvw, (hs v).result]
      · intro k v hk hkv hne
        rcases hinv.only k v hk hkv with h2 | ⟨h2, h3, h4, h5⟩
        · exact absurd h2 hne
        · unfold Strengthened at h5
          rw [(hs v).result] at h5
          exact ⟨h2, (hweak v).1 h3, h4, h5.1, h5.2⟩

/-- The theorem applies to the example. -/
example : ∃ h0 g0 h g, importResults 0 (emptyHeap, {}) NormEx = .ok (h0, g0) ∧ normalize h0 g0 = .ok (h, g) ∧
    g.vertices.get? (str! "g") = some 2 := by
  obtain ⟨h0, g0, e0, hi⟩ := import_wf NormEx_wf.paired NormEx_wf.keys
  obtain ⟨_, h', g', _, n2, _⟩ := normalize_wf NormEx_wf hi
  exact ⟨h0, g0, h', g', e0, n2, ((C12_verdicts_any_output NormEx h0 h' g0 g' e0 n2).1 (str! "g") 2
    ((hi.get? NormEx_wf.keys).2 ⟨_, rfl, rfl⟩) (by rw [← endsWith_void_iff]; decide)).1⟩

/-- **C12** Normalisation keeps the key, the names and the verdict of every ordinary function. A variant function gets
its base name iff the base name is absent, and then an equal verdict becomes assumed-equal and any other verdict is kept.
There are no other functions afterwards. (For well-formed outputs; for others see C11.) -/
theorem C12_verdicts_preserved (rs : List FunResult) (hwf : WellFormedOutput rs) :
    ∃ h0 g0 h g, importResults 0 (emptyHeap, {}) rs = .ok (h0, g0) ∧ importNormalize rs = .ok (h, g) ∧
      -- ordinary functions
      (∀ k v, g0.vertices.get? k = some v → ¬ IsVariant k →
        g.vertices.get? k = some v ∧ (h v).names = (h0 v).names ∧ (h v).result = (h0 v).result) ∧
      -- variants without a base function
      (∀ b v, g0.vertices.get? (b ++ (str! ".void")) = some v → g0.vertices.get? b = none →
        g.vertices.get? b = some v ∧ (∀ s, (h v).names s = b) ∧
        ((h0 v).result = .equal → (h v).result = .assumedEqual) ∧
        ((h0 v).result ≠ .equal → (h v).result = (h0 v).result)) ∧
      -- nothing else
      (∀ k v, g.vertices.get? k = some v →
        (g0.vertices.get? k = some v ∧ ¬ IsVariant k) ∨
        (g0.vertices.get? k = none ∧ g0.vertices.get? (k ++ (str! ".void")) = some v)) := by
  obtain ⟨h0, g0, e0, hi⟩ := import_wf hwf.paired hwf.keys
  obtain ⟨h1, h', g', n1, n2, b1, b2, b3, b4, b5, b6, b7⟩ := normalize_wf hwf hi
  refine ⟨h0, g0, h', g', e0, by unfold importNormalize; rw [e0]; exact n2, ?_, ?_, ?_⟩
  · intro k v hk hv
    obtain ⟨c1, c2⟩ := b4 k v hk hv
    exact ⟨c1, by rw [c2, (b1 v).names], by rw [c2, (b1 v).result]⟩
  · intro b v hk hn
    obtain ⟨c1, c2⟩ := b5 b v hk hn
    obtain ⟨r, hr, hkr⟩ := (hi.get? hwf.keys).1 hk
    have hv : IsVariant r.key := by rw [← hkr]; exact List.suffix_append _ _
    refine ⟨c1, ?_, ?_, ?_⟩
    · intro s
      rw [c2]
      unfold strengthen
      simp only
      rw [pointed_congr (b1 v).names, hi.heap v r hr]
      have := pointed_eq_key r hv
      rw [show pointedName r.fullVertex = pointedName r.vertex from rfl, this, ← hkr, stripVoid_variant]
    · intro hq
      rw [c2]; unfold strengthen
      simp [(b1 v).result, hq]
    · intro hq
      rw [c2]; unfold strengthen
      simp [(b1 v).result, hq]
  · intro k v hk
    rcases b6 k v hk with h2 | h2
    · exact Or.inl ⟨h2, b3 k ((Dict.mem_keys_iff_ex _ _).2 ⟨v, hk⟩)⟩
    · exact Or.inr h2

example : ∃ h g, importNormalize NormEx = .ok (h, g) ∧ (h 2).result = .notEqual ∧ (h 3).result = .assumedEqual := by
  obtain ⟨h0, g0, h, g, e0, e1, h1, h2, _⟩ := C12_verdicts_preserved NormEx NormEx_wf
  refine ⟨h, g, e1, ?_, ?_⟩
  · obtain ⟨hh, gg, f1, hi⟩ := import_wf NormEx_wf.paired NormEx_wf.keys
    rw [f1] at e0; injection e0 with e0; injection e0 with e2 e3; subst e2; subst e3
    obtain ⟨_, _, h4⟩ := h1 (str! "g") 2 ((hi.get? NormEx_wf.keys).2 ⟨_, rfl, rfl⟩) (by rw [← endsWith_void_iff]; decide)
    rw [h4, hi.heap 2 _ rfl]; rfl
  · obtain ⟨hh, gg, f1, hi⟩ := import_wf NormEx_wf.paired NormEx_wf.keys
    rw [f1] at e0; injection e0 with e0; injection e0 with e2 e3; subst e2; subst e3
    obtain ⟨_, _, h4, _⟩ := h2 (str! "k") 3 ((hi.get? NormEx_wf.keys).2 ⟨_, rfl, rfl⟩) (by
      rw [hi.verts]; decide)
    exact h4 (by rw [hi.heap 3 _ rfl]; rfl)

/-- **C12** Calls: every call is kept with its position in the source and is redirected to the base function; a call is
weak afterwards iff it was weak before or the calling function also calls an equal variant of the callee. -/
theorem C12_calls_preserved (rs : List FunResult) (hwf : WellFormedOutput rs) :
    ∃ h0 g0 h g, importResults 0 (emptyHeap, {}) rs = .ok (h0, g0) ∧ importNormalize rs = .ok (h, g) ∧
      ∀ k v, g.vertices.get? k = some v → ∀ s,
        ((h v).succs s).length = ((h0 v).succs s).length ∧
        ∀ (i : Nat) (a b : Edge), ((h0 v).succs s)[i]? = some a → ((h v).succs s)[i]? = some b →
          BaseOf a.target b.target ∧ b.file = a.file ∧ b.line = a.line ∧
          (b.weak = true ↔ a.weak = true ∨
            ∃ t, ∃ c ∈ (h0 v).succs t, c.target = b.target ++ (str! ".void") ∧
              ∃ x, g0.vertices.get? c.target = some x ∧ (h0 x).result = .equal) := by
  obtain ⟨h0, g0, e0, hi⟩ := import_wf hwf.paired hwf.keys
  obtain ⟨h1, h', g', n1, n2, b1, b2, b3, b4, b5, b6, b7⟩ := normalize_wf hwf hi
  refine ⟨h0, g0, h', g', e0, by unfold importNormalize; rw [e0]; exact n2, ?_⟩
  intro k v hk s
  have hvlt : v < rs.length := by
    have : ∃ k', g0.vertices.get? k' = some v := by
      rcases b6 k v hk with h2 | h2
      · exact ⟨_, h2⟩
      · exact ⟨_, h2.2⟩
    obtain ⟨k', hk'⟩ := this
    obtain ⟨r, hr, _⟩ := (hi.get? hwf.keys).1 hk'
    exact (List.getElem?_eq_some_iff.1 hr).1
  have hvar : ∀ x : EdgeRef, x ∈ g0.edgeCache → ∃ e, h0.edge? x.parent x.side x.idx = some e ∧
      e.target ∈ g0.vertices.keys ∧ IsVariant e.target ∧ ¬ IsVariant (stripVoid e.target) := by
    intro x hx
    have hlt := hi.edges_lt hx
    obtain ⟨e, he, hv⟩ := (hi.mem_edges hlt).1 hx
    have he' := he
    unfold Heap.edge? at he'
    have hrr : rs[x.parent]? = some rs[x.parent] := List.getElem?_eq_getElem hlt
    rw [hi.heap _ _ hrr, fullVertex_succs] at he'
    obtain ⟨cs, hc1, hc2⟩ := callsOf_mem (List.mem_of_getElem? he')
    have hkm := hwf.called _ (List.getElem_mem hlt) cs hc1 _ hc2 hv
    refine ⟨e, he, by rw [hi.verts, keys_keyIds]; exact hkm, hv, ?_⟩
    obtain ⟨r, hr, hrk⟩ := List.mem_map.1 hkm
    rw [← hrk] at hv ⊢
    exact single_strip hv (hwf.single r hr)
  rw [b7 v]
  constructor
  · -- same length
    have hsame : ∀ i : Nat, ((h1 v).succs s)[i]? = none ↔ ((h0 v).succs s)[i]? = none := by
      intro i
      have := b2 v s i
      unfold EdgeChange Heap.edge? at this
      cases hc : ((h0 v).succs s)[i]? with
      | none => simp only [hc] at this; simp [this]
      | some e => simp only [hc] at this; obtain ⟨e', f, _⟩ := this; simp [f]
    apply Nat.le_antisymm
    · have := (hsame ((h0 v).succs s).length).2 (by simp)
      simpa using this
    · have := (hsame ((h1 v).succs s).length).1 (by simp)
      simpa using this
  · intro i a b ha hb
    have hch := b2 v s i
    unfold Heap.edge? at hch
    rw [ha] at hch
    obtain ⟨b', f1, f2, f3, f4, _⟩ := hch
    rw [hb] at f1; injection f1 with f1; subst f1
    have hw := normalizeEdges_weak g0 g0.edgeCache h0 h1 (by rw [hi.edges]; exact allRefs_nodup _ _) hvar n1 v s i a b ha hb
    have hmemv : (⟨v, s, i⟩ : EdgeRef) ∈ g0.edgeCache ↔ IsVariant a.target := by
      rw [hi.mem_edges hvlt]
      simp only
      constructor
      · rintro ⟨e, he, hv⟩
        unfold Heap.edge? at he; rw [ha] at he; injection he with he; subst he; exact hv
      · intro hv; exact ⟨a, ha, hv⟩
    refine ⟨?_, f3, f4, ?_⟩
    · by_cases hm : (⟨v, s, i⟩ : EdgeRef) ∈ g0.edgeCache
      · rw [if_pos hm] at f2
        left
        rw [f2, stripVoid_append (hmemv.1 hm)]
      · rw [if_neg hm] at f2
        right
        exact ⟨fun h => hm (hmemv.2 h), f2⟩
    · rw [hw, ← f2]
      apply or_congr_right
      constructor
      · rintro ⟨r, hr, hp, e, he, ⟨x, hx, hq⟩, hs⟩
        obtain ⟨e', he', _, hv', _⟩ := hvar r hr
        rw [he] at he'; injection he' with he'; subst he'
        rw [hp] at he
        refine ⟨r.side, e, List.mem_of_getElem? he, ?_, x, hx, hq⟩
        rw [← hs, stripVoid_append hv']
      · rintro ⟨t, c, hc, hct, x, hx, hq⟩
        obtain ⟨j, hj⟩ := List.mem_iff_getElem?.1 hc
        have hcv : IsVariant c.target := by rw [hct]; exact List.suffix_append _ _
        refine ⟨⟨v, t, j⟩, (hi.mem_edges hvlt).2 ⟨c, hj, hcv⟩, rfl, c, hj, ⟨x, hx, hq⟩, ?_⟩
        rw [hct, stripVoid_variant]

example : ∃ h g, importNormalize NormEx = .ok (h, g) ∧ ((h 0).succs .left).length = 2 := by
  obtain ⟨h0, g0, h, g, e0, e1, h1⟩ := C12_calls_preserved NormEx NormEx_wf
  obtain ⟨i0, j0, i, j, d0, d1, _, _, _⟩ := C12_verdicts_preserved NormEx NormEx_wf
  refine ⟨h, g, e1, ?_⟩
  obtain ⟨hh, gg, f1, hi⟩ := import_wf NormEx_wf.paired NormEx_wf.keys
  rw [f1] at e0; injection e0 with e0; injection e0 with e2 e3; subst e2; subst e3
  have hf : g.vertices.get? (str! "f") = some 0 := by
    have : (importNormalize NormEx).map (fun st => st.2.vertices.get? (str! "f")) = .ok (some 0) := rfl
    rw [e1] at this
    simpa [Except.map] using this
  rw [(h1 (str! "f") 0 hf .left).1, hi.heap 0 _ rfl]
  rfl

end DK
