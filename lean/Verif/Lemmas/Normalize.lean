import Verif.Lemmas.Import
import Verif.Lemmas.Dict

/-! Lemmas about normalisation. -/

set_option autoImplicit false

namespace DK
open Spec

/-! ### Edges -/

/-- The contents of an object apart from its edges. -/
def SameButSuccs (a b : Vertex) : Prop := { a with succs := b.succs } = b

theorem SameButSuccs.refl (a : Vertex) : SameButSuccs a a := rfl
theorem SameButSuccs.trans {a b c : Vertex} (h1 : SameButSuccs a b) (h2 : SameButSuccs b c) : SameButSuccs a c := by
  unfold SameButSuccs at *
  rw [← h2, ← h1]
theorem SameButSuccs.result {a b : Vertex} (h : SameButSuccs a b) : b.result = a.result := by
  unfold SameButSuccs at h; rw [← h]
theorem SameButSuccs.names {a b : Vertex} (h : SameButSuccs a b) : b.names = a.names := by
  unfold SameButSuccs at h; rw [← h]

/-- The edge an edge reference points to. -/
def Heap.edge? (h : Heap) (v : Nat) (s : Side) (i : Nat) : Option Edge := ((h v).succs s)[i]?

theorem updEdge_edge? (h : Heap) (r : EdgeRef) (f : Edge → Edge) (v : Nat) (s : Side) (i : Nat) :
    (h.updEdge r f).edge? v s i = if (⟨v, s, i⟩ : EdgeRef) = r then (h.edge? v s i).map f else h.edge? v s i := by
  obtain ⟨p, t, j⟩ := r
  unfold Heap.edge? Heap.updEdge
  by_cases hv : v = p
  · subst hv
    rw [upd_self]
    simp only
    by_cases hs : s = t
    · subst hs
      simp only [if_true, List.getElem?_modify, EdgeRef.mk.injEq, true_and]
      by_cases hi : j = i
      · simp [hi]
      · have : ¬ i = j := fun e => hi e.symm
        simp [hi, this]
    · simp [hs]
  · rw [upd_ne _ _ hv]
    simp [hv]

theorem updEdge_same (h : Heap) (r : EdgeRef) (f : Edge → Edge) (v : Nat) :
    SameButSuccs (h v) (h.updEdge r f v) := by
  unfold Heap.updEdge
  by_cases hv : v = r.parent
  · subst hv; rw [upd_self]; rfl
  · rw [upd_ne _ _ hv]; rfl

theorem weakenTo_edge? (h : Heap) (p : Nat) (n : Str) (v : Nat) (s : Side) (i : Nat) :
    (h.weakenTo p n).edge? v s i =
      (h.edge? v s i).map (fun e => if v = p ∧ e.target = n then { e with weak := true } else e) := by
  unfold Heap.edge? Heap.weakenTo
  by_cases hv : v = p
  · subst hv; rw [upd_self]; simp
  · rw [upd_ne _ _ hv]; simp [hv]

theorem weakenTo_same (h : Heap) (p : Nat) (n : Str) (v : Nat) : SameButSuccs (h v) (h.weakenTo p n v) := by
  unfold Heap.weakenTo
  by_cases hv : v = p
  · subst hv; rw [upd_self]; rfl
  · rw [upd_ne _ _ hv]; rfl

/-- What normalisation may do to an edge: rename the target if the reference is in `rs`, make it weak. -/
def EdgeChange (rs : List EdgeRef) (v : Nat) (s : Side) (i : Nat) (a b : Option Edge) : Prop :=
  match a with
  | none => b = none
  | some e => ∃ e', b = some e' ∧
      e'.target = (if (⟨v, s, i⟩ : EdgeRef) ∈ rs then stripVoid e.target else e.target) ∧
      e'.file = e.file ∧ e'.line = e.line ∧ (e.weak = true → e'.weak = true)

theorem normalizeEdge_spec (g : Graph) (h : Heap) (r : EdgeRef) (e : Edge) (he : h.edge? r.parent r.side r.idx = some e)
    (hk : e.target ∈ g.vertices.keys) :
    ∃ h', normalizeEdge g h r = .ok h' ∧ (∀ v, SameButSuccs (h v) (h' v)) ∧
      ∀ v s i, EdgeChange [r] v s i (h.edge? v s i) (h'.edge? v s i) := by
  unfold Heap.edge? at he
  obtain ⟨x, hx⟩ := (Dict.mem_keys_iff_ex _ _).1 hk
  refine ⟨_, by unfold normalizeEdge; rw [he]; simp only [hx]; rfl, ?_, ?_⟩
  · intro v
    refine SameButSuccs.trans ?_ (updEdge_same _ _ _ v)
    split
    · exact (updEdge_same _ _ _ v).trans (weakenTo_same _ _ _ v)
    · exact SameButSuccs.refl _
  · intro v s i
    rw [updEdge_edge?]
    unfold EdgeChange
    have key : ∀ a : Option Edge, a = h.edge? v s i →
        (match a with
          | none => (if (h x).result = .equal then (h.updEdge r (fun e => { e with weak := true })).weakenTo r.parent
              (stripVoid e.target) else h).edge? v s i = none
          | some e1 => ∃ e', (if (h x).result = .equal then
              (h.updEdge r (fun e => { e with weak := true })).weakenTo r.parent (stripVoid e.target) else h).edge? v s i = some e' ∧
              e'.target = e1.target ∧ e'.file = e1.file ∧ e'.line = e1.line ∧ (e1.weak = true → e'.weak = true)) := by
      intro a ha
      split
      · split
        · rw [weakenTo_edge?, updEdge_edge?, ← ha]; simp
        · rw [← ha]
      · rename_i e1
        split
        · rw [weakenTo_edge?, updEdge_edge?, ← ha]
          split <;> simp <;> (split <;> simp)
        · rw [← ha]; exact ⟨e1, rfl, rfl, rfl, rfl, id⟩
    have hk2 := key _ rfl
    cases hc : h.edge? v s i with
    | none =>
      rw [hc] at hk2
      simp only at hk2 ⊢
      rw [hk2]; simp
    | some e1 =>
      rw [hc] at hk2
      simp only at hk2 ⊢
      obtain ⟨e', h1, h2, h3, h4, h5⟩ := hk2
      rw [h1]
      by_cases hr : (⟨v, s, i⟩ : EdgeRef) = r
      · subst hr
        have : e = e1 := by
          have := he.symm.trans (show ((h v).succs s)[i]? = some e1 from hc)
          simpa using this
        subst this
        simp [h3, h4]
        exact h5
      · simp only [hr, if_false, List.mem_singleton]
        exact ⟨e', rfl, h2, h3, h4, h5⟩

theorem normalizeEdges_spec (g : Graph) : ∀ (rs : List EdgeRef) (h : Heap), rs.Nodup →
    (∀ r ∈ rs, ∃ e, h.edge? r.parent r.side r.idx = some e ∧ e.target ∈ g.vertices.keys) →
    ∃ h', normalizeEdges g h rs = .ok h' ∧ (∀ v, SameButSuccs (h v) (h' v)) ∧
      ∀ v s i, EdgeChange rs v s i (h.edge? v s i) (h'.edge? v s i) := by
  intro rs
  induction rs with
  | nil =>
    intro h _ _
    refine ⟨h, rfl, fun v => SameButSuccs.refl _, fun v s i => ?_⟩
    unfold EdgeChange
    cases h.edge? v s i with
    | none => rfl
    | some e => exact ⟨e, rfl, by simp, rfl, rfl, id⟩
  | cons r rs ih =>
    intro h hn hr
    rw [List.nodup_cons] at hn
    obtain ⟨e, he, hk⟩ := hr r (by simp)
    obtain ⟨h1, a1, a2, a3⟩ := normalizeEdge_spec g h r e he hk
    obtain ⟨h2, b1, b2, b3⟩ := ih h1 hn.2 (by
      intro r' hr'
      obtain ⟨e', he', hk'⟩ := hr r' (by simp [hr'])
      have := a3 r'.parent r'.side r'.idx
      rw [he'] at this
      obtain ⟨e'', f1, f2, _⟩ := this
      refine ⟨e'', f1, ?_⟩
      rw [f2, if_neg]
      · exact hk'
      · simp only [List.mem_singleton]
        rintro rfl
        exact hn.1 hr')
    refine ⟨h2, by simp [normalizeEdges, a1, b1], fun v => (a2 v).trans (b2 v), fun v s i => ?_⟩
    have c1 := a3 v s i
    have c2 := b3 v s i
    unfold EdgeChange at c1 c2 ⊢
    cases hc : h.edge? v s i with
    | none =>
      simp only [hc] at c1
      rw [c1] at c2
      simpa using c2
    | some e1 =>
      simp only [hc] at c1
      obtain ⟨e2, d1, d2, d3, d4, d5⟩ := c1
      simp only [d1] at c2
      obtain ⟨e3, f1, f2, f3, f4, f5⟩ := c2
      refine ⟨e3, f1, ?_, f3.trans d3, f4.trans d4, fun h => f5 (d5 h)⟩
      rw [f2, d2]
      by_cases hx : (⟨v, s, i⟩ : EdgeRef) = r
      · subst hx
        simp [hn.1]
      · simp [hx]

/-! ### Strength of edges -/

theorem stripVoid_append {n : Str} (h : IsVariant n) : stripVoid n ++ (str! ".void") = n := by
  obtain ⟨t, rfl⟩ := h
  simp [stripVoid]

theorem stripVoid_inj {a b : Str} (ha : IsVariant a) (hb : IsVariant b) (h : stripVoid a = stripVoid b) : a = b := by
  rw [← stripVoid_append ha, ← stripVoid_append hb, h]

/-- The function stored under a name is equal. -/
def EqualAt (g : Graph) (h : Heap) (n : Str) : Prop := ∃ x, g.vertices.get? n = some x ∧ (h x).result = .equal

theorem normalizeEdge_weak (g : Graph) (h h' : Heap) (r : EdgeRef) (e : Edge)
    (he : h.edge? r.parent r.side r.idx = some e) (hok : normalizeEdge g h r = .ok h') (v : Nat) (s : Side) (i : Nat)
    (a b : Edge) (ha : h.edge? v s i = some a) (hb : h'.edge? v s i = some b) :
    b.weak = true ↔ a.weak = true ∨
      (r.parent = v ∧ EqualAt g h e.target ∧ ((⟨v, s, i⟩ : EdgeRef) = r ∨ a.target = stripVoid e.target)) := by
  have he' := he
  unfold Heap.edge? at he'
  unfold normalizeEdge at hok
  simp only [he'] at hok
  cases hx : g.vertices.get? e.target with
  | none => rw [hx] at hok; cases hok
  | some x =>
    rw [hx] at hok
    simp only [Except.ok.injEq] at hok
    subst hok
    have hEq : EqualAt g h e.target ↔ (h x).result = .equal := by
      unfold EqualAt
      rw [hx]
      constructor
      · rintro ⟨y, hy, hr⟩; injection hy with hy; subst hy; exact hr
      · intro hr; exact ⟨x, rfl, hr⟩
    rw [hEq]
    rw [updEdge_edge?] at hb
    by_cases hq : (h x).result = .equal
    · simp only [hq, if_true, weakenTo_edge?, updEdge_edge?, ha] at hb
      by_cases hr : (⟨v, s, i⟩ : EdgeRef) = r
      · have hp : r.parent = v := by rw [← hr]
        simp [hr] at hb
        subst hb
        simp only [hp, hq, hr, true_and, true_or, or_true]
      · simp only [hr, if_false, Option.map_some, Option.some.injEq] at hb
        subst hb
        by_cases hv : v = r.parent
        · subst hv
          simp only [hr, hq, true_and, false_or]
          by_cases ht : a.target = stripVoid e.target <;> simp [ht]
        · have : ¬ r.parent = v := fun e => hv e.symm
          simp [hv, this]
    · simp only [hq, if_false, ha] at hb
      simp only [hq, false_and, and_false, or_false]
      split at hb
      · simp only [Option.map_some, Option.some.injEq] at hb; subst hb; rfl
      · injection hb with hb; subst hb; rfl

theorem normalizeEdges_weak (g : Graph) : ∀ (rs : List EdgeRef) (h h' : Heap), rs.Nodup →
    (∀ r ∈ rs, ∃ e, h.edge? r.parent r.side r.idx = some e ∧ e.target ∈ g.vertices.keys ∧ IsVariant e.target ∧
      ¬ IsVariant (stripVoid e.target)) →
    normalizeEdges g h rs = .ok h' →
    ∀ v s i a b, h.edge? v s i = some a → h'.edge? v s i = some b →
      (b.weak = true ↔ a.weak = true ∨
        ∃ r ∈ rs, r.parent = v ∧ ∃ e, h.edge? r.parent r.side r.idx = some e ∧ EqualAt g h e.target ∧
          stripVoid e.target = (if (⟨v, s, i⟩ : EdgeRef) ∈ rs then stripVoid a.target else a.target)) := by
  intro rs
  induction rs with
  | nil =>
    intro h h' _ _ hok v s i a b ha hb
    simp only [normalizeEdges, Except.ok.injEq] at hok
    subst hok
    rw [ha] at hb; injection hb with hb; subst hb; simp
  | cons r rs ih =>
    intro h h' hn hr hok v s i a b ha hb
    rw [List.nodup_cons] at hn
    obtain ⟨e, he, hk, hvar, hnvar⟩ := hr r (by simp)
    obtain ⟨h1, a1, a2, a3⟩ := normalizeEdge_spec g h r e he hk
    simp only [normalizeEdges, a1] at hok
    have hkeep : ∀ r' ∈ rs, ∀ e', h.edge? r'.parent r'.side r'.idx = some e' →
        ∃ e'', h1.edge? r'.parent r'.side r'.idx = some e'' ∧ e''.target = e'.target := by
      intro r' hr' e' he'
      have := a3 r'.parent r'.side r'.idx
      rw [he'] at this
      obtain ⟨e'', f1, f2, _⟩ := this
      refine ⟨e'', f1, ?_⟩
      rw [f2, if_neg]
      simp only [List.mem_singleton]
      rintro rfl
      exact hn.1 hr'
    have c1 := a3 v s i
    rw [ha] at c1
    obtain ⟨a', d1, d2, -, -, -⟩ := c1
    have hI := ih h1 h' hn.2 (by
      intro r' hr'
      obtain ⟨e', he', hk', hv', hn'⟩ := hr r' (by simp [hr'])
      obtain ⟨e'', f1, f2⟩ := hkeep r' hr' e' he'
      exact ⟨e'', f1, by rw [f2]; exact ⟨hk', hv', hn'⟩⟩) hok v s i a' b d1 hb
    have hW := normalizeEdge_weak g h h1 r e he a1 v s i a a' ha d1
    have hEq : ∀ n, EqualAt g h1 n ↔ EqualAt g h n := by
      intro n
      unfold EqualAt
      constructor
      · rintro ⟨x, hx, h2⟩; exact ⟨x, hx, by rw [← (a2 x).result]; exact h2⟩
      · rintro ⟨x, hx, h2⟩; exact ⟨x, hx, by rw [(a2 x).result]; exact h2⟩
    rw [hI, hW]
    by_cases hx : (⟨v, s, i⟩ : EdgeRef) = r
    · have hnr : (⟨v, s, i⟩ : EdgeRef) ∉ rs := by rw [hx]; exact hn.1
      have hae : a = e := by
        have h2 := ha
        rw [← hx] at he
        rw [h2] at he
        injection he
      have hat : a'.target = stripVoid a.target := by rw [d2, if_pos (by simp [hx])]
      rw [if_neg hnr, if_pos (by simp [hx])]
      constructor
      · rintro ((h1' | ⟨h1', h2', _⟩) | ⟨r', hr', p1, e', he', q1, q2⟩)
        · exact Or.inl h1'
        · exact Or.inr ⟨r, by simp, h1', e, he, h2', by rw [hae]⟩
        · obtain ⟨e0, he0, _⟩ := hr r' (by simp [hr'])
          obtain ⟨e1, f1, f2⟩ := hkeep r' hr' e0 he0
          rw [f1] at he'; injection he' with he'; subst he'
          refine Or.inr ⟨r', by simp [hr'], p1, e0, he0, ?_, ?_⟩
          · rw [← f2, ← hEq]; exact q1
          · rw [← f2, q2, hat]
      · rintro (h1' | ⟨r', hr', p1, e', he', q1, q2⟩)
        · exact Or.inl (Or.inl h1')
        · rcases List.mem_cons.1 hr' with rfl | hr'
          · rw [he] at he'; injection he' with he'; subst he'
            exact Or.inl (Or.inr ⟨p1, q1, Or.inl hx⟩)
          · obtain ⟨e1, f1, f2⟩ := hkeep r' hr' e' he'
            exact Or.inr ⟨r', hr', p1, e1, f1, by rw [hEq, f2]; exact q1, by rw [f2, q2, hat]⟩
    · have hat : a'.target = a.target := by rw [d2, if_neg (by simp [hx])]
      have hmem : ((⟨v, s, i⟩ : EdgeRef) ∈ r :: rs) ↔ (⟨v, s, i⟩ : EdgeRef) ∈ rs := by simp [hx]
      simp only [hmem, hat, hx, false_or]
      constructor
      · rintro ((h1' | ⟨h1', h2', h3'⟩) | ⟨r', hr', p1, e', he', q1, q2⟩)
        · exact Or.inl h1'
        · refine Or.inr ⟨r, by simp, h1', e, he, h2', ?_⟩
          rw [if_neg]
          · exact h3'.symm
          · intro hm
            obtain ⟨e0, he0, _, hv0, _⟩ := hr _ (List.mem_cons_of_mem _ hm)
            simp only at he0
            rw [ha] at he0; injection he0 with he0; subst he0
            rw [h3'] at hv0; exact hnvar hv0
        · obtain ⟨e0, he0, _⟩ := hr r' (by simp [hr'])
          obtain ⟨e1, f1, f2⟩ := hkeep r' hr' e0 he0
          rw [f1] at he'; injection he' with he'; subst he'
          refine Or.inr ⟨r', by simp [hr'], p1, e0, he0, ?_, ?_⟩
          · rw [← f2, ← hEq]; exact q1
          · rw [← f2, q2]
      · rintro (h1' | ⟨r', hr', p1, e', he', q1, q2⟩)
        · exact Or.inl (Or.inl h1')
        · rcases List.mem_cons.1 hr' with rfl | hr'
          · rw [he] at he'; injection he' with he'; subst he'
            by_cases hm : (⟨v, s, i⟩ : EdgeRef) ∈ rs
            · rw [if_pos hm] at q2
              obtain ⟨e0, he0, _, hv0, _⟩ := hr _ (List.mem_cons_of_mem _ hm)
              simp only at he0
              rw [ha] at he0; injection he0 with he0; subst he0
              have : e.target = a.target := stripVoid_inj hvar hv0 q2
              obtain ⟨e1, f1, f2⟩ := hkeep _ hm a ha
              refine Or.inr ⟨_, hm, rfl, e1, f1, ?_, ?_⟩
              · rw [hEq, f2, ← this]; exact q1
              · rw [if_pos hm, f2]
            · rw [if_neg hm] at q2
              exact Or.inl (Or.inr ⟨p1, q1, q2.symm⟩)
          · obtain ⟨e1, f1, f2⟩ := hkeep r' hr' e' he'
            exact Or.inr ⟨r', hr', p1, e1, f1, by rw [hEq, f2]; exact q1, by rw [f2, q2]⟩

/-! ### Vertices -/

theorem stripVoid_variant (m : Str) : stripVoid (m ++ (str! ".void")) = m := by
  simp [stripVoid]

theorem stripVoid_ne {n : Str} (h : IsVariant n) : stripVoid n ≠ n := by
  intro he
  have := stripVoid_append h
  rw [he] at this
  have := congrArg List.length this
  simp at this

theorem stripVoid_length {n : Str} (h : IsVariant n) : (stripVoid n).length + 5 = n.length := by
  have := congrArg List.length (stripVoid_append h)
  simpa using this

theorem pointed_strengthen (v : Vertex) : pointedName (strengthen v) = stripVoid (pointedName v) := by
  unfold pointedName strengthen
  simp only
  split <;> rfl

/-- The fuel given to the loop over the growing list suffices. -/
theorem normalizeVertices_fuel : ∀ (n : Nat) (h : Heap) (g : Graph) (ws : List Nat), normalizeFuel h ws ≤ n →
    normalizeVertices n h g ws ≠ none := by
  intro n
  induction n with
  | zero =>
    intro h g ws hf
    cases ws with
    | nil => simp [normalizeVertices]
    | cons w ws => simp [normalizeFuel] at hf
  | succ n ih =>
    intro h g ws hf
    cases ws with
    | nil => simp [normalizeVertices]
    | cons w ws =>
      unfold normalizeVertices
      have hcons : normalizeFuel h (w :: ws) = (pointedName (h w)).length + 1 + normalizeFuel h ws := by
        simp [normalizeFuel]
      rw [hcons] at hf
      cases hn : normalizeVertex h g w with
      | error x => simp
      | ok res =>
        obtain ⟨h', g', more⟩ := res
        simp only
        apply ih
        unfold normalizeVertex at hn
        simp only at hn
        split at hn
        · cases hn
        · split at hn
          · simp only [Except.ok.injEq, Prod.mk.injEq] at hn
            obtain ⟨rfl, rfl, rfl⟩ := hn
            simp; omega
          · simp only [Except.ok.injEq, Prod.mk.injEq] at hn
            obtain ⟨rfl, rfl, rfl⟩ := hn
            have hle : ∀ l : List Nat, normalizeFuel (h.upd w (strengthen (h w))) l ≤ normalizeFuel h l := by
              intro l
              unfold normalizeFuel
              induction l with
              | nil => simp
              | cons a l ihl =>
                simp only [List.map_cons, List.sum_cons]
                have : (pointedName (h.upd w (strengthen (h w)) a)).length ≤ (pointedName (h a)).length := by
                  by_cases ha : a = w
                  · subst ha
                    rw [upd_self, pointed_strengthen]
                    simp [stripVoid]
                  · rw [upd_ne _ _ ha]
                omega
            have happ : ∀ (hh : Heap) (l m : List Nat), normalizeFuel hh (l ++ m) = normalizeFuel hh l + normalizeFuel hh m := by
              intro hh l m; simp [normalizeFuel]
            rw [happ]
            have h1 := hle ws
            split
            · rename_i hv
              have : normalizeFuel (h.upd w (strengthen (h w))) [w] = (stripVoid (pointedName (h w))).length + 1 := by
                simp [normalizeFuel, upd_self, pointed_strengthen]
              rw [this]
              have hl := stripVoid_length ((endsWith_void_iff _).1 hv)
              have : (stripVoid (pointedName (h w))).length = (pointedName (h w)).length - 5 := by
                simp [stripVoid]
              omega
            · simp only [normalizeFuel, List.map_nil, List.sum_nil] at *; omega

/-- What the loop over weak vertices does when no name has a double suffix. -/
theorem normalizeVertices_spec : ∀ (ws : List Nat) (n : Nat) (h : Heap) (g : Graph), ws.length ≤ n →
    ws.Nodup → g.vertices.keys.Nodup →
    (∀ w ∈ ws, IsVariant (pointedName (h w)) ∧ ¬ IsVariant (stripVoid (pointedName (h w))) ∧
      g.vertices.get? (pointedName (h w)) = some w) →
    (∀ k ∈ g.vertices.keys, IsVariant k → ∃ w ∈ ws, pointedName (h w) = k) →
    (∀ k v, g.vertices.get? k = some v → ¬ IsVariant k → v ∉ ws) →
    ∃ h' g', normalizeVertices n h g ws = some (.ok (h', g')) ∧ g'.vertices.keys.Nodup ∧
      (∀ k ∈ g'.vertices.keys, ¬ IsVariant k) ∧
      (∀ k v, g.vertices.get? k = some v → ¬ IsVariant k → g'.vertices.get? k = some v) ∧
      (∀ w ∈ ws, g.vertices.get? (stripVoid (pointedName (h w))) = none →
        g'.vertices.get? (stripVoid (pointedName (h w))) = some w ∧ h' w = strengthen (h w)) ∧
      (∀ k v, g'.vertices.get? k = some v → g.vertices.get? k = some v ∨
        (g.vertices.get? k = none ∧ v ∈ ws ∧ stripVoid (pointedName (h v)) = k)) ∧
      (∀ v, v ∉ ws → h' v = h v) ∧
      (∀ v, (h' v).succs = (h v).succs) := by
  intro ws
  induction ws with
  | nil =>
    intro n h g _ _ hn _ hv _
    refine ⟨h, g, by cases n <;> rfl, hn, ?_, fun k v hk _ => hk, by simp, fun k v hk => Or.inl hk, fun _ _ => rfl, fun _ => rfl⟩
    intro k hk hvk
    obtain ⟨w, hw, _⟩ := hv k hk hvk
    simp at hw
  | cons w ws ih =>
    intro n h g hlen hnd hn hw hv hnv
    rw [List.nodup_cons] at hnd
    cases n with
    | zero => simp at hlen
    | succ n =>
    simp only [List.length_cons, Nat.add_le_add_iff_right] at hlen
    obtain ⟨w1, w2, w3⟩ := hw w (by simp)
    have herase : ∀ k, (g.vertices.erase (pointedName (h w))).get? k =
        if k = pointedName (h w) then none else g.vertices.get? k := fun k => Dict.get?_erase hn _ _
    have hne : stripVoid (pointedName (h w)) ≠ pointedName (h w) := stripVoid_ne w1
    have hpne : ∀ x ∈ ws, pointedName (h x) ≠ pointedName (h w) := by
      intro x hx he
      have := (hw x (by simp [hx])).2.2
      rw [he, w3] at this
      injection this with this
      subst this
      exact hnd.1 hx
    have hsne : ∀ x ∈ ws, stripVoid (pointedName (h x)) ≠ stripVoid (pointedName (h w)) := by
      intro x hx he
      have e1 := stripVoid_append (hw x (by simp [hx])).1
      have e2 := stripVoid_append w1
      rw [he, e2] at e1
      exact hpne x hx e1.symm
    unfold normalizeVertices normalizeVertex
    simp only [w3, herase, hne, if_false]
    cases hs : g.vertices.get? (stripVoid (pointedName (h w))) with
    | some v0 =>
      simp only
      obtain ⟨h', g', r1, r2, r3, r4, r5, r6, r7, r8⟩ := ih n h { g with vertices := g.vertices.erase (pointedName (h w)) }
        hlen hnd.2 (Dict.nodup_keys_erase hn _)
        (by
          intro x hx
          obtain ⟨x1, x2, x3⟩ := hw x (by simp [hx])
          refine ⟨x1, x2, ?_⟩
          rw [herase, if_neg (hpne x hx)]; exact x3)
        (by
          intro k hk hvk
          obtain ⟨v1, hv1⟩ := (Dict.mem_keys_iff_ex _ _).1 hk
          rw [herase] at hv1
          split at hv1
          · cases hv1
          · rename_i hkne
            obtain ⟨x, hx, hxe⟩ := hv k ((Dict.mem_keys_iff_ex _ _).2 ⟨v1, hv1⟩) hvk
            rcases List.mem_cons.1 hx with rfl | hx
            · exact absurd hxe.symm hkne
            · exact ⟨x, hx, hxe⟩)
        (by
          intro k v hk hvk hvw
          rw [herase] at hk
          split at hk
          · cases hk
          · exact hnv k v hk hvk (by simp [hvw]))
      refine ⟨h', g', by simpa using r1, r2, r3, ?_, ?_, ?_, ?_, r8⟩
      · intro k v hk hvk
        apply r4 k v _ hvk
        rw [herase, if_neg]
        · exact hk
        · rintro rfl; exact hvk w1
      · intro x hx hxn
        rcases List.mem_cons.1 hx with rfl | hx
        · rw [hs] at hxn; cases hxn
        · apply r5 x hx
          rw [herase]
          split
          · rfl
          · exact hxn
      · intro k v hk
        rcases r6 k v hk with h1 | ⟨h1, h2, h3⟩
        · rw [herase] at h1
          split at h1
          · cases h1
          · exact Or.inl h1
        · right
          rw [herase] at h1
          split at h1
          · rename_i hkp
            exfalso
            apply (hw v (by simp [h2])).2.1
            rw [h3, hkp]; exact w1
          · exact ⟨h1, by simp [h2], h3⟩
      · intro v hv'
        exact r7 v (fun hx => hv' (by simp [hx]))
    | none =>
      simp only
      have hnv' : endsWith (stripVoid (pointedName (h w))) dotVoid = false := by
        rw [Bool.eq_false_iff]; intro hc; exact w2 ((endsWith_void_iff _).1 hc)
      have hset : ∀ k, ({ g with vertices := g.vertices.erase (pointedName (h w)) }.setItem
          (h.upd w (strengthen (h w))) (stripVoid (pointedName (h w))) w).vertices.get? k =
          if k = stripVoid (pointedName (h w)) then some w else if k = pointedName (h w) then none else g.vertices.get? k := by
        intro k
        simp only [Graph.setItem, Dict.get?_set, herase]
      simp only [hnv', Bool.false_eq_true, if_false, List.append_nil]
      have hupd : ∀ x ∈ ws, (h.upd w (strengthen (h w))) x = h x := by
        intro x hx
        apply upd_ne
        rintro rfl; exact hnd.1 hx
      obtain ⟨h', g', r1, r2, r3, r4, r5, r6, r7, r8⟩ := ih n (h.upd w (strengthen (h w)))
        ({ g with vertices := g.vertices.erase (pointedName (h w)) }.setItem
          (h.upd w (strengthen (h w))) (stripVoid (pointedName (h w))) w)
        hlen hnd.2 (by
          simp only [Graph.setItem]
          exact Dict.nodup_keys_set (Dict.nodup_keys_erase hn _) _ _)
        (by
          intro x hx
          obtain ⟨x1, x2, x3⟩ := hw x (by simp [hx])
          rw [hupd x hx]
          refine ⟨x1, x2, ?_⟩
          rw [hset, if_neg, if_neg (hpne x hx)]
          · exact x3
          · intro he; rw [he] at x1; exact w2 x1)
        (by
          intro k hk hvk
          obtain ⟨v1, hv1⟩ := (Dict.mem_keys_iff_ex _ _).1 hk
          rw [hset] at hv1
          split at hv1
          · rename_i he; rw [he] at hvk; exact absurd hvk w2
          split at hv1
          · cases hv1
          · rename_i _ hkne
            obtain ⟨x, hx, hxe⟩ := hv k ((Dict.mem_keys_iff_ex _ _).2 ⟨v1, hv1⟩) hvk
            rcases List.mem_cons.1 hx with rfl | hx
            · exact absurd hxe.symm hkne
            · exact ⟨x, hx, by rw [hupd x hx]; exact hxe⟩)
        (by
          intro k v hk hvk hvw
          rw [hset] at hk
          split at hk
          · injection hk with hk; subst hk; exact hnd.1 hvw
          split at hk
          · cases hk
          · exact hnv k v hk hvk (by simp [hvw]))
      refine ⟨h', g', r1, r2, r3, ?_, ?_, ?_, ?_, ?_⟩
      · intro k v hk hvk
        apply r4 k v _ hvk
        rw [hset, if_neg, if_neg]
        · exact hk
        · rintro rfl; exact hvk w1
        · rintro rfl; rw [hs] at hk; cases hk
      · intro x hx hxn
        rcases List.mem_cons.1 hx with rfl | hx
        · refine ⟨r4 _ _ (by rw [hset, if_pos rfl]) w2, ?_⟩
          rw [r7 _ hnd.1, upd_self]
        · have := r5 x hx
          rw [hupd x hx] at this
          apply this
          rw [hset, if_neg (hsne x hx)]
          split
          · rfl
          · exact hxn
      · intro k v hk
        rcases r6 k v hk with h1 | ⟨h1, h2, h3⟩
        · rw [hset] at h1
          split at h1
          · rename_i hke
            injection h1 with h1
            subst h1
            right
            exact ⟨by rw [hke]; exact hs, by simp, hke.symm⟩
          split at h1
          · cases h1
          · exact Or.inl h1
        · right
          rw [hset] at h1
          split at h1
          · cases h1
          rw [hupd v h2] at h3
          split at h1
          · rename_i _ hkp
            exfalso
            apply (hw v (by simp [h2])).2.1
            rw [h3, hkp]; exact w1
          · exact ⟨h1, by simp [h2], h3⟩
      · intro v hv'
        rw [r7 v (fun hx => hv' (by simp [hx])), upd_ne]
        rintro rfl; exact hv' (by simp)
      · intro v
        rw [r8 v]
        by_cases hvw : v = w
        · subst hvw; rw [upd_self]; rfl
        · rw [upd_ne _ _ hvw]

end DK
