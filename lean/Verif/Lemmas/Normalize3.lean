import Verif.Lemmas.Normalize2

/-! Normalisation of arbitrary engine outputs, as far as it succeeds. -/

set_option autoImplicit false

namespace DK
open Spec

theorem addCalls_general (v : Nat) (s : Side) : ∀ (es : List Edge) (h : Heap) (g : Graph),
    (∀ w, SameButSuccs (h w) ((addCalls v s (h, g) es).1 w)) ∧ (addCalls v s (h, g) es).2.vertices = g.vertices ∧
    (addCalls v s (h, g) es).2.weakCache = g.weakCache := by
  intro es h g
  obtain ⟨a1, a2, a3⟩ := addCalls_spec v s es h g
  refine ⟨?_, by rw [a3], by rw [a3]⟩
  intro w
  by_cases hw : w = v
  · subst hw; rw [a2]; rfl
  · rw [a1 w hw]; rfl

theorem vertexFromYaml_general {v : Nat} {h : Heap} {g : Graph} {r : FunResult} {h' : Heap} {g' : Graph}
    (hok : vertexFromYaml v (h, g) r = .ok (h', g')) :
    SameButSuccs r.vertex (h' v) ∧ (∀ w, w ≠ v → SameButSuccs (h w) (h' w)) ∧ g'.vertices = g.vertices ∧
      g'.weakCache = g.weakCache := by
  unfold vertexFromYaml at hok
  simp only at hok
  split at hok
  · simp only [Except.ok.injEq, Prod.mk.injEq] at hok
    obtain ⟨rfl, rfl⟩ := hok
    exact ⟨by rw [upd_self]; rfl, fun w hw => by rw [upd_ne _ _ hw]; rfl, rfl, rfl⟩
  · rename_i cl _
    split at hok
    · cases hok
    · rename_i cr _
      simp only [Except.ok.injEq] at hok
      obtain ⟨a1, a2, a3⟩ := addCalls_general v .left cl (h.upd v r.vertex) g
      obtain ⟨b1, b2, b3⟩ := addCalls_general v .right cr (addCalls v .left (h.upd v r.vertex, g) cl).1
        (addCalls v .left (h.upd v r.vertex, g) cl).2
      rw [show ((addCalls v .left (h.upd v r.vertex, g) cl).1, (addCalls v .left (h.upd v r.vertex, g) cl).2) =
        addCalls v .left (h.upd v r.vertex, g) cl from rfl, hok] at b1 b2 b3
      refine ⟨?_, ?_, b2.trans a2, b3.trans a3⟩
      · have := (a1 v).trans (b1 v); rwa [upd_self] at this
      · intro w hw
        have := (a1 w).trans (b1 w); rwa [upd_ne _ _ hw] at this

/-- What is known about the imported graph whatever the output is. -/
theorem importResults_general : ∀ (rs : List FunResult) (v : Nat) (h : Heap) (g : Graph) (h' : Heap) (g' : Graph),
    importResults v (h, g) rs = .ok (h', g') →
    g'.weakCache = g.weakCache ++ weakIds v rs ∧
    (∀ (i : Nat) (r : FunResult), rs[i]? = some r → SameButSuccs r.vertex (h' (v + i))) ∧
    (∀ w, w < v → SameButSuccs (h w) (h' w)) ∧
    (∀ k w, g'.vertices.get? k = some w → g.vertices.get? k = some w ∨
      ∃ (i : Nat) (r : FunResult), rs[i]? = some r ∧ k = r.key ∧ w = v + i) := by
  intro rs
  induction rs with
  | nil =>
    intro v h g h' g' hok
    simp only [importResults, Except.ok.injEq, Prod.mk.injEq] at hok
    obtain ⟨rfl, rfl⟩ := hok
    exact ⟨by simp [weakIds], by simp, fun w _ => rfl, fun k w hk => Or.inl hk⟩
  | cons r rs ih =>
    intro v h g h' g' hok
    unfold importResults at hok
    cases hv : vertexFromYaml v (h, g) r with
    | error x => rw [hv] at hok; cases hok
    | ok st =>
      obtain ⟨h1, g1⟩ := st
      rw [hv] at hok
      simp only at hok
      obtain ⟨a1, a2, a3, a4⟩ := vertexFromYaml_general hv
      obtain ⟨b1, b2, b3, b4⟩ := ih (v + 1) h1 _ h' g' hok
      refine ⟨?_, ?_, ?_, ?_⟩
      · rw [b1]
        simp only [Graph.setItem, weakIds, a4]
        split <;> simp
      · intro i x hx
        cases i with
        | zero =>
          simp at hx; subst hx
          exact a1.trans (b3 v (by omega))
        | succ i =>
          rw [show v + (i + 1) = v + 1 + i by omega]
          exact b2 i x (by simpa using hx)
      · intro w hw
        exact (a2 w (by omega)).trans (b3 w (by omega))
      · intro k w hk
        rcases b4 k w hk with h2 | ⟨i, x, h2, h3, h4⟩
        · simp only [Graph.setItem, Dict.get?_set, a3] at h2
          split at h2
          · rename_i he
            injection h2 with h2
            exact Or.inr ⟨0, r, by simp, he, by rw [← h2]; simp⟩
          · exact Or.inl h2
        · exact Or.inr ⟨i + 1, x, by simpa using h2, h3, h4.trans (by omega : (v + 1 + i : Nat) = v + (i + 1))⟩

theorem normalizeEdge_general {g : Graph} {h h' : Heap} {r : EdgeRef} (hok : normalizeEdge g h r = .ok h') (v : Nat) :
    SameButSuccs (h v) (h' v) := by
  unfold normalizeEdge at hok
  split at hok
  · cases hok
  · split at hok
    · cases hok
    · simp only [Except.ok.injEq] at hok
      subst hok
      refine SameButSuccs.trans ?_ (updEdge_same _ _ _ v)
      split
      · exact (updEdge_same _ _ _ v).trans (weakenTo_same _ _ _ v)
      · exact SameButSuccs.refl _

theorem normalizeEdges_general {g : Graph} : ∀ (rs : List EdgeRef) (h h' : Heap), normalizeEdges g h rs = .ok h' →
    ∀ v, SameButSuccs (h v) (h' v) := by
  intro rs
  induction rs with
  | nil => intro h h' hok v; simp only [normalizeEdges, Except.ok.injEq] at hok; subst hok; rfl
  | cons r rs ih =>
    intro h h' hok v
    unfold normalizeEdges at hok
    cases hr : normalizeEdge g h r with
    | error x => rw [hr] at hok; cases hok
    | ok h1 => rw [hr] at hok; exact (normalizeEdge_general hr v).trans (ih h1 h' hok v)

/-- The verdict a variant function gets when it takes the place of its base function. -/
def Strengthened (a b : Kind) : Prop := (a = .equal → b = .assumedEqual) ∧ (a ≠ .equal → b = a)

theorem strengthened_strengthen (v : Vertex) : Strengthened v.result (strengthen v).result := by
  unfold Strengthened strengthen
  constructor <;> intro h <;> simp [h]

theorem Strengthened.trans {a b c : Kind} (h1 : Strengthened a b) (h2 : Strengthened b c) : Strengthened a c := by
  unfold Strengthened at *
  constructor
  · intro h
    have := h1.1 h
    rw [h2.2 (by rw [this]; decide), this]
  · intro h
    have := h1.2 h
    rw [h2.2 (by rw [this]; exact h), this]

/-- Invariant of the loop over weak vertices; `h0`, `g0`, `w0` are the initial heap, graph and list. -/
structure NormInv (h0 : Heap) (g0 : Graph) (w0 : List Nat) (h : Heap) (g : Graph) (ws : List Nat) : Prop where
  nodup : ws.Nodup
  keysNodup : g.vertices.keys.Nodup
  sub : ∀ w ∈ ws, w ∈ w0 ∧ IsVariant (pointedName (h w)) ∧
    ((h w).result = (h0 w).result ∨ Strengthened (h0 w).result (h w).result)
  fresh : ∀ k v, g.vertices.get? k = some v → ¬ IsVariant k → v ∉ ws
  same : ∀ v, v ∉ w0 → h v = h0 v
  keep : ∀ k v, g0.vertices.get? k = some v → ¬ IsVariant k → g.vertices.get? k = some v
  only : ∀ k v, g.vertices.get? k = some v → ¬ IsVariant k → g0.vertices.get? k = some v ∨
    (g0.vertices.get? k = none ∧ v ∈ w0 ∧ (∀ s, (h v).names s = k) ∧ Strengthened (h0 v).result (h v).result)

theorem normalizeVertices_general {h0 : Heap} {g0 : Graph} {w0 : List Nat} :
    ∀ (n : Nat) (h : Heap) (g : Graph) (ws : List Nat) (h' : Heap) (g' : Graph),
    NormInv h0 g0 w0 h g ws → normalizeVertices n h g ws = some (.ok (h', g')) → NormInv h0 g0 w0 h' g' [] := by
  intro n
  induction n with
  | zero =>
    intro h g ws h' g' hi hok
    cases ws with
    | nil =>
      simp only [normalizeVertices, Option.some.injEq, Except.ok.injEq, Prod.mk.injEq] at hok
      obtain ⟨rfl, rfl⟩ := hok; exact hi
    | cons w ws => simp [normalizeVertices] at hok
  | succ n ih =>
    intro h g ws h' g' hi hok
    cases ws with
    | nil =>
      simp only [normalizeVertices, Option.some.injEq, Except.ok.injEq, Prod.mk.injEq] at hok
      obtain ⟨rfl, rfl⟩ := hok; exact hi
    | cons w ws =>
      unfold normalizeVertices at hok
      obtain ⟨hnd1, hnd2⟩ := List.nodup_cons.1 hi.nodup
      obtain ⟨w1, w2, w3⟩ := hi.sub w (by simp)
      have herase : ∀ k, (g.vertices.erase (pointedName (h w))).get? k =
          if k = pointedName (h w) then none else g.vertices.get? k := fun k => Dict.get?_erase hi.keysNodup _ _
      cases hn : normalizeVertex h g w with
      | error x => rw [hn] at hok; simp at hok
      | ok res =>
        obtain ⟨h1, g1, more⟩ := res
        rw [hn] at hok
        simp only at hok
        refine ih h1 g1 _ h' g' ?_ hok
        unfold normalizeVertex at hn
        simp only at hn
        split at hn
        · cases hn
        · split at hn
          · simp only [Except.ok.injEq, Prod.mk.injEq] at hn
            obtain ⟨rfl, rfl, rfl⟩ := hn
            rw [List.append_nil]
            refine ⟨hnd2, Dict.nodup_keys_erase hi.keysNodup _, fun x hx => hi.sub x (by simp [hx]), ?_, hi.same, ?_, ?_⟩
            · intro k v hk hv hvw
              rw [herase] at hk
              split at hk
              · cases hk
              · exact hi.fresh k v hk hv (by simp [hvw])
            · intro k v hk hv
              rw [herase, if_neg (by rintro rfl; exact hv w2)]
              exact hi.keep k v hk hv
            · intro k v hk hv
              rw [herase] at hk
              split at hk
              · cases hk
              · exact hi.only k v hk hv
          · rename_i hnone
            simp only [Except.ok.injEq, Prod.mk.injEq] at hn
            obtain ⟨rfl, rfl, rfl⟩ := hn
            have hnn : g.vertices.get? (stripVoid (pointedName (h w))) = none := by
              rw [herase, if_neg (stripVoid_ne w2)] at hnone; exact hnone
            have hset : ∀ k, ({ g with vertices := g.vertices.erase (pointedName (h w)) }.setItem
                (h.upd w (strengthen (h w))) (stripVoid (pointedName (h w))) w).vertices.get? k =
                if k = stripVoid (pointedName (h w)) then some w else
                if k = pointedName (h w) then none else g.vertices.get? k := by
              intro k
              simp only [Graph.setItem, Dict.get?_set, herase]
            have hupd : ∀ x, x ≠ w → (h.upd w (strengthen (h w))) x = h x := fun x hx => upd_ne _ _ hx
            have hstr : Strengthened (h0 w).result (strengthen (h w)).result := by
              rcases w3 with h3 | h3
              · rw [← h3]; exact strengthened_strengthen _
              · exact h3.trans (strengthened_strengthen _)
            refine ⟨?_, ?_, ?_, ?_, ?_, ?_, ?_⟩
            · split
              · rw [List.nodup_append]
                refine ⟨hnd2, by simp, ?_⟩
                intro a ha b hb
                simp only [List.mem_singleton] at hb
                subst hb
                rintro rfl; exact hnd1 ha
              · simpa using hnd2
            · simp only [Graph.setItem]
              exact Dict.nodup_keys_set (Dict.nodup_keys_erase hi.keysNodup _) _ _
            · intro x hx
              rcases List.mem_append.1 hx with hx' | hx
              · have hxw : x ≠ w := fun he => hnd1 (he ▸ hx')
                rw [hupd x hxw]
                exact hi.sub x (by simp [hx'])
              · split at hx
                · rename_i hv
                  simp only [List.mem_singleton] at hx
                  subst hx
                  rw [upd_self, pointed_strengthen]
                  exact ⟨w1, (endsWith_void_iff _).1 hv, Or.inr hstr⟩
                · simp at hx
            · intro k v hk hv hvw
              rw [hset] at hk
              split at hk
              · rename_i hke
                injection hk with hk
                subst hk
                rcases List.mem_append.1 hvw with hx | hx
                · exact hnd1 hx
                · split at hx
                  · rename_i hv'
                    rw [hke] at hv
                    exact hv ((endsWith_void_iff _).1 hv')
                  · simp at hx
              split at hk
              · cases hk
              · have hf := hi.fresh k v hk hv
                simp only [List.mem_cons, not_or] at hf
                rcases List.mem_append.1 hvw with hx | hx
                · exact hf.2 hx
                · split at hx
                  · simp only [List.mem_singleton] at hx; exact hf.1 hx
                  · simp at hx
            · intro v hv
              rw [hupd v (by rintro rfl; exact hv w1)]
              exact hi.same v hv
            · intro k v hk hv
              have hkg := hi.keep k v hk hv
              rw [hset, if_neg, if_neg]
              · exact hkg
              · rintro rfl; exact hv w2
              · rintro rfl; rw [hnn] at hkg; cases hkg
            · intro k v hk hv
              rw [hset] at hk
              split at hk
              · rename_i hke
                injection hk with hk
                subst hk
                right
                refine ⟨?_, w1, ?_, by rw [upd_self]; exact hstr⟩
                · cases hg0 : g0.vertices.get? k with
                  | none => rfl
                  | some y =>
                    have := hi.keep k y hg0 hv
                    rw [hke, hnn] at this; cases this
                · intro s; rw [upd_self, hke]; rfl
              split at hk
              · cases hk
              · have hf := hi.fresh k v hk hv
                simp only [List.mem_cons, not_or] at hf
                rw [hupd v hf.1]
                exact hi.only k v hk hv

end DK
