import Verif.Model.GraphOps
import Verif.Spec.GraphOps

/-! Lemmas about merging graphs. -/

set_option autoImplicit false

namespace DK
open Spec

theorem sameBut_refl (a : Vertex) : SameButCachable a a := rfl

theorem sameBut_trans {a b c : Vertex} (h1 : SameButCachable a b) (h2 : SameButCachable b c) :
    SameButCachable a c := by
  unfold SameButCachable at *
  rw [← h2, ← h1]

theorem Spec.SameButCachable.result {a b : Vertex} (h : SameButCachable a b) : b.result = a.result := by
  rw [← h]
theorem Spec.SameButCachable.succs {a b : Vertex} (h : SameButCachable a b) : b.succs = a.succs := by
  rw [← h]
theorem Spec.SameButCachable.files {a b : Vertex} (h : SameButCachable a b) : b.files = a.files := by
  rw [← h]
theorem Spec.SameButCachable.names {a b : Vertex} (h : SameButCachable a b) : b.names = a.names := by
  rw [← h]

theorem resetCachable_same (vs : List Vid) : ∀ (h : Heap) (x : Vid), SameButCachable (h x) (resetCachable h vs x) := by
  induction vs with
  | nil => intro h x; exact sameBut_refl _
  | cons v vs ih =>
    intro h x
    refine sameBut_trans ?_ (ih (h.upd v { h v with cachable := true }) x)
    unfold Heap.upd
    by_cases hx : x = v
    · subst hx; simp [SameButCachable]
    · simp [hx, SameButCachable]

theorem comparePriority_iff (a b : Vertex) : a.comparePriority b = true ↔ Replaces a b := by
  have hs : (∃ s, (a.succs s).length < (b.succs s).length) ↔
      (a.succs .left).length < (b.succs .left).length ∨ (a.succs .right).length < (b.succs .right).length := by
    constructor
    · rintro ⟨s, hs⟩
      cases s
      · exact Or.inl hs
      · exact Or.inr hs
    · rintro (h | h)
      · exact ⟨_, h⟩
      · exact ⟨_, h⟩
  unfold Vertex.comparePriority Replaces
  rw [hs]
  by_cases h1 : a.result = .assumedEqual ∨ a.result = .unknown
  · simp [h1]
  · simp only [h1, if_false, false_or]
    by_cases h2 : (a.files .left ≠ a.files .right ∧ a.result = .notEqual ∧ b.result = .equal)
    · have : (!a.sameFile) = true := by simp [Vertex.sameFile, h2.1]
      simp [this, h2.2.1, h2.2.2, h2.1]
    · have h3 : ¬ ((!a.sameFile) = true ∧ a.result = .notEqual ∧ b.result = .equal) := by
        simpa [Vertex.sameFile] using h2
      rw [if_neg h3]
      simp only [h2, false_or]
      by_cases h4 : (a.succs .left).length < (b.succs .left).length
      · simp [h4]
      · by_cases h5 : (a.succs .right).length < (b.succs .right).length
        · simp [h4, h5]
        · simp [h4, h5]

theorem comparePriority_congr {a b a' b' : Vertex} (ha : SameButCachable a a') (hb : SameButCachable b b') :
    a'.comparePriority b' = a.comparePriority b := by
  rw [Bool.eq_iff_iff, comparePriority_iff, comparePriority_iff]
  unfold Replaces
  rw [ha.result, ha.succs, ha.files, hb.result, hb.succs]

/-- One step: effect on the heap and on the name map. -/
theorem absorbOne_spec (h : Heap) (g : Graph) (n : Str) (v : Vid) :
    (∀ x, SameButCachable (h x) ((absorbOne (h, g) (n, v)).1 x)) ∧
    (absorbOne (h, g) (n, v)).2.vertices =
      (match g.vertices.get? n with
       | none => g.vertices.set n v
       | some old => if (h old).comparePriority (h v) then g.vertices.set n v else g.vertices) := by
  unfold absorbOne
  simp only
  cases hg : g.vertices.get? n with
  | none => exact ⟨fun x => sameBut_refl _, rfl⟩
  | some old =>
    simp only
    by_cases hp : (h old).comparePriority (h v) = true
    · rw [if_pos hp, if_pos hp]
      split
      · exact ⟨resetCachable_same _ h, rfl⟩
      · exact ⟨fun x => sameBut_refl _, rfl⟩
    · rw [if_neg hp, if_neg hp]
      exact ⟨fun x => sameBut_refl _, rfl⟩

theorem absorb_heap (l : Dict Str Vid) : ∀ (h : Heap) (g : Graph) (x : Vid),
    SameButCachable (h x) ((l.foldl absorbOne (h, g)).1 x) := by
  induction l with
  | nil => intro h g x; exact sameBut_refl _
  | cons p l ih =>
    intro h g x
    obtain ⟨n, v⟩ := p
    have h1 := (absorbOne_spec h g n v).1 x
    have h2 := ih (absorbOne (h, g) (n, v)).1 (absorbOne (h, g) (n, v)).2 x
    exact sameBut_trans h1 h2

/-- The name map after merging. -/
theorem absorb_get? (l : Dict Str Vid) : ∀ (h : Heap) (g : Graph) (m : Str), (Dict.keys l).Nodup →
    (l.foldl absorbOne (h, g)).2.vertices.get? m =
      match l.get? m, g.vertices.get? m with
      | none, x => x
      | some v, none => some v
      | some v, some old => if (h old).comparePriority (h v) then some v else some old := by
  induction l with
  | nil => intro h g m _; simp
  | cons p l ih =>
    intro h g m hn
    obtain ⟨n, v⟩ := p
    simp only [Dict.keys, List.map_cons, List.nodup_cons] at hn
    obtain ⟨hs1, hs2⟩ := absorbOne_spec h g n v
    rw [List.foldl_cons]
    have ih' := ih (absorbOne (h, g) (n, v)).1 (absorbOne (h, g) (n, v)).2 m hn.2
    rw [show absorbOne (h, g) (n, v) = ((absorbOne (h, g) (n, v)).1, (absorbOne (h, g) (n, v)).2) from rfl, ih']
    by_cases hm : m = n
    · subst hm
      have hl : Dict.get? l m = none := (Dict.get?_eq_none_iff _ _).2 hn.1
      simp only [hl, Dict.get?, if_true]
      rw [hs2]
      cases hg : g.vertices.get? m with
      | none => simp
      | some old =>
        simp only
        split <;> simp [hg]
    · have hm' : ¬ n = m := fun e => hm e.symm
      have hg : (absorbOne (h, g) (n, v)).2.vertices.get? m = g.vertices.get? m := by
        rw [hs2]
        cases hg : g.vertices.get? n with
        | none => simp only; rw [Dict.get?_set_ne _ _ hm]
        | some old =>
          simp only
          split
          · rw [Dict.get?_set_ne _ _ hm]
          · rfl
      rw [hg]
      have hl : Dict.get? ((n, v) :: l) m = Dict.get? l m := by simp [Dict.get?, hm']
      rw [hl]
      cases Dict.get? l m with
      | none => rfl
      | some w =>
        cases g.vertices.get? m with
        | none => rfl
        | some old =>
          simp only
          rw [comparePriority_congr (hs1 old) (hs1 w)]

theorem absorb_nodup (l : Dict Str Vid) : ∀ (h : Heap) (g : Graph), g.vertices.keys.Nodup →
    (l.foldl absorbOne (h, g)).2.vertices.keys.Nodup := by
  induction l with
  | nil => intro h g hn; exact hn
  | cons p l ih =>
    intro h g hn
    obtain ⟨n, v⟩ := p
    rw [List.foldl_cons]
    have : (absorbOne (h, g) (n, v)).2.vertices.keys.Nodup := by
      rw [(absorbOne_spec h g n v).2]
      cases g.vertices.get? n with
      | none => exact Dict.nodup_keys_set hn _ _
      | some old =>
        simp only
        split
        · exact Dict.nodup_keys_set hn _ _
        · exact hn
    exact ih (absorbOne (h, g) (n, v)).1 (absorbOne (h, g) (n, v)).2 this

end DK
