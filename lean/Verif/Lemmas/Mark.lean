import Verif.Lemmas.Import
import Verif.Lemmas.Dict

/-! Lemmas about predecessor lists and the reversed search. -/

set_option autoImplicit false

namespace DK
open Spec

/-! ### populate_predecessor_lists -/

def SameButPreds (a b : Vertex) : Prop := { a with preds := b.preds } = b

theorem SameButPreds.refl (a : Vertex) : SameButPreds a a := rfl
theorem SameButPreds.trans {a b c : Vertex} (h1 : SameButPreds a b) (h2 : SameButPreds b c) : SameButPreds a c := by
  unfold SameButPreds at *; rw [← h2, ← h1]
theorem SameButPreds.succs {a b : Vertex} (h : SameButPreds a b) : b.succs = a.succs := by
  unfold SameButPreds at h; rw [← h]
theorem SameButPreds.files {a b : Vertex} (h : SameButPreds a b) : b.files = a.files := by
  unfold SameButPreds at h; rw [← h]
theorem SameButPreds.result {a b : Vertex} (h : SameButPreds a b) : b.result = a.result := by
  unfold SameButPreds at h; rw [← h]
theorem SameButPreds.cachable {a b : Vertex} (h : SameButPreds a b) : b.cachable = a.cachable := by
  unfold SameButPreds at h; rw [← h]
theorem SameButPreds.prevents {a b : Vertex} (h : SameButPreds a b) : b.prevents = a.prevents := by
  unfold SameButPreds at h; rw [← h]

theorem addPred_fold (g : Graph) (side : Side) (v : Nat) : ∀ (es : List Edge) (h : Heap),
    (∀ t, SameButPreds (h t) (es.foldl (addPred g side v) h t)) ∧
    ∀ t s x, x ∈ ((es.foldl (addPred g side v) h) t).preds s ↔
      x ∈ (h t).preds s ∨ (x = v ∧ s = side ∧ ∃ e ∈ es, g.vertices.get? e.target = some t) := by
  intro es
  induction es with
  | nil => intro h; exact ⟨fun t => rfl, fun t s x => by simp⟩
  | cons e es ih =>
    intro h
    rw [List.foldl_cons]
    obtain ⟨i1, i2⟩ := ih (addPred g side v h e)
    have h1 : ∀ t, SameButPreds (h t) (addPred g side v h e t) := by
      intro t
      unfold addPred
      cases g.vertices.get? e.target with
      | none => rfl
      | some t' =>
        simp only
        by_cases ht : t = t'
        · subst ht; rw [upd_self]; rfl
        · rw [upd_ne _ _ ht]; rfl
    have h2 : ∀ t s x, x ∈ (addPred g side v h e t).preds s ↔
        x ∈ (h t).preds s ∨ (x = v ∧ s = side ∧ g.vertices.get? e.target = some t) := by
      intro t s x
      unfold addPred
      cases ht' : g.vertices.get? e.target with
      | none => simp
      | some t' =>
        simp only
        by_cases ht : t = t'
        · subst ht
          rw [upd_self]
          by_cases hs : s = side <;> simp [hs]
        · rw [upd_ne _ _ ht]
          have : ¬ t' = t := fun e => ht e.symm
          simp [this]
    refine ⟨fun t => (h1 t).trans (i1 t), fun t s x => ?_⟩
    rw [i2, h2]
    simp only [List.mem_cons, exists_eq_or_imp]
    tauto

theorem addPreds_spec (g : Graph) (h : Heap) (v : Nat) :
    (∀ t, SameButPreds (h t) (addPreds g h v t)) ∧
    ∀ t s x, x ∈ (addPreds g h v t).preds s ↔
      x ∈ (h t).preds s ∨ (x = v ∧ ∃ e ∈ (h v).succs s, g.vertices.get? e.target = some t) := by
  unfold addPreds
  obtain ⟨a1, a2⟩ := addPred_fold g .left v ((h v).succs .left) h
  obtain ⟨b1, b2⟩ := addPred_fold g .right v (((((h v).succs .left).foldl (addPred g .left v) h) v).succs .right)
    (((h v).succs .left).foldl (addPred g .left v) h)
  refine ⟨fun t => (a1 t).trans (b1 t), fun t s x => ?_⟩
  rw [b2, a2, (a1 v).succs]
  cases s <;> simp

theorem populatePreds_spec (g : Graph) : ∀ (vs : List Nat) (h : Heap),
    (∀ t, SameButPreds (h t) (vs.foldl (addPreds g) h t)) ∧
    ∀ t s x, x ∈ ((vs.foldl (addPreds g) h) t).preds s ↔
      x ∈ (h t).preds s ∨ (x ∈ vs ∧ ∃ e ∈ (h x).succs s, g.vertices.get? e.target = some t) := by
  intro vs
  induction vs with
  | nil => intro h; exact ⟨fun t => rfl, fun t s x => by simp⟩
  | cons v vs ih =>
    intro h
    rw [List.foldl_cons]
    obtain ⟨i1, i2⟩ := ih (addPreds g h v)
    obtain ⟨a1, a2⟩ := addPreds_spec g h v
    refine ⟨fun t => (a1 t).trans (i1 t), fun t s x => ?_⟩
    rw [i2, a2, (a1 x).succs]
    simp only [List.mem_cons]
    constructor
    · rintro ((h1 | ⟨rfl, h1⟩) | ⟨h1, h2⟩)
      · exact Or.inl h1
      · exact Or.inr ⟨Or.inl rfl, h1⟩
      · exact Or.inr ⟨Or.inr h1, h2⟩
    · rintro (h1 | ⟨rfl | h1, h2⟩)
      · exact Or.inl (Or.inl h1)
      · exact Or.inl (Or.inr ⟨rfl, h2⟩)
      · exact Or.inr ⟨h1, h2⟩

/-! ### The reversed search -/

def SameButMarks (a b : Vertex) : Prop := { a with cachable := b.cachable, prevents := b.prevents } = b

theorem SameButMarks.refl (a : Vertex) : SameButMarks a a := rfl
theorem SameButMarks.trans {a b c : Vertex} (h1 : SameButMarks a b) (h2 : SameButMarks b c) : SameButMarks a c := by
  unfold SameButMarks at *; rw [← h2, ← h1]
theorem SameButMarks.preds {a b : Vertex} (h : SameButMarks a b) : b.preds = a.preds := by
  unfold SameButMarks at h; rw [← h]
theorem SameButMarks.files {a b : Vertex} (h : SameButMarks a b) : b.files = a.files := by
  unfold SameButMarks at h; rw [← h]
theorem SameButMarks.result {a b : Vertex} (h : SameButMarks a b) : b.result = a.result := by
  unfold SameButMarks at h; rw [← h]
theorem SameButMarks.succs {a b : Vertex} (h : SameButMarks a b) : b.succs = a.succs := by
  unfold SameButMarks at h; rw [← h]

theorem inHeader_congr {h h' : Heap} {v : Nat} (hs : SameButMarks (h v) (h' v)) (s : Side) :
    inHeader h' s v = inHeader h s v := by
  unfold inHeader; rw [hs.files]

theorem inHeader_true_iff {h : Heap} {v : Nat} : inHeader h .left v = .ok true ↔ InHeader h v := by
  unfold inHeader InHeader
  cases (h v).files .left with
  | none => simp
  | some f => simp [endsWith, List.isSuffixOf_iff_suffix]

theorem inHeader_false {h : Heap} {v : Nat} (hf : inHeader h .left v = .ok false) : ¬ InHeader h v := by
  rw [← inHeader_true_iff, hf]; simp

/-- One step of marking. -/
theorem mark_one (h : Heap) (a p : Nat) :
    (∀ x, SameButMarks (h x) (h.markOne a p x)) ∧
    (∀ x, (h.markOne a p x).cachable = false ↔ (h x).cachable = false ∨ x = p) ∧
    (h.markOne a p a).prevents = (h a).prevents ++ [p] ∧
    (∀ x, x ≠ a → (h.markOne a p x).prevents = (h x).prevents) := by
  unfold Heap.markOne
  refine ⟨?_, ?_, ?_, ?_⟩
  · intro x
    by_cases hxa : x = a <;> by_cases hxp : x = p <;> simp [Heap.upd, hxa, hxp, SameButMarks] <;> split <;> simp_all
  · intro x
    by_cases hxa : x = a <;> by_cases hxp : x = p <;> simp_all [Heap.upd]
  · by_cases hp : a = p <;> simp_all [Heap.upd]
  · intro x hx
    by_cases hp : x = p <;> simp_all [Heap.upd]

theorem markPreds_spec (a : Nat) : ∀ (ps : List Nat) (st st' : Mark), markPreds a ps st = .ok st' →
    st'.visited = st.visited ∧ (∀ x, SameButMarks (st.heap x) (st'.heap x)) ∧
    ∃ ts, st'.queue = st.queue ++ ts ∧ (∀ t, t ∈ ts ↔ t ∈ ps ∧ t ∉ st.visited ∧ InHeader st.heap t) ∧
      (∀ x, (st'.heap x).cachable = false ↔ (st.heap x).cachable = false ∨ x ∈ ts) ∧
      (st'.heap a).prevents = (st.heap a).prevents ++ ts ∧
      (∀ x, x ≠ a → (st'.heap x).prevents = (st.heap x).prevents) := by
  intro ps
  induction ps with
  | nil =>
    intro st st' hok
    simp only [markPreds, Except.ok.injEq] at hok
    subst hok
    exact ⟨rfl, fun x => rfl, [], by simp, by simp, by simp, by simp, fun _ _ => rfl⟩
  | cons p ps ih =>
    intro st st' hok
    unfold markPreds at hok
    split at hok
    · rename_i hv
      obtain ⟨i1, i2, ts, i3, i4, i5⟩ := ih st st' hok
      refine ⟨i1, i2, ts, i3, ?_, i5⟩
      intro t
      rw [i4]
      simp only [List.mem_cons]
      constructor
      · rintro ⟨h1, h2⟩; exact ⟨Or.inr h1, h2⟩
      · rintro ⟨rfl | h1, h2, h3⟩
        · exact absurd hv h2
        · exact ⟨h1, h2, h3⟩
    · rename_i hv
      split at hok
      · cases hok
      · rename_i hh
        obtain ⟨i1, i2, ts, i3, i4, i5⟩ := ih st st' hok
        refine ⟨i1, i2, ts, i3, ?_, i5⟩
        intro t
        rw [i4]
        simp only [List.mem_cons]
        constructor
        · rintro ⟨h1, h2⟩; exact ⟨Or.inr h1, h2⟩
        · rintro ⟨rfl | h1, h2, h3⟩
          · exact absurd h3 (inHeader_false hh)
          · exact ⟨h1, h2, h3⟩
      · rename_i hh
        obtain ⟨m1, m2, m3, m4⟩ := mark_one st.heap a p
        obtain ⟨i1, i2, ts, i3, i4, i5, i6, i7⟩ := ih _ st' hok
        simp only at i1 i2 i3 i4 i5 i6 i7
        refine ⟨i1, fun x => (m1 x).trans (i2 x), p :: ts, by rw [i3]; simp, ?_, ?_, ?_, ?_⟩
        · intro t
          rw [List.mem_cons, i4]
          have hc : ∀ t, InHeader (st.heap.markOne a p) t ↔ InHeader st.heap t := fun t => by
            rw [← inHeader_true_iff, ← inHeader_true_iff, inHeader_congr (m1 t)]
          rw [hc]
          simp only [List.mem_cons]
          constructor
          · rintro (rfl | ⟨h1, h2⟩)
            · exact ⟨Or.inl rfl, hv, inHeader_true_iff.1 hh⟩
            · exact ⟨Or.inr h1, h2⟩
          · rintro ⟨rfl | h1, h2⟩
            · exact Or.inl rfl
            · exact Or.inr ⟨h1, h2⟩
        · intro x
          rw [i5, m2, List.mem_cons]; tauto
        · rw [i6, m3]; simp
        · intro x hx
          rw [i7 x hx, m4 x hx]

theorem markPreds_ok (a : Nat) : ∀ (ps : List Nat) (st : Mark), (∀ p ∈ ps, (st.heap p).files .left ≠ none) →
    ∃ st', markPreds a ps st = .ok st' := by
  intro ps
  induction ps with
  | nil => intro st _; exact ⟨st, rfl⟩
  | cons p ps ih =>
    intro st hf
    unfold markPreds
    split
    · exact ih st (fun q hq => hf q (by simp [hq]))
    · split
      · rename_i hh
        unfold inHeader at hh
        have := hf p (by simp)
        cases hfl : (st.heap p).files .left with
        | none => exact absurd hfl this
        | some f => rw [hfl] at hh; cases hh
      · exact ih st (fun q hq => hf q (by simp [hq]))
      · apply ih
        intro q hq
        simp only
        rw [((mark_one st.heap a p).1 q).files]
        exact hf q (by simp [hq])

/-- Chains of predecessors in headers, in terms of the predecessor lists. -/
inductive Chain (h : Heap) (a : Nat) : Nat → Prop
  | direct {u} : u ∈ (h a).preds .left → InHeader h u → Chain h a u
  | step {u w} : u ∈ (h w).preds .left → InHeader h u → Chain h a w → Chain h a u

structure MarkInv (h0 : Heap) (a : Nat) (st : Mark) : Prop where
  frame : ∀ x, SameButMarks (h0 x) (st.heap x)
  cach : ∀ u, (st.heap u).cachable = false ↔ (h0 u).cachable = false ∨ (u ≠ a ∧ (u ∈ st.visited ∨ u ∈ st.queue))
  prev : ∃ l, (st.heap a).prevents = (h0 a).prevents ++ l ∧ ∀ u, u ∈ l ↔ (u ≠ a ∧ (u ∈ st.visited ∨ u ∈ st.queue))
  other : ∀ x, x ≠ a → (st.heap x).prevents = (h0 x).prevents
  sound : ∀ u, u ∈ st.visited ∨ u ∈ st.queue → u = a ∨ Chain h0 a u
  closed : ∀ u ∈ st.visited, ∀ p ∈ (h0 u).preds .left, InHeader h0 p → p ∈ st.visited ∨ p ∈ st.queue
  start : a ∈ st.visited ∨ a ∈ st.queue

theorem markStep_inv {h0 : Heap} {a : Nat} (ha : ¬ InHeader h0 a) {st st' : Mark} (hi : MarkInv h0 a st)
    (hs : markStep a st = .ok (some st')) : MarkInv h0 a st' := by
  unfold markStep at hs
  split at hs
  · cases hs
  · rename_i c q hq
    split at hs
    · cases hs
    · rename_i st2 h2
      simp only [Except.ok.injEq, Option.some.injEq] at hs
      subst hs
      obtain ⟨s1, s2, ts, s3, s4, s5, s6, s7⟩ := markPreds_spec a _ _ _ h2
      simp only at s1 s2 s3 s4 s5 s6 s7
      have hIn : ∀ t, InHeader st.heap t ↔ InHeader h0 t := fun t => by
        rw [← inHeader_true_iff, ← inHeader_true_iff, inHeader_congr (hi.frame t)]
      have hts : ∀ t, t ∈ ts ↔ t ∈ (h0 c).preds .left ∧ t ∉ c :: st.visited ∧ InHeader h0 t := by
        intro t; rw [s4, (hi.frame c).preds, hIn]
      have hane : ∀ t ∈ ts, t ≠ a := by
        rintro t ht rfl
        exact ha ((hts t).1 ht).2.2
      have hcs : c = a ∨ Chain h0 a c := hi.sound c (Or.inr (by rw [hq]; simp))
      have hmem : ∀ u, (u ≠ a ∧ (u ∈ st2.visited ∨ u ∈ st2.queue)) ↔
          (u ≠ a ∧ (u ∈ st.visited ∨ u ∈ st.queue)) ∨ u ∈ ts := by
        intro u
        rw [s1, s3, hq]
        simp only [List.mem_cons, List.mem_append]
        constructor
        · rintro ⟨h1, (h3 | h3) | h3 | h3⟩
          · exact Or.inl ⟨h1, Or.inr (Or.inl h3)⟩
          · exact Or.inl ⟨h1, Or.inl h3⟩
          · exact Or.inl ⟨h1, Or.inr (Or.inr h3)⟩
          · exact Or.inr h3
        · rintro (⟨h1, h3 | h3 | h3⟩ | h1)
          · exact ⟨h1, Or.inl (Or.inr h3)⟩
          · exact ⟨h1, Or.inl (Or.inl h3)⟩
          · exact ⟨h1, Or.inr (Or.inl h3)⟩
          · exact ⟨hane u h1, Or.inr (Or.inr h1)⟩
      refine ⟨fun x => (hi.frame x).trans (s2 x), ?_, ?_, ?_, ?_, ?_, ?_⟩
      · intro u
        rw [s5, hi.cach, hmem]; tauto
      · obtain ⟨l, l1, l2⟩ := hi.prev
        refine ⟨l ++ ts, by rw [s6, l1]; simp, ?_⟩
        intro u
        rw [List.mem_append, l2, hmem]
      · intro x hx
        rw [s7 x hx, hi.other x hx]
      · intro u hu
        by_cases hua : u = a
        · exact Or.inl hua
        · rcases (hmem u).1 ⟨hua, hu⟩ with ⟨_, h3⟩ | h3
          · exact hi.sound u h3
          · right
            obtain ⟨p1, p2, p3⟩ := (hts u).1 h3
            rcases hcs with rfl | hcs
            · exact Chain.direct p1 p3
            · exact Chain.step p1 p3 hcs
      · intro u hu p hp hph
        rw [s1] at hu ⊢
        rw [s3]
        simp only [List.mem_cons, List.mem_append] at hu ⊢
        rcases hu with rfl | hu
        · by_cases hpv : p ∈ u :: st.visited
          · left; simpa using hpv
          · right; right; exact (hts p).2 ⟨hp, hpv, hph⟩
        · rcases hi.closed u hu p hp hph with h3 | h3
          · exact Or.inl (Or.inr h3)
          · rw [hq] at h3
            rcases List.mem_cons.1 h3 with rfl | h3
            · exact Or.inl (Or.inl rfl)
            · exact Or.inr (Or.inl h3)
      · rw [s1, s3]
        simp only [List.mem_cons, List.mem_append]
        rcases hi.start with h3 | h3
        · exact Or.inl (Or.inr h3)
        · rw [hq] at h3
          rcases List.mem_cons.1 h3 with rfl | h3
          · exact Or.inl (Or.inl rfl)
          · exact Or.inr (Or.inl h3)

theorem markStep_none {a : Nat} {st : Mark} (hs : markStep a st = .ok none) : st.queue = [] := by
  unfold markStep at hs
  split at hs
  · assumption
  · split at hs <;> simp at hs

/-- Functions that may still be visited. -/
def markOpen (U : List Nat) (st : Mark) : Finset Nat := (U ++ st.queue).toFinset \ st.visited.toFinset
def markDups (st : Mark) : Nat := (st.queue.filter (· ∈ st.visited)).length

theorem markStep_decreases {U : List Nat} {a : Nat} {st st' : Mark} (hU : ∀ x, ∀ p ∈ (st.heap x).preds .left, p ∈ U)
    (hs : markStep a st = .ok (some st')) :
    (markOpen U st').card < (markOpen U st).card ∨
    ((markOpen U st').card = (markOpen U st).card ∧ markDups st' < markDups st) := by
  unfold markStep at hs
  split at hs
  · cases hs
  · rename_i c q hq
    split at hs
    · cases hs
    · rename_i st2 h2
      simp only [Except.ok.injEq, Option.some.injEq] at hs
      subst hs
      obtain ⟨hv, _, ts, hq2, hts, _⟩ := markPreds_spec a _ _ _ h2
      simp only at hv hq2 hts
      have hts' : ∀ t ∈ ts, t ∉ c :: st.visited ∧ t ∈ U := fun t ht => ⟨((hts t).1 ht).2.1, hU c t ((hts t).1 ht).1⟩
      have hsub : markOpen U st2 ⊆ markOpen U st := by
        intro x hx
        simp only [markOpen, hv, hq2, hq, Finset.mem_sdiff, List.mem_toFinset, List.mem_append,
          List.mem_cons, not_or] at hx ⊢
        obtain ⟨h1, h3, h4⟩ := hx
        refine ⟨?_, h4⟩
        rcases h1 with h1 | h1 | h1
        · exact Or.inl h1
        · exact Or.inr (Or.inr h1)
        · exact Or.inl (hts' x h1).2
      by_cases hc : c ∈ st.visited
      · right
        constructor
        · congr 1
          apply Finset.Subset.antisymm hsub
          intro x hx
          simp only [markOpen, hv, hq2, hq, Finset.mem_sdiff, List.mem_toFinset, List.mem_append,
            List.mem_cons, not_or] at hx ⊢
          obtain ⟨h1, h3⟩ := hx
          have hxc : x ≠ c := by rintro rfl; exact h3 hc
          refine ⟨?_, hxc, h3⟩
          rcases h1 with h1 | h1 | h1
          · exact Or.inl h1
          · exact absurd h1 hxc
          · exact Or.inr (Or.inl h1)
        · have e1 : ∀ l : List Nat, l.filter (· ∈ c :: st.visited) = l.filter (· ∈ st.visited) := by
            intro l
            apply List.filter_congr
            intro x _
            by_cases hx : x = c
            · subst hx; simp [hc]
            · simp [hx]
          have e2 : ts.filter (· ∈ c :: st.visited) = [] := by
            rw [List.filter_eq_nil_iff]
            intro x hx
            simpa using (hts' x hx).1
          simp only [markDups, hq2, hv, List.filter_append, e2, List.append_nil, hq]
          rw [e1]
          simp [hc]
      · left
        apply Finset.card_lt_card
        refine ⟨hsub, ?_⟩
        intro hcon
        have : c ∈ markOpen U st := by simp [markOpen, hq, hc]
        have := hcon this
        simp [markOpen, hv] at this

/-- The loop ends. -/
theorem markLoop_ends {h0 : Heap} {U : List Nat} {a : Nat} (ha : ¬ InHeader h0 a)
    (hU : ∀ x, ∀ p ∈ (h0 x).preds .left, p ∈ U) (hf : ∀ p ∈ U, (h0 p).files .left ≠ none) :
    ∀ (m d : Nat) (st : Mark), MarkInv h0 a st → (markOpen U st).card = m → markDups st = d →
      ∃ n st', (∀ k, n ≤ k → markLoop a k st = some (.ok st')) ∧ MarkInv h0 a st' ∧ st'.queue = [] := by
  intro m
  induction m using Nat.strong_induction_on with
  | _ m ihm =>
    intro d
    induction d using Nat.strong_induction_on with
    | _ d ihd =>
      intro st hi hm hd
      cases hs : markStep a st with
      | error x =>
        exfalso
        unfold markStep at hs
        split at hs
        · cases hs
        · rename_i c q hq
          obtain ⟨st2, h2⟩ := markPreds_ok a ((st.heap c).preds .left) { st with queue := q, visited := c :: st.visited }
            (by
              intro p hp
              simp only
              rw [(hi.frame p).files]
              apply hf
              rw [(hi.frame c).preds] at hp
              exact hU c p hp)
          rw [h2] at hs; cases hs
      | ok o =>
        cases o with
        | none =>
          refine ⟨1, st, ?_, hi, markStep_none hs⟩
          intro k hk
          obtain ⟨j, rfl⟩ : ∃ j, k = j + 1 := ⟨k - 1, by omega⟩
          simp [markLoop, hs]
        | some st' =>
          have hi' := markStep_inv ha hi hs
          have hdec := markStep_decreases (U := U) (by
            intro x p hp
            rw [(hi.frame x).preds] at hp
            exact hU x p hp) hs
          have : ∃ n st'', (∀ k, n ≤ k → markLoop a k st' = some (.ok st'')) ∧ MarkInv h0 a st'' ∧ st''.queue = [] := by
            rcases hdec with h1 | ⟨h1, h2⟩
            · exact ihm _ (by omega) _ st' hi' rfl rfl
            · exact ihd _ (by omega) st' hi' (by omega) rfl
          obtain ⟨n, st'', h1, h2⟩ := this
          refine ⟨n + 1, st'', ?_, h2⟩
          intro k hk
          obtain ⟨j, rfl⟩ : ∃ j, k = j + 1 := ⟨k - 1, by omega⟩
          simp only [markLoop, hs]
          exact h1 j (by omega)

theorem MarkInv.final {h0 : Heap} {a : Nat} (ha : ¬ InHeader h0 a) {st : Mark} (hi : MarkInv h0 a st) (hq : st.queue = []) (u : Nat) :
    (u ≠ a ∧ (u ∈ st.visited ∨ u ∈ st.queue)) ↔ Chain h0 a u := by
  constructor
  · rintro ⟨h1, h2⟩
    rcases hi.sound u h2 with h3 | h3
    · exact absurd h3 h1
    · exact h3
  · intro hc
    have hhead : ∀ u, Chain h0 a u → InHeader h0 u := by
      intro u hc; cases hc <;> assumption
    refine ⟨by rintro rfl; exact ha (hhead _ hc), Or.inl ?_⟩
    have hva : a ∈ st.visited := by
      rcases hi.start with h1 | h1
      · exact h1
      · rw [hq] at h1; simp at h1
    induction hc with
    | direct hp hh =>
      rcases hi.closed a hva _ hp hh with h1 | h1
      · exact h1
      · rw [hq] at h1; simp at h1
    | step hp hh _ ih =>
      rcases hi.closed _ ih _ hp hh with h1 | h1
      · exact h1
      · rw [hq] at h1; simp at h1

/-- Assumed equal and outside of headers. -/
def Blocks (h : Heap) (a : Nat) : Prop := (h a).result = .assumedEqual ∧ ¬ InHeader h a

theorem markFrom_spec {h : Heap} {U : List Nat} {a : Nat}
    (hU : ∀ x, ∀ p ∈ (h x).preds .left, p ∈ U) (hf : ∀ p ∈ U, (h p).files .left ≠ none)
    (hfa : (h a).files .left ≠ none) :
    ∃ n h', (∀ k, n ≤ k → markFrom k h a = some (.ok h')) ∧ (∀ x, SameButMarks (h x) (h' x)) ∧
      (∀ u, (h' u).cachable = false ↔ (h u).cachable = false ∨ (Blocks h a ∧ Chain h a u)) ∧
      (∃ l, (h' a).prevents = (h a).prevents ++ l ∧ ∀ u, u ∈ l ↔ Blocks h a ∧ Chain h a u) ∧
      (∀ x, x ≠ a → (h' x).prevents = (h x).prevents) := by
  have trivialCase : ¬ Blocks h a → (∀ k, markFrom k h a = some (.ok h)) →
      ∃ n h', (∀ k, n ≤ k → markFrom k h a = some (.ok h')) ∧ (∀ x, SameButMarks (h x) (h' x)) ∧
      (∀ u, (h' u).cachable = false ↔ (h u).cachable = false ∨ (Blocks h a ∧ Chain h a u)) ∧
      (∃ l, (h' a).prevents = (h a).prevents ++ l ∧ ∀ u, u ∈ l ↔ Blocks h a ∧ Chain h a u) ∧
      (∀ x, x ≠ a → (h' x).prevents = (h x).prevents) := by
    intro hb hk
    exact ⟨0, h, fun k _ => hk k, fun x => rfl, fun u => by simp [hb], ⟨[], by simp, by simp [hb]⟩, fun _ _ => rfl⟩
  by_cases hr : (h a).result = .assumedEqual
  · cases hh : inHeader h .left a with
    | error x =>
      exfalso
      unfold inHeader at hh
      cases hfl : (h a).files .left with
      | none => exact hfa hfl
      | some f => rw [hfl] at hh; cases hh
    | ok b =>
      cases b with
      | true =>
        apply trivialCase
        · exact fun hb => hb.2 (inHeader_true_iff.1 hh)
        · intro k; unfold markFrom; simp [hr, hh]
      | false =>
        have ha := inHeader_false hh
        have hb : Blocks h a := ⟨hr, ha⟩
        obtain ⟨n, st', h1, h2, h3⟩ := markLoop_ends ha hU hf _ _ { heap := h, visited := [], queue := [a] }
          ⟨fun x => rfl, by intro u; simp, ⟨[], by simp, by intro u; simp⟩, fun _ _ => rfl,
            by intro u hu; left; simpa using hu, by simp, by simp⟩ rfl rfl
        refine ⟨n, st'.heap, ?_, h2.frame, ?_, ?_, h2.other⟩
        · intro k hk
          unfold markFrom
          simp [hr, hh, h1 k hk]
        · intro u
          rw [h2.cach, h2.final ha h3]
          simp [hb]
        · obtain ⟨l, l1, l2⟩ := h2.prev
          refine ⟨l, l1, fun u => ?_⟩
          rw [l2, h2.final ha h3]; simp [hb]
  · apply trivialCase
    · exact fun hb => hr hb.1
    · intro k; unfold markFrom; simp [hr]

theorem chain_congr {h h' : Heap} (hs : ∀ x, SameButMarks (h x) (h' x)) {a u : Nat} (hc : Chain h' a u) : Chain h a u := by
  have hIn : ∀ t, InHeader h' t → InHeader h t := fun t => by
    rw [← inHeader_true_iff, ← inHeader_true_iff, inHeader_congr (hs t)]; exact id
  induction hc with
  | direct hp hh => exact Chain.direct (by rw [← (hs _).preds]; exact hp) (hIn _ hh)
  | step hp hh _ ih => exact Chain.step (by rw [← (hs _).preds]; exact hp) (hIn _ hh) ih

theorem SameButMarks.symm {a b : Vertex} (h : SameButMarks a b) : SameButMarks b a := by
  unfold SameButMarks at *; rw [← h]

theorem blocks_congr {h h' : Heap} (hs : ∀ x, SameButMarks (h x) (h' x)) {a : Nat} : Blocks h' a ↔ Blocks h a := by
  unfold Blocks
  rw [(hs a).result, ← inHeader_true_iff, ← inHeader_true_iff, inHeader_congr (hs a)]

theorem markAll_spec {U : List Nat} : ∀ (vs : List Nat) (h : Heap),
    (∀ x, ∀ p ∈ (h x).preds .left, p ∈ U) → (∀ p ∈ U, (h p).files .left ≠ none) →
    (∀ a ∈ vs, (h a).files .left ≠ none) →
    ∃ n h', (∀ k, n ≤ k → markAll k h vs = some (.ok h')) ∧ (∀ x, SameButMarks (h x) (h' x)) ∧
      (∀ u, (h' u).cachable = false ↔ (h u).cachable = false ∨ ∃ a ∈ vs, Blocks h a ∧ Chain h a u) ∧
      (∀ a u, u ∈ (h' a).prevents ↔ u ∈ (h a).prevents ∨ (a ∈ vs ∧ Blocks h a ∧ Chain h a u)) := by
  intro vs
  induction vs with
  | nil => intro h _ _ _; exact ⟨0, h, fun k _ => rfl, fun x => rfl, fun u => by simp, fun a u => by simp⟩
  | cons v vs ih =>
    intro h hU hf hfa
    obtain ⟨n1, h1, a1, a2, a3, ⟨l, a4, a5⟩, a6⟩ := markFrom_spec hU hf (hfa v (by simp))
    obtain ⟨n2, h2, b1, b2, b3, b4⟩ := ih h1
      (by intro x p hp; rw [(a2 x).preds] at hp; exact hU x p hp)
      (by intro p hp; rw [(a2 p).files]; exact hf p hp)
      (by intro p hp; rw [(a2 p).files]; exact hfa p (by simp [hp]))
    have hbl : ∀ a, Blocks h1 a ↔ Blocks h a := fun a => blocks_congr a2
    have hch : ∀ a u, Chain h1 a u ↔ Chain h a u := fun a u =>
      ⟨chain_congr a2, chain_congr (fun x => (a2 x).symm)⟩
    refine ⟨max n1 n2, h2, ?_, fun x => (a2 x).trans (b2 x), ?_, ?_⟩
    · intro k hk
      simp only [markAll, a1 k (by omega)]
      exact b1 k (by omega)
    · intro u
      rw [b3, a3]
      simp only [hbl, hch, List.mem_cons, exists_eq_or_imp]
      tauto
    · intro a u
      rw [b4]
      simp only [hbl, hch, List.mem_cons]
      by_cases hav : a = v
      · subst hav
        rw [a4]
        simp only [List.mem_append, a5]
        tauto
      · rw [a6 a hav]
        simp [hav]

end DK
