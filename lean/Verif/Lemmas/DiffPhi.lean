import Verif.Spec.DiffPhi
import Verif.Lemmas.DiffFuns

/-!
Lemmas: functions with phis that the comparison without patterns finds equal do the same.
-/

set_option autoImplicit false

namespace DK
open Spec

/-! ### Ways -/

theorem way_split {f : DFun} {way : List Nat} {u : Nat} (h : Way f way u) : ∀ (w1 : List Nat) (x : Nat) (w2 : List Nat),
    way ++ [u] = w1 ++ x :: w2 → Way f w1 x ∧
      ∀ w', Way f w' x → ∃ way', way' ++ [u] = w' ++ x :: w2 ∧ Way f way' u := by
  induction h with
  | entry B rest hB =>
    intro w1 x w2 e
    cases w1 with
    | cons y w1 => simp at e
    | nil =>
      simp only [List.nil_append, List.cons.injEq] at e
      obtain ⟨rfl, rfl⟩ := e
      exact ⟨.entry B rest hB, fun w' hw => ⟨w', rfl, hw⟩⟩
  | step way b c B hw hf hc ih =>
    intro w1 x w2 e
    rcases List.eq_nil_or_concat w2 with rfl | ⟨w3, y, rfl⟩
    · have := List.append_inj' e (by simp)
      obtain ⟨rfl, e2⟩ := this
      simp only [List.cons.injEq, and_true] at e2
      subst e2
      exact ⟨.step way b c B hw hf hc, fun w' hw => ⟨w', rfl, hw⟩⟩
    · have e' : (way ++ [b]) ++ [c] = (w1 ++ x :: w3) ++ [y] := by simpa using e
      obtain ⟨e1, e2⟩ := List.append_inj' e' (by simp)
      simp only [List.cons.injEq, and_true] at e2
      subst e2
      obtain ⟨h1, h2⟩ := ih w1 x w3 e1
      refine ⟨h1, fun w' hw' => ?_⟩
      obtain ⟨way', h3, h4⟩ := h2 w' hw'
      exact ⟨way' ++ [b], by rw [h3]; simp, .step way' b c B h4 hf hc⟩

theorem first_of {b d : Nat} : ∀ L : List Nat, b ∈ L → ∃ w1 z w2, L = w1 ++ z :: w2 ∧ (z = b ∨ z = d) ∧
    ∀ y ∈ w1, y ≠ b ∧ y ≠ d
  | [], h => nomatch h
  | x :: L, h => by
    by_cases hx : x = b ∨ x = d
    · exact ⟨[], x, L, rfl, hx, fun _ h => nomatch h⟩
    · have : b ∈ L := by
        rcases List.mem_cons.mp h with e | h
        · exact absurd (Or.inl e.symm) hx
        · exact h
      obtain ⟨w1, z, w2, rfl, hz, hw⟩ := first_of L this
      refine ⟨x :: w1, z, w2, rfl, hz, fun y hy => ?_⟩
      rcases List.mem_cons.mp hy with rfl | hy
      · exact ⟨fun e => hx (.inl e), fun e => hx (.inr e)⟩
      · exact hw y hy

theorem last_of {b d : Nat} (L : List Nat) (h : b ∈ L) : ∃ w1 z w2, L = w1 ++ z :: w2 ∧ (z = b ∨ z = d) ∧
    ∀ y ∈ w2, y ≠ b ∧ y ≠ d := by
  obtain ⟨w1, z, w2, e, hz, hw⟩ := first_of (d := d) L.reverse (by simpa using h)
  refine ⟨w2.reverse, z, w1.reverse, ?_, hz, fun y hy => hw y (by simpa using hy)⟩
  have := congrArg List.reverse e
  simpa using this

/-- The block `c` precedes the block `b`. -/
def Precedes (f : DFun) (c b : Nat) : Prop := ∃ C, f.find c = some C ∧ b ∈ C.succs []

/-- Two blocks with the same predecessors that are on every way to a block are the same block. -/
theorem same_block {f : DFun} {b d u : Nat} (hu : ∃ way, Way f way u)
    (hb : ∀ way, Way f way u → b ∈ way ++ [u]) (hd : ∀ way, Way f way u → d ∈ way ++ [u])
    (eb : ∀ B Bs, f.blocks = B :: Bs → B.id ≠ b) (ed : ∀ B Bs, f.blocks = B :: Bs → B.id ≠ d)
    (hp : ∀ c, Precedes f c b ↔ Precedes f c d) : b = d := by
  by_contra hne
  obtain ⟨way, hw⟩ := hu
  obtain ⟨w1, z, w2, e1, hz, hw1⟩ := first_of (d := d) _ (hb way hw)
  obtain ⟨v1, y, v2, e2, hy, hv2⟩ := last_of (d := d) _ (hb way hw)
  have h1 := (way_split hw w1 z w2 e1).1
  have h2 : Way f w1 y := by
    cases h1 with
    | entry B rest hB =>
      rcases hz with rfl | rfl
      · exact absurd rfl (eb B rest hB)
      · exact absurd rfl (ed B rest hB)
    | step way c _ C hc hf hs =>
      have : Precedes f c y := by
        rcases hz with rfl | rfl <;> rcases hy with rfl | rfl
        · exact ⟨C, hf, hs⟩
        · exact (hp c).mp ⟨C, hf, hs⟩
        · exact (hp c).mpr ⟨C, hf, hs⟩
        · exact ⟨C, hf, hs⟩
      obtain ⟨C', hf', hs'⟩ := this
      exact .step way c y C' hc hf' hs'
  obtain ⟨way', e3, hw'⟩ := (way_split hw v1 y v2 e2).2 w1 h2
  have h3 := hb way' hw'
  have h4 := hd way' hw'
  rw [e3] at h3 h4
  have key : ∀ x, (x = b ∨ x = d) → x ∈ w1 ++ y :: v2 → x = y := by
    intro x hx hm
    rcases List.mem_append.mp hm with hm | hm
    · have := hw1 x hm
      rcases hx with e | e
      · exact absurd e this.1
      · exact absurd e this.2
    · rcases List.mem_cons.mp hm with e | hm
      · exact e
      · have := hv2 x hm
        rcases hx with e | e
        · exact absurd e this.1
        · exact absurd e this.2
  exact hne ((key b (.inl rfl) h3).trans (key d (.inr rfl) h4).symm)

/-! ### States -/

/-- A phi. -/
def IsPhi (f : DFun) (a : Nat) : Prop := ∃ i ∈ f.all, i.id = a ∧ i.code = .phi

theorem phiKey_iff {f : DFun} (hf : DWellFormed f) (a b : Nat) :
    phiKey f.all (.val a) = some b ↔ a = b ∧ IsPhi f a := by
  have hn := (List.nodup_append.mp hf.ids).2.1
  simp only [phiKey]
  constructor
  · intro h
    cases hi : f.all.find? fun i => i.id == a with
    | none => rw [hi] at h; cases h
    | some i =>
      rw [hi] at h
      have h1 := List.mem_of_find?_eq_some hi
      have h2 : i.id = a := by simpa using List.find?_some hi
      by_cases hc : i.code = .phi
      · simp only [Option.filter, hc, decide_true, if_true, Option.map_some, Option.some.injEq] at h
        exact ⟨h2.symm.trans h, i, h1, h2, hc⟩
      · simp [Option.filter, hc] at h
  · rintro ⟨rfl, i, hi, rfl, hc⟩
    rw [find_id hn hi]
    simp [Option.filter, hc]

theorem phiKey_not {f : DFun} (hf : DWellFormed f) {a : Nat} (h : ¬ IsPhi f a) : phiKey f.all (.val a) = none := by
  cases hk : phiKey f.all (.val a) with
  | none => rfl
  | some b => exact absurd ((phiKey_iff hf a b).mp hk).2 h

/-- The phis are used in corresponding places. -/
def UsedAt (l r : DFun) (φ : Nat → Nat) (p q : Nat) : Prop :=
  ∃ B ∈ l.blocks, ∃ C ∈ r.blocks, C.id = φ B.id ∧ ∃ u ∈ B.code, ∃ v ∈ C.code, u.code ≠ .phi ∧ v.code ≠ .phi ∧
    (∃ w, DOp.ref p w ∈ u.ops) ∧ ∃ w, DOp.ref q w ∈ v.ops

/-- Numbers in states of the comparison. -/
structure PState (l r : DFun) (φ : Nat → Nat) (ks : List (DKey × DKey)) (st : DSt) : Prop extends Sync ks st where
  ignL : st.ignL = []
  ignR : st.ignR = []
  reloc : st.reloc = .none
  kinds : ∀ k k', (k, k') ∈ ks → (∃ a b, k = .val a ∧ k' = .val b) ∨
    ∃ B ∈ l.blocks, k = .blk B.id ∧ k' = .blk (φ B.id)
  phis : ∀ a b, (DKey.val a, DKey.val b) ∈ ks →
    (¬ IsPhi l a ∧ ¬ IsPhi r b) ∨ (IsPhi l a ∧ IsPhi r b ∧ (a, b) ∈ st.phis ∧ UsedAt l r φ a b)
  conv : ∀ x ∈ st.phis, (DKey.val x.1, DKey.val x.2) ∈ ks ∧ IsPhi l x.1 ∧ IsPhi r x.2

/-- The parts of the state that comparisons of values do not change. -/
theorem cmpVals_frame (P : DPair) : ∀ (n : Nat) (x y : DOp) (st : DSt),
    (cmpVals P n x y st).2.inv = st.inv ∧ (cmpVals P n x y st).2.swapped = st.swapped ∧
      (cmpVals P n x y st).2.reloc = st.reloc := by
  have hp : ∀ (x y : DOp) (st : DSt), (cmpPlainD P x y st).2.inv = st.inv ∧
      (cmpPlainD P x y st).2.swapped = st.swapped ∧ (cmpPlainD P x y st).2.reloc = st.reloc := by
    intro x y st
    unfold cmpPlainD
    split
    · unfold cmpRefs
      dsimp only
      split
      · split
        · split <;> exact ⟨rfl, rfl, rfl⟩
        · exact ⟨rfl, rfl, rfl⟩
      · split
        · split <;> exact ⟨rfl, rfl, rfl⟩
        · exact ⟨rfl, rfl, rfl⟩
    · exact ⟨rfl, rfl, rfl⟩
    · exact ⟨rfl, rfl, rfl⟩
  intro n
  induction n with
  | zero =>
    intro x y st
    unfold cmpVals
    split
    · exact ⟨rfl, rfl, rfl⟩
    · split
      · exact ⟨rfl, rfl, rfl⟩
      · exact hp x y st
  | succ n ih =>
    intro x y st
    unfold cmpVals
    split
    · exact ⟨rfl, rfl, rfl⟩
    · split
      · exact ih _ _ _
      · exact hp x y st

theorem cmpOpList_frame (P : DPair) : ∀ (xs ys : List DOp) (st : DSt),
    (cmpOpList P xs ys st).2.inv = st.inv ∧ (cmpOpList P xs ys st).2.swapped = st.swapped ∧
      (cmpOpList P xs ys st).2.reloc = st.reloc
  | [], _, _ => by simp [cmpOpList]
  | _ :: _, [], _ => by simp [cmpOpList]
  | x :: xs, y :: ys, st => by
    have h := cmpVals_frame P P.depth x y st
    simp only [cmpOpList]
    split
    · have h' := cmpOpList_frame P xs ys (cmpVals P P.depth x y st).2
      exact ⟨h'.1.trans h.1, h'.2.1.trans h.2.1, h'.2.2.trans h.2.2⟩
    · exact h

theorem cmpVals_plain {l r : DFun} {φ : Nat → Nat} {ks : List (DKey × DKey)} {st : DSt} (S : PState l r φ ks st)
    (P : DPair) (n : Nat) (x y : DOp) : cmpVals P n x y st = cmpPlainD P x y st := by
  have h1 : ∀ z, ignoredOp [] z = false := by intro z; cases z <;> simp [ignoredOp]
  have h2 : ∀ z, replacedOp [] z = none := by intro z; cases z <;> rfl
  unfold cmpVals
  simp [S.ignL, S.ignR, S.repL, S.repR, h1, h2]

/-- Corresponding operands. -/
inductive OpRel (l : DFun) (φ : Nat → Nat) (ks : List (DKey × DKey)) : DOp → DOp → Prop where
  | const (w : Nat) (v : Int) : OpRel l φ ks (.const w v) (.const w v)
  | ref (a b w w' : Nat) : (DKey.val a, DKey.val b) ∈ ks → OpRel l φ ks (.ref a w) (.ref b w')
  | blk (B : DBlock) : B ∈ l.blocks → OpRel l φ ks (.blk B.id) (.blk (φ B.id))

theorem OpRel.mono {l : DFun} {φ : Nat → Nat} {ks ks' : List (DKey × DKey)} (h : ∀ x ∈ ks, x ∈ ks') {x y : DOp}
    (e : OpRel l φ ks x y) : OpRel l φ ks' x y := by
  cases e with
  | const w v => exact .const w v
  | ref a b w w' hm => exact .ref a b w w' (h _ hm)
  | blk B hB => exact .blk B hB

/-- What is known about operands before they are compared. -/
def OpPre (l r : DFun) (φ : Nat → Nat) (x y : DOp) : Prop :=
  (∃ B ∈ l.blocks, x = .blk B.id ∧ y = .blk (φ B.id)) ∨
    ((∀ b, x ≠ .blk b) ∧ (∀ b, y ≠ .blk b) ∧
      ∀ a b w w', x = .ref a w → y = .ref b w' → IsPhi l a → IsPhi r b → UsedAt l r φ a b)

theorem keys_length (ks : List (DKey × DKey)) : (ks.map Prod.fst).length = (ks.map Prod.snd).length := by simp

/-- References are compared. -/
theorem refs_step {l r : DFun} {φ : Nat → Nat} (wl : DWellFormed l) (wr : DWellFormed r)
    (hinj : ∀ B ∈ l.blocks, ∀ C ∈ l.blocks, φ B.id = φ C.id → B.id = C.id)
    {ks : List (DKey × DKey)} {st st' : DSt} (S : PState l r φ ks st) {k k' : DKey}
    (hk : (∃ B ∈ l.blocks, k = .blk B.id ∧ k' = .blk (φ B.id)) ∨
      ∃ a b, k = .val a ∧ k' = .val b ∧ (IsPhi l a → IsPhi r b → UsedAt l r φ a b))
    (h : cmpRefs ⟨l.all, r.all⟩ k k' st = (true, st')) :
    ∃ ks', (∀ x ∈ ks, x ∈ ks') ∧ (∀ x ∈ ks', x ∈ ks ∨ x = (k, k')) ∧ PState l r φ ks' st' ∧ (k, k') ∈ ks' := by
  by_cases h1 : k ∈ ks.map Prod.fst
  · by_cases h2 : k' ∈ ks.map Prod.snd
    · have O := cmpRefs_old (l := l) (r := r) S.toSync h1 h2
      by_cases hm : (k, k') ∈ ks
      · rw [O.1 hm, Prod.mk.injEq] at h
        obtain ⟨_, rfl⟩ := h
        exact ⟨ks, fun _ h => h, fun _ h => .inl h, S, hm⟩
      · exfalso
        rcases hk with ⟨B, hB, rfl, rfl⟩ | ⟨a, b, rfl, rfl, _⟩
        · obtain ⟨k2, hk2⟩ := mem_fst h1
          rcases S.kinds _ _ hk2 with ⟨a, b, e, _⟩ | ⟨D, hD, e, e'⟩
          · cases e
          · simp only [DKey.blk.injEq] at e
            rw [e', ← e] at hk2
            exact hm hk2
        · rw [O.2 hm ⟨a, rfl⟩] at h
          cases h
    · exfalso
      rcases hk with ⟨B, hB, rfl, rfl⟩ | ⟨a, b, rfl, rfl, _⟩
      · obtain ⟨k2, hk2⟩ := mem_fst h1
        rcases S.kinds _ _ hk2 with ⟨a, b, e, _⟩ | ⟨D, hD, e, e'⟩
        · cases e
        · simp only [DKey.blk.injEq] at e
          rw [e', ← e] at hk2
          exact h2 (List.mem_map_of_mem (f := Prod.snd) hk2)
      · obtain ⟨i, hi⟩ := List.getElem?_of_mem h1
        have hlt : i < (ks.map Prod.fst).length := (List.getElem?_eq_some_iff.mp hi).1
        have e : ¬ (numbered (ks.map Prod.fst)).lookup (.val a) =
            (numbered (ks.map Prod.snd ++ [.val b])).lookup (.val b) := by
          rw [numbered_some S.left hi, numbered_some (nodup_snoc S.right h2) (i := (ks.map Prod.snd).length) (by simp)]
          simp only [Option.some.injEq]
          rw [keys_length] at hlt
          omega
        simp only [cmpRefs, S.snL, S.snR, insert_old S.left h1, insert_new h2, if_neg e] at h
        simp at h
  · by_cases h2 : k' ∈ ks.map Prod.snd
    · exfalso
      rcases hk with ⟨B, hB, rfl, rfl⟩ | ⟨a, b, rfl, rfl, _⟩
      · obtain ⟨k2, hk2⟩ := mem_snd h2
        rcases S.kinds _ _ hk2 with ⟨a, b, _, e⟩ | ⟨D, hD, e, e'⟩
        · cases e
        · simp only [DKey.blk.injEq] at e'
          rw [e, ← hinj B hB D hD e'] at hk2
          exact h1 (List.mem_map_of_mem (f := Prod.fst) hk2)
      · obtain ⟨i, hi⟩ := List.getElem?_of_mem h2
        have hlt : i < (ks.map Prod.snd).length := (List.getElem?_eq_some_iff.mp hi).1
        have e : ¬ (numbered (ks.map Prod.fst ++ [.val a])).lookup (.val a) =
            (numbered (ks.map Prod.snd)).lookup (.val b) := by
          rw [numbered_some S.right hi, numbered_some (nodup_snoc S.left h1) (i := (ks.map Prod.fst).length) (by simp)]
          simp only [Option.some.injEq]
          rw [← keys_length] at hlt
          omega
        simp only [cmpRefs, S.snL, S.snR, insert_old S.right h2, insert_new h1, if_neg e] at h
        simp at h
    · have n1 := nodup_snoc S.left h1
      have n2 := nodup_snoc S.right h2
      have e : (numbered (ks.map Prod.fst ++ [k])).lookup k = (numbered (ks.map Prod.snd ++ [k'])).lookup k' := by
        rw [numbered_some n1 (i := ks.length) (by simp), numbered_some n2 (i := ks.length) (by simp)]
      simp only [cmpRefs, S.snL, S.snR, insert_new h1, insert_new h2, e, if_true, numbered_length,
        List.length_append, List.length_singleton] at h
      refine ⟨ks ++ [(k, k')], fun x hx => by simp [hx], fun x hx => mem_snoc hx, ?_, by simp⟩
      have base : ∀ ph, (∀ x ∈ st.phis, x ∈ ph) →
          (∀ a b, k = .val a → k' = .val b → (¬ IsPhi l a ∧ ¬ IsPhi r b) ∨
            (IsPhi l a ∧ IsPhi r b ∧ (a, b) ∈ ph ∧ UsedAt l r φ a b)) →
          (∀ x ∈ ph, x ∈ st.phis ∨ (k = .val x.1 ∧ k' = .val x.2 ∧ IsPhi l x.1 ∧ IsPhi r x.2)) →
          ∀ m, PState l r φ (ks ++ [(k, k')])
            { st with snL := numbered (ks.map Prod.fst ++ [k]), snR := numbered (ks.map Prod.snd ++ [k']),
                      mapped := m, phis := ph } := by
        intro ph hph hnew hconv m
        refine {
          snL := by rw [keys_fst]
          snR := by rw [keys_snd]
          repL := S.repL
          repR := S.repR
          left := by rw [keys_fst]; exact n1
          right := by rw [keys_snd]; exact n2
          ignL := S.ignL
          ignR := S.ignR
          reloc := S.reloc
          kinds := ?_
          phis := ?_
          conv := ?_ }
        · intro x y hxy
          rcases mem_snoc hxy with hxy | hxy
          · exact S.kinds x y hxy
          · cases hxy
            rcases hk with hk | ⟨a, b, e1, e2, _⟩
            · exact .inr hk
            · exact .inl ⟨a, b, e1, e2⟩
        · intro a b hab
          rcases mem_snoc hab with hab | hab
          · rcases S.phis a b hab with h | ⟨x1, x2, x3, x4⟩
            · exact .inl h
            · exact .inr ⟨x1, x2, hph _ x3, x4⟩
          · cases hab
            exact hnew a b rfl rfl
        · intro x hx
          rcases hconv x hx with hx | ⟨e1, e2, x1, x2⟩
          · obtain ⟨y1, y2⟩ := S.conv x hx
            exact ⟨by simp [y1], y2⟩
          · exact ⟨by rw [← e1, ← e2]; simp, x1, x2⟩
      rcases hk with ⟨B, hB, rfl, rfl⟩ | ⟨a, b, rfl, rfl, hu⟩
      · simp only [phiKey, Prod.mk.injEq, true_and] at h
        rw [← h]
        exact base st.phis (fun _ h => h) (fun _ _ e => by cases e) (fun _ h => .inl h) _
      · by_cases pa : IsPhi l a
        · by_cases pb : IsPhi r b
          · rw [(phiKey_iff wl a a).mpr ⟨rfl, pa⟩, (phiKey_iff wr b b).mpr ⟨rfl, pb⟩] at h
            simp only [Prod.mk.injEq, true_and] at h
            rw [← h]
            refine base (st.phis ++ [(a, b)]) (fun x hx => by simp [hx]) ?_ ?_ _
            · intro a' b' e1 e2
              cases e1; cases e2
              exact .inr ⟨pa, pb, by simp, hu pa pb⟩
            · intro x hx
              rcases List.mem_append.mp hx with hx | hx
              · exact .inl hx
              · rw [List.mem_singleton.mp hx]
                exact .inr ⟨rfl, rfl, pa, pb⟩
          · rw [(phiKey_iff wl a a).mpr ⟨rfl, pa⟩, phiKey_not wr pb] at h
            simp at h
        · by_cases pb : IsPhi r b
          · rw [(phiKey_iff wr b b).mpr ⟨rfl, pb⟩, phiKey_not wl pa] at h
            simp at h
          · rw [phiKey_not wr pb, phiKey_not wl pa] at h
            simp only [Prod.mk.injEq, true_and] at h
            rw [← h]
            refine base st.phis (fun _ h => h) ?_ (fun _ h => .inl h) _
            intro a' b' e1 e2
            cases e1; cases e2
            exact .inl ⟨pa, pb⟩

/-- New values that are no phis are taken as equal. -/
theorem refs_new {l r : DFun} {φ : Nat → Nat} (wl : DWellFormed l) (wr : DWellFormed r)
    {ks : List (DKey × DKey)} {st : DSt} (S : PState l r φ ks st) {a b : Nat}
    (h1 : DKey.val a ∉ ks.map Prod.fst) (h2 : DKey.val b ∉ ks.map Prod.snd) (pa : ¬ IsPhi l a) (pb : ¬ IsPhi r b) :
    (cmpRefs ⟨l.all, r.all⟩ (.val a) (.val b) st).1 = true := by
  have n1 := nodup_snoc S.left h1
  have n2 := nodup_snoc S.right h2
  have e : (numbered (ks.map Prod.fst ++ [.val a])).lookup (.val a) =
      (numbered (ks.map Prod.snd ++ [.val b])).lookup (.val b) := by
    rw [numbered_some n1 (i := ks.length) (by simp), numbered_some n2 (i := ks.length) (by simp)]
  simp only [cmpRefs, S.snL, S.snR, insert_new h1, insert_new h2, e, if_true, numbered_length,
    List.length_append, List.length_singleton, phiKey_not wr pb, phiKey_not wl pa]

end DK
