import Verif.Props.CustomEquality

/-! Custom patterns: instructions of functions that are found equal. -/

set_option autoImplicit false

namespace DK

open Spec

theorem skipPart_between (s : CSt) (f : Bool) (b k i x : Nat) (h1 : i ≤ x) (h2 : x < skipPart s f b k i) :
    s.part f b x = true := by
  induction k generalizing i with
  | zero => unfold skipPart at h2; omega
  | succ n ih =>
    unfold skipPart at h2
    split at h2
    · rename_i hp
      by_cases e : i = x
      · subst e; exact hp
      · exact ih (i + 1) (by omega) h2
    · omega

/-- All marked instructions are covered. -/
def MarksCovered (E : CusEnv) (s : CSt) : Prop :=
  (∀ b i, (true, CusVal.inst b i) ∈ s.all → CoveredL E s.log (b, i)) ∧
  (∀ b i, (false, CusVal.inst b i) ∈ s.all → CoveredR E s.log (b, i))

theorem MarksCovered.congr {E : CusEnv} {s s' : CSt} (h : MarksCovered E s) (h1 : s'.all = s.all) (h2 : s'.log = s.log) :
    MarksCovered E s' := by
  unfold MarksCovered
  rw [h1, h2]
  exact h

theorem matchValue_covered {E : CusEnv} (hV : ∀ P ∈ E.values, ProperNames P) {pl pr : Pos} {s s' : CSt} (l : List ValPat)
    (hl : ∀ P ∈ l, P ∈ E.values) (hs : MarksCovered E s) (h : E.matchValue pl pr s l = some s') : MarksCovered E s' := by
  induction l with
  | nil => exact nomatch h
  | cons P t ih =>
    unfold CusEnv.matchValue at h
    dsimp only at h
    split at h
    · cases h
      have hP := hl P (List.mem_cons_self ..)
      have hpn := hV P hP
      constructor
      · intro b i hm
        dsimp only at hm
        rw [List.mem_append, List.mem_append] at hm
        rcases hm with (hm | hm) | hm
        · exact hs.1 b i hm
        · split at hm
          · rename_i hml
            rw [List.mem_singleton] at hm
            cases hm
            right
            refine ⟨P, hP, ?_⟩
            cases hi : E.fnL.instAt pl.1 pl.2 with
            | none => rw [hi] at hml; exact nomatch hml
            | some x =>
              rw [hi] at hml
              exact matchLoad_loads (fun m n => (C38_names.2.2.1 m n).1) (fun n b e => (hpn.1 n b e).2) hi hml
          · exact nomatch hm
        · split at hm
          · rw [List.mem_singleton] at hm; exact nomatch hm
          · exact nomatch hm
      · intro b i hm
        dsimp only at hm
        rw [List.mem_append, List.mem_append] at hm
        rcases hm with (hm | hm) | hm
        · exact hs.2 b i hm
        · split at hm
          · rw [List.mem_singleton] at hm; exact nomatch hm
          · exact nomatch hm
        · split at hm
          · rename_i hml
            rw [List.mem_singleton] at hm
            cases hm
            right
            refine ⟨P, hP, ?_⟩
            cases hi : E.fnR.instAt pr.1 pr.2 with
            | none => rw [hi] at hml; exact nomatch hml
            | some x =>
              rw [hi] at hml
              exact matchLoad_loads (fun m n => (C38_names.2.2.2 m n).1) (fun n b e => (hpn.2 n b e).2) hi hml
          · exact nomatch hm
    · exact ih (fun Q hQ => hl Q (List.mem_cons_of_mem _ hQ)) h

theorem processMatch_covered {E : CusEnv} (P : InstPat) (cl cr : PCmp) {s : CSt} (hs : MarksCovered E s) :
    MarksCovered E (processMatch P cl cr s) := by
  unfold processMatch
  constructor
  · intro b i hm
    dsimp only at hm
    rw [List.mem_append, List.mem_append] at hm
    rcases hm with (hm | hm) | hm
    · rcases hs.1 b i hm with ⟨m, h1, h2⟩ | h
      · exact Or.inl ⟨m, List.mem_append_left _ h1, h2⟩
      · exact Or.inr h
    · obtain ⟨q, hq, e⟩ := List.mem_map.1 hm
      cases e
      exact Or.inl ⟨⟨P, cl.matched, cr.matched⟩, List.mem_append_right _ (List.mem_singleton.2 rfl), q.1, hq⟩
    · obtain ⟨q, hq, e⟩ := List.mem_map.1 hm
      exact nomatch e
  · intro b i hm
    dsimp only at hm
    rw [List.mem_append, List.mem_append] at hm
    rcases hm with (hm | hm) | hm
    · rcases hs.2 b i hm with ⟨m, h1, h2⟩ | h
      · exact Or.inl ⟨m, List.mem_append_left _ h1, h2⟩
      · exact Or.inr h
    · obtain ⟨q, hq, e⟩ := List.mem_map.1 hm
      exact nomatch e
    · obtain ⟨q, hq, e⟩ := List.mem_map.1 hm
      cases e
      exact Or.inl ⟨⟨P, cl.matched, cr.matched⟩, List.mem_append_right _ (List.mem_singleton.2 rfl), q.1, hq⟩

theorem covered_mono {E : CusEnv} {log log' : List PatMatch} (h : ∀ m ∈ log, m ∈ log') (p : Pos) :
    (CoveredL E log p → CoveredL E log' p) ∧ (CoveredR E log p → CoveredR E log' p) := by
  constructor
  · rintro (⟨m, h1, h2⟩ | h2)
    · exact Or.inl ⟨m, h m h1, h2⟩
    · exact Or.inr h2
  · rintro (⟨m, h1, h2⟩ | h2)
    · exact Or.inl ⟨m, h m h1, h2⟩
    · exact Or.inr h2

theorem matchPattern_covered {E : CusEnv} (hV : ∀ P ∈ E.values, ProperNames P) {pl pr : Pos} {s s' : CSt}
    (hs : MarksCovered E s) (h : E.matchPattern pl pr s = some s') :
    MarksCovered E s' ∧ ∀ m ∈ s.log, m ∈ s'.log := by
  unfold CusEnv.matchPattern at h
  split at h
  · rename_i s1 heq
    cases h
    obtain ⟨P, _, bl, br, cl, cr, _, e⟩ := matchInst_some E pl pr s _ _ heq
    rw [e]
    exact ⟨processMatch_covered P cl cr hs, fun m hm => List.mem_append_left _ hm⟩
  · exact ⟨matchValue_covered hV _ (fun _ h => h) hs h, by rw [(matchValue_some E _ _ _ _ _ h).1]; exact fun _ h => h⟩

/-- The invariant of the comparison of the entry blocks, at the places `i` and `j`. -/
structure Corr (E : CusEnv) (i j : Nat) (done : List (Pos × Pos)) (s : CSt) : Prop where
  left : ∀ x, x < i → (∃ y, ((0, x), (0, y)) ∈ done) ∨ CoveredL E s.log (0, x)
  right : ∀ y, y < j → (∃ x, ((0, x), (0, y)) ∈ done) ∨ CoveredR E s.log (0, y)
  before : ∀ a ∈ done, a.1.2 < i ∧ a.2.2 < j
  order : done.Pairwise (fun a b => a.1.2 < b.1.2 ∧ a.2.2 < b.2.2)
  same : ∀ pl pr, (pl, pr) ∈ done → ∃ il ir, InstAt E.fnL pl il ∧ InstAt E.fnR pr ir ∧ il.op = ir.op ∧
    il.args.length = ir.args.length

theorem cusInst_same {E : CusEnv} {s s' : CSt} {pl pr : Pos} (h : E.cmpInst s pl pr = (true, s')) :
    ∃ il ir, InstAt E.fnL pl il ∧ InstAt E.fnR pr ir ∧ il.op = ir.op ∧ il.args.length = ir.args.length := by
  unfold CusEnv.cmpInst at h
  split at h
  · rename_i il ir hl hr
    split at h
    · exact nomatch h
    · split at h
      · exact nomatch h
      · rename_i hne
        simp only [not_or, Decidable.not_not] at hne
        exact ⟨il, ir, hl, hr, hne.1, hne.2⟩
  · exact nomatch h

theorem cmpBlock_corr {E : CusEnv} (hV : ∀ P ∈ E.values, ProperNames P) (fuel i j : Nat) (done : List (Pos × Pos)) (s : CSt)
    (hc : Corr E i j done s) (hm : MarksCovered E s) (al : List (Pos × Pos)) (s' : CSt)
    (h : E.cmpBlock 0 0 fuel i j done s = some (.equal al s')) : BlocksCorrespond E s'.log al := by
  induction fuel generalizing i j done s with
  | zero => exact nomatch h
  | succ n ih =>
    unfold CusEnv.cmpBlock at h
    dsimp only at h
    split at h
    · rename_i hij
      split at h
      · refine ih _ _ _ _ ⟨?_, ?_, ?_, hc.order, hc.same⟩ hm h
        · intro x hx
          by_cases e : x < i
          · exact hc.left x e
          · exact Or.inr (hm.1 0 x ((part_iff _ _ _ _).1 (skipPart_between _ _ _ _ _ _ (by omega) hx)))
        · intro x hx
          by_cases e : x < j
          · exact hc.right x e
          · exact Or.inr (hm.2 0 x ((part_iff _ _ _ _).1 (skipPart_between _ _ _ _ _ _ (by omega) hx)))
        · intro a ha
          have h1 := hc.before a ha
          have h2 := (skipPart_le s true 0 ((E.fnL.block 0).length - i) i).1
          have h3 := (skipPart_le s false 0 ((E.fnR.block 0).length - j) j).1
          exact ⟨by omega, by omega⟩
      · have hf := cmpInst_fields E s (0, i) (0, j)
        split at h
        · rename_i s1 heq
          rw [heq] at hf
          refine ih _ _ _ s1 ⟨?_, ?_, ?_, ?_, ?_⟩ (hm.congr hf.1 hf.2) h
          · intro x hx
            by_cases e : x < i
            · rcases hc.left x e with ⟨y, hy⟩ | hy
              · exact Or.inl ⟨y, List.mem_append_left _ hy⟩
              · exact Or.inr (by rw [hf.2]; exact hy)
            · have : x = i := by omega
              subst this
              exact Or.inl ⟨j, by simp⟩
          · intro y hy
            by_cases e : y < j
            · rcases hc.right y e with ⟨x, hx⟩ | hx
              · exact Or.inl ⟨x, List.mem_append_left _ hx⟩
              · exact Or.inr (by rw [hf.2]; exact hx)
            · have : y = j := by omega
              subst this
              exact Or.inl ⟨i, by simp⟩
          · intro a ha
            rcases List.mem_append.1 ha with ha | ha
            · have := hc.before a ha
              exact ⟨by omega, by omega⟩
            · rw [List.mem_singleton] at ha
              subst ha
              exact ⟨Nat.lt_succ_self _, Nat.lt_succ_self _⟩
          · rw [List.pairwise_append]
            refine ⟨hc.order, List.pairwise_singleton _ _, ?_⟩
            intro a ha b hb
            rw [List.mem_singleton] at hb
            subst hb
            exact hc.before a ha
          · intro pl pr hp
            rcases List.mem_append.1 hp with hp | hp
            · exact hc.same pl pr hp
            · rw [List.mem_singleton] at hp
              cases hp
              exact cusInst_same heq
        · rename_i s1 heq
          rw [heq] at hf
          split at h
          · exact nomatch h
          · split at h
            · exact nomatch h
            · rename_i s2 hmp
              obtain ⟨hm2, hlog⟩ := matchPattern_covered hV (hm.congr hf.1 hf.2) hmp
              have hcf := createMapping_fields (s2.undo (0, i) (0, j)).mappings (s2.undo (0, i) (0, j))
              have hlog' : ∀ m ∈ s.log, m ∈ (createMapping (s2.undo (0, i) (0, j)).mappings (s2.undo (0, i) (0, j))).log := by
                intro m hm'
                rw [hcf.2]
                exact hlog m (by rw [hf.2]; exact hm')
              refine ih _ _ _ _ ⟨?_, ?_, hc.before, hc.order, hc.same⟩ (hm2.congr hcf.1 hcf.2) h
              · intro x hx
                exact (hc.left x hx).imp_right (covered_mono hlog' (0, x)).1
              · intro x hx
                exact (hc.right x hx).imp_right (covered_mono hlog' (0, x)).2
    · split at h
      · exact nomatch h
      · rename_i h1 h2
        cases h
        simp only [not_or, Nat.not_lt] at h2
        exact ⟨fun x hx => hc.left x (Nat.lt_of_lt_of_le hx h2.1), fun x hx => hc.right x (Nat.lt_of_lt_of_le hx h2.2),
          hc.order, hc.same⟩

/-- C120: if the entry blocks of two functions are found equal, every instruction of each of them is found equal to one of
the other, in the same order and with the same operation, or it is in a match of a pattern. -/
theorem C120_coverage (E : CusEnv) (fuel : Nat) (aligned : List (Pos × Pos)) (s : CSt)
    (hV : ∀ P ∈ E.values, ProperNames P) (h : E.compareEntry fuel = some (.equal aligned s)) :
    BlocksCorrespond E s.log aligned :=
  cmpBlock_corr hV fuel 0 0 [] E.init
    ⟨fun x hx => by omega, fun x hx => by omega, fun a ha => (nomatch ha), List.Pairwise.nil, fun _ _ h => (nomatch h)⟩
    ⟨fun _ _ h => (nomatch h), fun _ _ h => (nomatch h)⟩ aligned s h

example : (∀ P ∈ outEnv.values, ProperNames P) ∧ ∃ s, outEnv.compareEntry 20 =
    some (.equal [((0, 2), (0, 2)), ((0, 3), (0, 3))] s) := by
  refine ⟨fun P hP => (nomatch hP), ?_⟩
  obtain ⟨s, hs, _⟩ := isEqual_iff (o := outEnv.compareEntry 20) (al := [((0, 2), (0, 2)), ((0, 3), (0, 3))])
    (log := [([((0, 0), (0, 0)), ((0, 1), (0, 1))], [((0, 0), (0, 0)), ((0, 1), (0, 1))])]) (by decide +kernel)
  exact ⟨s, hs⟩

end DK
