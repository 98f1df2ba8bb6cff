import Verif.Lemmas.CustomPatterns
import Verif.Props.Text

/-! Lemmas on matches of a pattern: which instructions are matched, and what a match says. -/

set_option autoImplicit false

namespace DK

theorem plookup_mem' {α β : Type} [BEq α] [LawfulBEq α] {k : α} {v : β} {m : List (α × β)} (h : m.lookup k = some v) :
    (k, v) ∈ m := by
  induction m with
  | nil => exact nomatch h
  | cons x t ih =>
    obtain ⟨a, b⟩ := x
    rw [List.lookup_cons] at h
    split at h
    · rename_i e
      cases h
      rw [eq_of_beq e]
      exact List.mem_cons_self ..
    · exact List.mem_cons_of_mem _ (ih h)

/-! ### Patterns with one block -/

/-- The pattern has no successors after its entry block. -/
def OneBlock (S : PSide) : Prop := S.fn.succsOf 0 = [] ∧ S.start.1 = 0

theorem OneBlock.single {S : PSide} (h : OneBlock S) : S.fn.single 0 = none := by
  unfold CusFun.single; rw [h.1]

theorem OneBlock.last {S : PSide} (h : OneBlock S) (j : Nat) (p : CusInst) (hp : (S.fn.block 0)[j]? = some p)
    (ht : S.fn.isTerm 0 j = true) : p.succs = [] := by
  have h1 := h.1
  unfold CusFun.succsOf at h1
  unfold CusFun.isTerm at ht
  simp only [decide_eq_true_eq] at ht
  have : (S.fn.block 0).getLast? = some p := by
    rw [List.getLast?_eq_getElem?, ← ht]; simpa using hp
  rw [this] at h1
  exact h1

/-- The instructions of the pattern from its start to `j` are matched. -/
def Cov (S : PSide) (s : PCmp) (j : Nat) : Prop :=
  S.start.2 ≤ j ∧ ∀ k, S.start.2 ≤ k → k < j → ∃ m, ((0, k), m) ∈ s.matched

theorem Cov.kept {S : PSide} {s s' : PCmp} {j : Nat} (h : Cov S s j) (hk : Kept s.matched s'.matched) : Cov S s' j := by
  refine ⟨h.1, fun k h1 h2 => ?_⟩
  obtain ⟨m, hm⟩ := h.2 k h1 h2
  exact hk _ _ hm

theorem Cov.step {S : PSide} {s : PCmp} {j : Nat} (h : Cov S s j) {m : Pos} (hm : ((0, j), m) ∈ s.matched) :
    Cov S s (j + 1) := by
  refine ⟨Nat.le_succ_of_le h.1, fun k h1 h2 => ?_⟩
  by_cases e : k = j
  · subst e; exact ⟨m, hm⟩
  · exact h.2 k h1 (by omega)

/-- The comparison has come to an end of the pattern. -/
def AtEnd (S : PSide) (s : PCmp) : Prop :=
  ∃ j, Cov S s j ∧ ((S.meta 0 j).stop = true ∨ (S.fn.block 0).length ≤ j)

theorem AtEnd.kept {S : PSide} {s s' : PCmp} (h : AtEnd S s) (hk : Kept s.matched s'.matched) : AtEnd S s' := by
  obtain ⟨j, h1, h2⟩ := h
  exact ⟨j, h1.kept hk, h2⟩

theorem AtEnd.allMatched {S : PSide} {s : PCmp} (h : AtEnd S s) : Spec.AllMatched S s.matched := by
  obtain ⟨j', h1, h2⟩ := h
  intro j hj hl hs
  refine h1.2 j hj ?_
  by_contra hlt
  rcases h2 with h2 | h2
  · unfold PSide.meta at h2
    cases hm : S.mds.lookup (0, j') with
    | none => rw [hm] at h2; exact nomatch h2
    | some m =>
      rw [hm, Option.getD_some] at h2
      rw [hs j' h1.1 (by omega) m (plookup_mem' hm)] at h2
      exact nomatch h2
  · have : (S.fn.block 0).length = (S.fn.blocks.getD 0 []).length := rfl
    omega

theorem cmpBlock_cov (E : PEnv) (ho : OneBlock E.side) (mb first : Nat) (ms : List CusInst) (i j : Nat) (s : PCmp)
    (hj : Cov E.side s j) (hp : Cov E.side s s.patPos.2) (hp1 : s.patPos.1 = 0) :
    ((E.cmpBlock mb 0 first ms i j s).1 = true → AtEnd E.side (E.cmpBlock mb 0 first ms i j s).2) ∧
    ((E.cmpBlock mb 0 first ms i j s).1 = false →
      Cov E.side (E.cmpBlock mb 0 first ms i j s).2 (E.cmpBlock mb 0 first ms i j s).2.patPos.2 ∧
      (E.cmpBlock mb 0 first ms i j s).2.patPos.1 = 0) := by
  induction ms generalizing i j s with
  | nil =>
    unfold PEnv.cmpBlock
    refine ⟨fun h => ⟨j, hj, .inr (of_decide_eq_true h)⟩, fun _ => ⟨hp, hp1⟩⟩
  | cons m rest ih =>
    unfold PEnv.cmpBlock
    split
    · exact ⟨fun h => (nomatch h), fun _ => ⟨hp, hp1⟩⟩
    · rename_i p hpj
      dsimp only
      split
      · rename_i hs
        exact ⟨fun _ => ⟨j, hj, .inl hs⟩, fun h => (nomatch h)⟩
      · split
        · exact ⟨fun h => (nomatch h), fun _ => ⟨hj, rfl⟩⟩
        · split
          · rename_i ht
            simp only [Bool.and_eq_true] at ht
            have hz := ho.last j p hpj ht.2
            split
            · rename_i hs; rw [hz] at hs; exact nomatch hs
            · generalize hsx : ({ s with modPos := (mb, (E.modFn.block mb).length - 1), patPos := (0, j) } : PCmp) = sx
              have hcx : Cov E.side sx j := by rw [← hsx]; exact hj
              obtain ⟨_, h2, _, _, _, h6, h7⟩ := cmpInst_spec E sx (mb, (E.modFn.block mb).length - 1) (0, j)
              have e2 : sx.patPos = (0, j) := by rw [← hsx]
              split
              · rename_i s2 heq
                rw [heq] at h2 h6
                dsimp only at h2 h6
                refine ⟨fun h => (nomatch h), fun _ => ?_⟩
                have : s2.eraseNew.patPos = (0, j) := by show s2.patPos = _; rw [h2, e2]
                rw [this]
                refine ⟨hcx.kept ?_, rfl⟩
                show Kept _ s2.matched
                rw [h6 rfl]; exact Kept.refl _
              · rename_i s2 heq
                rw [heq] at h7
                dsimp only at h7
                obtain ⟨hm, _⟩ := h7 rfl
                refine ⟨fun _ => ⟨j + 1, ?_, .inr ?_⟩, fun h => (nomatch h)⟩
                · have hk : Cov E.side (s2.group (E.side.meta 0 j)) j := hcx.kept (by
                    show Kept _ s2.matched
                    rw [hm]; exact Kept.set _ _ _)
                  refine hk.step (m := (mb, (E.modFn.block mb).length - 1)) ?_
                  show _ ∈ s2.matched
                  rw [hm]; exact (mem_mapSet _ _ _ _).2 (.inr rfl)
                · have := ht.2
                  unfold CusFun.isTerm at this
                  simp only [decide_eq_true_eq] at this
                  omega
          · generalize hsx : ({ s with modPos := (mb, i), patPos := (0, j) } : PCmp) = sx
            have hcx : Cov E.side sx j := by rw [← hsx]; exact hj
            obtain ⟨_, h2, _, _, _, h6, h7⟩ := cmpInst_spec E sx (mb, i) (0, j)
            have e2 : sx.patPos = (0, j) := by rw [← hsx]
            split
            · rename_i s2 heq
              rw [heq] at h2 h6
              dsimp only at h2 h6
              have hpp : s2.eraseNew.patPos = (0, j) := by show s2.patPos = _; rw [h2, e2]
              have hk : Cov E.side s2.eraseNew j := hcx.kept (by
                show Kept _ s2.matched
                rw [h6 rfl]; exact Kept.refl _)
              split
              · refine ⟨fun h => (nomatch h), fun _ => ?_⟩
                rw [hpp]; exact ⟨hk, rfl⟩
              · exact ih _ _ _ hk (by rw [hpp]; exact hk) (by rw [hpp])
            · rename_i s2 heq
              rw [heq] at h2 h7
              dsimp only at h2 h7
              obtain ⟨hm, _⟩ := h7 rfl
              have hpp : (s2.group (E.side.meta 0 j)).patPos = (0, j) := by show s2.patPos = _; rw [h2, e2]
              have hk : Cov E.side (s2.group (E.side.meta 0 j)) j := hcx.kept (by
                show Kept _ s2.matched
                rw [hm]; exact Kept.set _ _ _)
              refine ih _ _ _ (hk.step (m := (mb, i)) ?_) (by rw [hpp]; exact hk) (by rw [hpp])
              show _ ∈ s2.matched
              rw [hm]; exact (mem_mapSet _ _ _ _).2 (.inr rfl)

theorem chain_cov (E : PEnv) (ho : OneBlock E.side) (fuel mb : Nat) (v : Visit) (s : PCmp)
    (hp : Cov E.side s s.patPos.2) (hp1 : s.patPos.1 = 0) (x : Nat × Nat × Visit)
    (hr : (E.chain fuel mb 0 v s).1 = some x) : AtEnd E.side (E.chain fuel mb 0 v s).2 ∧ x.2.1 = 0 := by
  induction fuel generalizing mb v s with
  | zero => exact nomatch hr
  | succ n ih =>
    unfold PEnv.chain at hr ⊢
    rw [ho.single] at hr ⊢
    dsimp only at hr ⊢
    generalize hs0 : ({ s with modPos := if s.modPos.1 ≠ mb then (mb, 0) else s.modPos
                               patPos := if s.patPos.1 ≠ 0 then (0, 0) else s.patPos } : PCmp) = s0 at hr ⊢
    have e0 : s0.patPos = s.patPos := by rw [← hs0]; dsimp only; rw [hp1]; simp
    have hc0 : Cov E.side s0 s0.patPos.2 := by rw [e0, ← hs0]; exact hp
    have hc := cmpBlock_cov E ho mb s0.modPos.2 ((E.modFn.block mb).drop s0.modPos.2) s0.modPos.2 s0.patPos.2 s0
      hc0 hc0 (by rw [e0]; exact hp1)
    have hcb : E.cmpBlocks mb 0 s0 =
      E.cmpBlock mb 0 s0.modPos.2 ((E.modFn.block mb).drop s0.modPos.2) s0.modPos.2 s0.patPos.2 s0 := rfl
    rw [← hcb] at hc
    cases hb : E.cmpBlocks mb 0 s0 with
    | mk r s1 =>
      rw [hb] at hc hr
      dsimp only at hc
      cases r with
      | false =>
        dsimp only at hr ⊢
        split at hr
        · rename_i nx hnx
          split at hr
          · exact nomatch hr
          · rename_i hv
            rw [if_neg hv]
            exact ih nx _ _ (hc.2 rfl).1 (hc.2 rfl).2 hr
        · exact nomatch hr
      | true =>
        dsimp only at hr ⊢
        refine ⟨hc.1 rfl, ?_⟩
        cases hr; rfl

theorem matchPattern_allMatched (E : PEnv) (ho : OneBlock E.side) (start : Pos)
    (hr : (E.matchPattern start {}).1 = true) : AtEnd E.side (E.matchPattern start {}).2 := by
  unfold PEnv.matchPattern at hr ⊢
  rw [ho.2] at hr ⊢
  unfold PEnv.walk at hr ⊢
  have hv := cmpVal_spec E { modPos := start, patPos := E.side.start } (.blk start.1) (.blk 0)
  cases hb : E.cmpVal { modPos := start, patPos := E.side.start } (.blk start.1) (.blk 0) with
  | mk r s1 =>
    simp only [hb] at hr hv ⊢
    cases r with
    | false => exact nomatch hr
    | true =>
      dsimp only at hr hv ⊢
      have hc := chain_cov E ho (E.modFn.blocks.length + E.side.fn.blocks.length + 2) start.1 ⟨[start.1], [0]⟩
        { s1 with depth := 0 }
      have epp : s1.patPos = E.side.start := hv.2.2.1
      cases hch : E.chain (E.modFn.blocks.length + E.side.fn.blocks.length + 2) start.1 0 ⟨[start.1], [0]⟩
        { s1 with depth := 0 } with
      | mk r2 s2 =>
        rw [hch] at hc
        simp only [hch] at hr ⊢
        cases r2 with
        | none => exact nomatch hr
        | some x =>
          obtain ⟨mb, pb, v⟩ := x
          have hc := hc ⟨by show _ ≤ s1.patPos.2; rw [epp], fun k h1 h2 => by
            exfalso; have : k < s1.patPos.2 := h2; rw [epp] at this; omega⟩ (by show s1.patPos.1 = 0; rw [epp]; exact ho.2) _ rfl
          dsimp only at hc hr ⊢
          obtain ⟨ha, hpb⟩ := hc
          subst hpb
          rw [ho.1]
          simp only [List.isEmpty_nil, Bool.or_true, if_true]
          cases E.modFn.blocks.length <;> exact ha

theorem compare_allMatched (E : PEnv) (ho : OneBlock E.side) (start : Pos) (hr : (E.compare start).1 = true) :
    AtEnd E.side (E.compare start).2 := by
  obtain ⟨h1, _, h3⟩ := compare_grow E start hr
  exact (matchPattern_allMatched E ho start h1).kept h3.2.2

/-! ### The first instruction -/

/-- In a program of one block, a match contains the instruction at which it starts. -/
theorem cmpBlock_first (E : PEnv) (mb pb i j : Nat) (m : CusInst) (rest : List CusInst) (s : PCmp) (hi : PInv E s)
    (hs : (E.side.meta pb j).stop = false) (ht : E.side.fn.isTerm pb j = false)
    (hr : (E.cmpBlock mb pb i (m :: rest) i j s).1 = true) :
    ∃ s1, ((pb, j), (mb, i)) ∈ s1.matched ∧ PGrow E s1 (E.cmpBlock mb pb i (m :: rest) i j s).2 ∧ PInv E s1 := by
  unfold PEnv.cmpBlock at hr ⊢
  split at hr
  · exact nomatch hr
  · rename_i p hpj
    dsimp only at hr ⊢
    rw [hs, ht] at hr ⊢
    simp only [Bool.false_eq_true, if_false, Bool.and_false, or_true, if_true] at hr ⊢
    split at hr
    · exact nomatch hr
    · rename_i hne
      rw [if_neg hne]
      have h7 := (cmpInst_spec E { s with modPos := (mb, i), patPos := (pb, j) } (mb, i) (pb, j)).2.2.2.2.2.2
      have hg := cmpInst_grow E { s with modPos := (mb, i), patPos := (pb, j) } (mb, i) (pb, j) hi
      cases hc : E.cmpInst { s with modPos := (mb, i), patPos := (pb, j) } (mb, i) (pb, j) with
      | mk r s2 =>
        rw [hc] at hr h7 hg
        cases r with
        | false => exact nomatch hr
        | true =>
          dsimp only at h7 hg ⊢
          have hi2 : PInv E (s2.group (E.side.meta pb j)) := (hg rfl).1
          refine ⟨s2.group (E.side.meta pb j), ?_, cmpBlock_grow E _ _ _ _ _ _ _ hi2, hi2⟩
          show _ ∈ s2.matched
          rw [(h7 rfl).1]
          exact (mem_mapSet _ _ _ _).2 (.inr rfl)

theorem chain_first (E : PEnv) (fuel mb pb : Nat) (v : Visit) (s : PCmp) (hi : PInv E s) (i j : Nat)
    (hmp : s.modPos = (mb, i)) (hpp : s.patPos = (pb, j)) (hl : i < (E.modFn.block mb).length)
    (hm : E.modFn.single mb = none)
    (hs : (E.side.meta pb j).stop = false) (ht : E.side.fn.isTerm pb j = false) (x : Nat × Nat × Visit)
    (hr : (E.chain fuel mb pb v s).1 = some x) :
    ∃ s1, ((pb, j), (mb, i)) ∈ s1.matched ∧ PInv E s1 ∧ PGrow E s1 (E.chain fuel mb pb v s).2 := by
  cases fuel with
  | zero => exact nomatch hr
  | succ n =>
    unfold PEnv.chain at hr ⊢
    rw [hm] at hr ⊢
    dsimp only at hr ⊢
    have h0 : ({ s with modPos := if s.modPos.1 ≠ mb then (mb, 0) else s.modPos
                        patPos := if s.patPos.1 ≠ pb then (pb, 0) else s.patPos } : PCmp) = s := by
      rw [hmp, hpp]; simp only [ne_eq, not_true_eq_false, if_false]; rw [← hmp, ← hpp]
    rw [h0] at hr ⊢
    obtain ⟨m, rest, hd⟩ : ∃ m rest, (E.modFn.block mb).drop i = m :: rest :=
      ⟨_, _, List.drop_eq_getElem_cons hl⟩
    have hcb : E.cmpBlocks mb pb s = E.cmpBlock mb pb i (m :: rest) i j s := by
      unfold PEnv.cmpBlocks; rw [hmp, hpp]; dsimp only; rw [hd]
    have hf := cmpBlock_first E mb pb i j m rest s hi hs ht
    rw [← hcb] at hf
    cases hb : E.cmpBlocks mb pb s with
    | mk r s1 =>
      rw [hb] at hf hr
      cases r with
      | false => exact nomatch hr
      | true =>
        obtain ⟨s0, f1, f2, f3⟩ := hf rfl
        refine ⟨s0, f1, f3, ?_⟩
        dsimp only at f2 ⊢
        split
        · split
          · exact f2
          · split
            · exact f2
            · rename_i nx _ _ _
              have h1 : PGrow E s0 { s1 with patPos := (nx, 0) } := f2
              exact h1.trans (chain_grow E _ _ _ _ _ h1.1)
        · exact f2

theorem matchPattern_first (E : PEnv) (start : Pos) (hl : start.2 < (E.modFn.block start.1).length)
    (hm : E.modFn.single start.1 = none) (hs : (E.side.meta E.side.start.1 E.side.start.2).stop = false)
    (ht : E.side.fn.isTerm E.side.start.1 E.side.start.2 = false) (hr : (E.matchPattern start {}).1 = true) :
    ∃ s1, (E.side.start, start) ∈ s1.matched ∧ PInv E s1 ∧ PGrow E s1 (E.matchPattern start {}).2 := by
  unfold PEnv.matchPattern at hr ⊢
  unfold PEnv.walk at hr ⊢
  have hv := cmpVal_spec E { modPos := start, patPos := E.side.start } (.blk start.1) (.blk E.side.start.1)
  have hg := cmpVal_grow E { modPos := start, patPos := E.side.start } (.blk start.1) (.blk E.side.start.1)
    (fun x hx => nomatch hx)
  cases hb : E.cmpVal { modPos := start, patPos := E.side.start } (.blk start.1) (.blk E.side.start.1) with
  | mk r s1 =>
    rw [hb] at hg
    simp only [hb] at hr hv ⊢
    cases r with
    | false => exact nomatch hr
    | true =>
      dsimp only at hr hv hg ⊢
      have hc := chain_first E (E.modFn.blocks.length + E.side.fn.blocks.length + 2) start.1 E.side.start.1
        ⟨[start.1], [E.side.start.1]⟩ { s1 with depth := 0 } hg.1 start.2 E.side.start.2 hv.2.1 hv.2.2.1 hl hm hs ht
      cases hch : E.chain (E.modFn.blocks.length + E.side.fn.blocks.length + 2) start.1 E.side.start.1
        ⟨[start.1], [E.side.start.1]⟩ { s1 with depth := 0 } with
      | mk r2 s2 =>
        rw [hch] at hc
        simp only [hch] at hr ⊢
        cases r2 with
        | none => exact nomatch hr
        | some x =>
          obtain ⟨s0, f1, f2, f3⟩ := hc x rfl
          refine ⟨s0, f1, f2, f3.trans ?_⟩
          dsimp only
          split
          · exact walk_grow E _ _ _ _ f3.1
          · exact walk_grow E _ _ _ _ f3.1

/-- If the first instruction of the pattern is an input, it stays matched to the instruction at which the
match starts. -/
theorem first_stays {E : PEnv} {s s' : PCmp} {start : Pos} (hm : (E.side.start, start) ∈ s.matched) (hi : PInv E s)
    (hg : PGrow E s s') (hin : CusVal.inst E.side.start.1 E.side.start.2 ∈ E.side.input) :
    (E.side.start, start) ∈ s'.matched := by
  obtain ⟨m', h'⟩ := hg.2.2 _ _ hm
  obtain ⟨_, _, _, _, _, _, a1, _⟩ := hi _ hm
  obtain ⟨_, _, _, _, _, _, a2, _⟩ := hg.1 _ h'
  have e1 := hg.2.1 _ _ (a1.2 hin)
  have e2 := a2.2 hin
  rw [e1] at e2
  have : start = m' := by
    have := Option.some.inj e2
    simp only [CusVal.inst.injEq] at this
    exact Prod.ext this.1 this.2
  rw [this]
  exact h'

/-! ### Occurrences -/

theorem namesMatch_agree {m n : Str} {isLeft : Bool} (h : namesMatch m n isLeft = true) :
    Spec.NamesAgree (sidePrefix isLeft) m n := by
  cases isLeft
  · exact (C38_names.2.2.2 m n).1 h
  · exact (C38_names.2.2.1 m n).1 h

theorem BaseOk.stands {E : PEnv} {a b : CusVal} (h : BaseOk E a b) {f : List (Pos × Pos)} {arg : Nat → Option CusVal}
    (hi : ∀ x y, b = .inst x y → ∀ q : Pos, ((x, y), q) ∈ f → a = .inst q.1 q.2)
    (ha : ∀ n, b = .arg n → arg n = some a) :
    Spec.Stands (sidePrefix E.isLeft) E.modFn E.side.fn f arg a b := by
  cases b with
  | inst x y => exact hi x y rfl
  | arg n => exact ha n rfl
  | const c ptr =>
    rcases h with ⟨v, w, _, h2⟩ | ⟨_, _, h3⟩ | ⟨_, h2⟩
    · exact nomatch h2
    · cases a <;> simp [constMatch] at h3
      show _ = _
      rw [h3.1, h3.2]
    · exact nomatch h2
  | glob n w =>
    rcases h with ⟨v, w', h1, h2⟩ | ⟨_, _, h3⟩ | ⟨_, h2⟩
    · cases h2
      exact ⟨_, _, h1, .inr ⟨rfl, rfl⟩⟩
    · cases a with
      | glob n' w' => exact ⟨n', w', rfl, .inl (namesMatch_agree h3)⟩
      | _ => exact nomatch h3
    · exact nomatch h2
  | blk x =>
    rcases h with ⟨v, w, _, h2⟩ | ⟨_, h2, _⟩ | ⟨h1, _⟩
    · exact nomatch h2
    · exact nomatch h2
    · exact h1

theorem zip_getElem? {α β : Type} (a : List α) (b : List β) (k : Nat) (x : α) (y : β) (h1 : a[k]? = some x)
    (h2 : b[k]? = some y) : (x, y) ∈ a.zip b := by
  refine List.mem_iff_getElem?.2 ⟨k, ?_⟩
  rw [List.getElem?_zip_eq_some]
  exact ⟨h1, h2⟩

/-- What the matched instructions of a side are. -/
theorem PInv.occurs {E : PEnv} {s : PCmp} (hi : PInv E s) (hin : ∀ n, n < E.side.fn.params.length → .arg n ∈ E.side.input)
    (hf : Spec.OperandsInside E.side.fn) :
    Spec.PatOccursOn (· ∈ E.side.input) (sidePrefix E.isLeft) E.modFn E.side.fn s.matched
      (fun n => s.patIn.lookup (.arg n)) := by
  intro p m hm
  obtain ⟨ip, im, h1, h2, h3, h4, h5, h6⟩ := hi _ hm
  refine ⟨ip, im, h1, h2, h3, h4, ?_⟩
  intro k a b ha hb hI
  have hq := h6 (a, b) (zip_getElem? _ _ k a b ha hb)
  refine hq.1.stands ?_ ?_
  · intro x y e q hq'
    subst e
    have hbI := hI x y rfl
    obtain ⟨_, _, _, _, _, _, a2, _⟩ := hi _ hq'
    have e1 := hq.2 hbI
    have e2 := a2.2 hbI
    dsimp only at e1 e2
    rw [e1] at e2
    exact Option.some.inj e2
  · intro n e
    subst e
    exact hq.2 (hin n ((hf p ip h1).1 n (List.mem_of_getElem? hb)))

/-! ### Matches on both sides -/

/-- A match of a pattern from two positions: what the comparisons of the sides gave, and that the inputs
were found valid. -/
structure IsMatch (E : CusEnv) (pl pr : Pos) (s : CSt) (P : InstPat) (bl br cl cr : PCmp) : Prop where
  left : (E.envL P).compare pl = (true, bl)
  right : (E.envR P).compare pr = (true, br)
  valid : inputsValid (E.envL P) (E.envR P) s (List.range P.left.fn.params.length) bl br = (true, cl, cr)

theorem matchInst_some (E : CusEnv) (pl pr : Pos) (s s' : CSt) (l : List InstPat)
    (h : E.matchInst pl pr s l = some s') :
    ∃ P ∈ l, ∃ bl br cl cr, IsMatch E pl pr s P bl br cl cr ∧ s' = processMatch P cl cr s := by
  induction l with
  | nil => exact nomatch h
  | cons P r ih =>
    unfold CusEnv.matchInst at h
    have up : (∃ Q ∈ r, ∃ bl br cl cr, IsMatch E pl pr s Q bl br cl cr ∧ s' = processMatch Q cl cr s) →
        ∃ Q ∈ P :: r, ∃ bl br cl cr, IsMatch E pl pr s Q bl br cl cr ∧ s' = processMatch Q cl cr s :=
      fun ⟨Q, hQ, x⟩ => ⟨Q, List.mem_cons_of_mem _ hQ, x⟩
    split at h
    · rename_i bl br hl hr
      split at h
      · rename_i cl cr hv
        cases h
        exact ⟨P, List.mem_cons_self .., bl, br, cl, cr, ⟨hl, hr, hv⟩, rfl⟩
      · exact up (ih h)
    · exact up (ih h)

theorem IsMatch.grow {E : CusEnv} {pl pr : Pos} {s : CSt} {P : InstPat} {bl br cl cr : PCmp}
    (h : IsMatch E pl pr s P bl br cl cr) :
    PInv (E.envL P) bl ∧ PInv (E.envR P) br ∧ PGrow (E.envL P) bl cl ∧ PGrow (E.envR P) br cr := by
  have h1 := (compare_grow (E.envL P) pl (by rw [h.left])).2.2
  have h2 := (compare_grow (E.envR P) pr (by rw [h.right])).2.2
  rw [h.left] at h1
  rw [h.right] at h2
  have h3 := inputsValid_inv (E.envL P) (E.envR P) s (List.range P.left.fn.params.length) bl br h1.1 h2.1
  rw [h.valid] at h3
  exact ⟨h1.1, h2.1, h3.1, h3.2⟩

theorem byMapping_same {s : CSt} {l r : CusVal} (h : s.byMapping l r = true) : Spec.SameNumber s l r := by
  unfold CSt.byMapping at h
  split at h
  · rename_i a b ha hb
    simp only [decide_eq_true_eq] at h
    subst h
    exact ⟨a, ha, hb⟩
  · exact nomatch h

theorem inputLoop_maps (E : PEnv) (mv pv : CusVal) (fuel : Nat) (x : CusVal × CusVal) (seen : List CusVal)
    (s : PCmp) (hi : PInv E s) (hp : ∀ m', s.patIn.lookup pv = some m' → m' = mv) :
    (E.inputLoop mv pv (fuel + 1) [x] seen s).2.patIn.lookup pv = some mv := by
  obtain ⟨m, p⟩ := x
  unfold PEnv.inputLoop
  dsimp only
  generalize hs1 : ({ s with patIn := mapSet pv mv s.patIn, modIn := mapSet mv pv s.modIn } : PCmp) = s1
  have e1 : PinExt s.patIn s1.patIn := by rw [← hs1]; exact PinExt.set hp
  have hl : s1.patIn.lookup pv = some mv := by rw [← hs1]; dsimp only; rw [plookup_mapSet]; simp
  have hi1 : PInv E s1 := by
    intro x hx
    have : x ∈ s.matched := by rw [← hs1] at hx; exact hx
    exact (hi x this).mono e1
  have hu := userLoop_inv E (E.modFn.users m) ((E.modFn.users m).length + (E.side.fn.users p).length)
    (E.modFn.users m) (E.side.fn.users p) (mv :: seen) [] s1 hi1
  split
  · have := fun w v => inputLoop_inv E mv pv fuel w v _ hu.1
      (fun m' h => by rw [hu.2.1 _ _ hl] at h; exact (Option.some.inj h).symm)
    exact (this _ _).2.1 _ _ (hu.2.1 _ _ hl)
  · exact hu.2.1 _ _ hl

theorem cmpInput_maps (E : PEnv) (s : PCmp) (mv : Option CusVal) (pv : CusVal) (hi : PInv E s)
    (h : (E.cmpInput s mv pv).1 = true) :
    ∃ v, mv = some v ∧ (E.cmpInput s mv pv).2.patIn.lookup pv = some v := by
  unfold PEnv.cmpInput at h ⊢
  split at h
  · exact nomatch h
  · rename_i v
    refine ⟨v, rfl, ?_⟩
    split at h
    · rename_i m hm
      simp only [decide_eq_true_eq] at h
      subst h
      exact hm
    · rename_i hm
      have hi' : PInv E s.begin := hi
      exact inputLoop_maps E v pv _ _ _ s.begin hi' (fun m' h' => by
        have : s.begin.patIn = s.patIn := rfl
        rw [this, hm] at h'; exact nomatch h')

/-- An argument of the pattern that one side has mapped before the check is mapped by both sides afterwards, to values
with the same number, or to values that were found for each other. -/
theorem inputsValid_same (EL ER : PEnv) (s : CSt) (ns : List Nat) (cl cr : PCmp) (hl : PInv EL cl) (hr : PInv ER cr)
    (h : (inputsValid EL ER s ns cl cr).1 = true) :
    ∀ n ∈ ns, ((cl.patIn.lookup (.arg n)).isSome ∨ (cr.patIn.lookup (.arg n)).isSome) →
      ∃ l r, (inputsValid EL ER s ns cl cr).2.1.patIn.lookup (.arg n) = some l ∧
        (inputsValid EL ER s ns cl cr).2.2.patIn.lookup (.arg n) = some r ∧
        (Spec.SameNumber s l r ∨ s.other l true = some r ∨ s.other r false = some l) := by
  induction ns generalizing cl cr with
  | nil => exact fun n hn => nomatch hn
  | cons n t ih =>
    intro k hk h12
    unfold inputsValid at h ⊢
    split at h
    · rename_i l' r' e1 e2
      split at h
      · rename_i hb
        rw [if_pos hb]
        rcases List.mem_cons.1 hk with e | e
        · subst e
          have hg := inputsValid_inv EL ER s t cl cr hl hr
          exact ⟨l', r', hg.1.2.1 _ _ e1, hg.2.2.1 _ _ e2, .inl (byMapping_same hb)⟩
        · exact ih cl cr hl hr h k e h12
      · exact nomatch h
    · rename_i l' e1 e2
      have hg := cmpInput_inv ER cr (s.other l' true) (.arg n) hr
      have hm := cmpInput_maps ER cr (s.other l' true) (.arg n) hr
      split at h
      · rename_i cr1 heq
        rw [heq] at hg hm
        obtain ⟨v, hv1, hv2⟩ := hm rfl
        rcases List.mem_cons.1 hk with e | e
        · subst e
          have hg2 := inputsValid_inv EL ER s t cl cr1 hl hg.1
          exact ⟨l', v, hg2.1.2.1 _ _ e1, hg2.2.2.1 _ _ hv2, .inr (.inl hv1)⟩
        · refine ih cl cr1 hl hg.1 h k e (h12.imp id fun h' => ?_)
          obtain ⟨w, hw⟩ := Option.isSome_iff_exists.1 h'
          rw [hg.2.1 _ _ hw]; rfl
      · exact nomatch h
    · rename_i r' e1 e2
      have hg := cmpInput_inv EL cl (s.other r' false) (.arg n) hl
      have hm := cmpInput_maps EL cl (s.other r' false) (.arg n) hl
      split at h
      · rename_i cl1 heq
        rw [heq] at hg hm
        obtain ⟨v, hv1, hv2⟩ := hm rfl
        rcases List.mem_cons.1 hk with e | e
        · subst e
          have hg2 := inputsValid_inv EL ER s t cl1 cr hg.1 hr
          exact ⟨v, r', hg2.1.2.1 _ _ hv2, hg2.2.2.1 _ _ e2, .inr (.inr hv1)⟩
        · refine ih cl1 cr hg.1 hr h k e (h12.imp (fun h' => ?_) id)
          obtain ⟨w, hw⟩ := Option.isSome_iff_exists.1 h'
          rw [hg.2.1 _ _ hw]; rfl
      · exact nomatch h
    · rename_i e1 e2
      rcases List.mem_cons.1 hk with e | e
      · subst e
        rw [e1, e2] at h12
        rcases h12 with h' | h' <;> exact nomatch h'
      · exact ih cl cr hl hr h k e h12

theorem other_same {s : CSt} (hs : Spec.PairsAgree s) {l r : CusVal} :
    (s.other l true = some r → Spec.SameNumber s l r) ∧ (s.other r false = some l → Spec.SameNumber s l r) := by
  constructor
  · intro h
    unfold CSt.other at h
    simp only [if_true] at h
    split at h
    · exact nomatch h
    · rename_i n hn
      split at h
      · exact nomatch h
      · rename_i p hp
        obtain ⟨h1, h2⟩ := hs.1 l n hn p hp
        cases h
        refine ⟨n, hn, ?_⟩
        rw [← h1]; exact h2
  · intro h
    unfold CSt.other at h
    simp only [Bool.false_eq_true, if_false] at h
    split at h
    · exact nomatch h
    · rename_i n hn
      split at h
      · exact nomatch h
      · rename_i p hp
        obtain ⟨h1, h2⟩ := hs.2 r n hn p hp
        cases h
        refine ⟨n, ?_, hn⟩
        rw [← h1]; exact h2

/-! ### The comparison of blocks -/

theorem tryValues_fields (E : CusEnv) (s : CSt) (l r : CusVal) :
    (E.tryValues s l r).2.all = s.all ∧ (E.tryValues s l r).2.log = s.log ∧
    (E.tryValues s l r).2.snL = s.snL ∧ (E.tryValues s l r).2.snR = s.snR := by
  unfold CusEnv.tryValues; split <;> exact ⟨rfl, rfl, rfl, rfl⟩

theorem cmpVal_fields (E : CusEnv) (s : CSt) (l r : CusVal) :
    (E.cmpVal s l r).2.all = s.all ∧ (E.cmpVal s l r).2.log = s.log := by
  have ht := fun s' => tryValues_fields E s' l r
  unfold CusEnv.cmpVal
  dsimp only
  repeat' split
  all_goals first
    | exact ⟨rfl, rfl⟩
    | exact ⟨(ht _).1, (ht _).2.1⟩

theorem cmpArgs_fields (E : CusEnv) (l : List (CusVal × CusVal)) (s : CSt) :
    (E.cmpArgs l s).2.all = s.all ∧ (E.cmpArgs l s).2.log = s.log := by
  induction l generalizing s with
  | nil => exact ⟨rfl, rfl⟩
  | cons q t ih =>
    obtain ⟨a, b⟩ := q
    unfold CusEnv.cmpArgs
    have h := cmpVal_fields E s a b
    split
    · rename_i s1 heq
      rw [heq] at h
      exact ⟨(ih s1).1.trans h.1, (ih s1).2.trans h.2⟩
    · rename_i s1 heq
      rw [heq] at h
      exact h

theorem cmpInst_fields (E : CusEnv) (s : CSt) (pl pr : Pos) :
    (E.cmpInst s pl pr).2.all = s.all ∧ (E.cmpInst s pl pr).2.log = s.log := by
  unfold CusEnv.cmpInst
  split
  · have h := cmpVal_fields E s (.inst pl.1 pl.2) (.inst pr.1 pr.2)
    split
    · rename_i s1 heq; rw [heq] at h; exact h
    · rename_i s1 heq
      rw [heq] at h
      split
      · exact h
      · have h2 := fun l => cmpArgs_fields E l s1
        exact ⟨(h2 _).1.trans h.1, (h2 _).2.trans h.2⟩
  · exact ⟨rfl, rfl⟩

theorem createMapping_fields (l : List (Ref × Ref)) (s : CSt) :
    (createMapping l s).all = s.all ∧ (createMapping l s).log = s.log := by
  induction l generalizing s with
  | nil => exact ⟨rfl, rfl⟩
  | cons q t ih =>
    obtain ⟨a, b⟩ := q
    unfold createMapping
    split
    · exact ih s
    · have := ih { s with
        mapped := mapSet s.snL.length (a, b) s.mapped
        snL := s.snL ++ [(a, s.snL.length)]
        snR := s.snR ++ [(b, s.snR.length)] }
      exact this

theorem matchValue_some (E : CusEnv) (pl pr : Pos) (s s' : CSt) (l : List ValPat) (h : E.matchValue pl pr s l = some s') :
    s'.log = s.log ∧ (∀ x ∈ s.all, x ∈ s'.all) ∧
    ((true, CusVal.inst pl.1 pl.2) ∈ s'.all ∨ (false, CusVal.inst pr.1 pr.2) ∈ s'.all) := by
  induction l with
  | nil => exact nomatch h
  | cons P r ih =>
    unfold CusEnv.matchValue at h
    dsimp only at h
    split at h
    · rename_i hm
      cases h
      refine ⟨rfl, fun x hx => by simp [hx], ?_⟩
      simp only [Bool.or_eq_true] at hm
      rcases hm with hm | hm
      · left; simp [hm]
      · right; simp [hm]
    · exact ih h

/-- What holds of every match holds of the logged ones. -/
theorem cmpBlock_log (E : CusEnv) (Q : PatMatch → Prop)
    (hQ : ∀ pl pr s P bl br cl cr, P ∈ E.insts → IsMatch E pl pr s P bl br cl cr → Q ⟨P, cl.matched, cr.matched⟩)
    (b b' fuel i j : Nat) (done : List (Pos × Pos)) (s : CSt) (hs : ∀ m ∈ s.log, Q m) (al : List (Pos × Pos)) (s' : CSt)
    (h : E.cmpBlock b b' fuel i j done s = some (.equal al s')) : ∀ m ∈ s'.log, Q m := by
  induction fuel generalizing i j done s with
  | zero => exact nomatch h
  | succ n ih =>
    unfold CusEnv.cmpBlock at h
    dsimp only at h
    split at h
    · split at h
      · exact ih _ _ _ _ hs h
      · have hf := cmpInst_fields E s (b, i) (b', j)
        split at h
        · rename_i s1 heq
          rw [heq] at hf
          exact ih _ _ _ s1 (by rw [hf.2]; exact hs) h
        · rename_i s1 heq
          rw [heq] at hf
          have hs1 : ∀ m ∈ s1.log, Q m := by rw [hf.2]; exact hs
          split at h
          · exact nomatch h
          · split at h
            · exact nomatch h
            · rename_i s2 hm
              refine ih _ _ _ _ ?_ h
              rw [(createMapping_fields _ _).2]
              show ∀ m ∈ s2.log, Q m
              unfold CusEnv.matchPattern at hm
              split at hm
              · rename_i s3 hmi
                cases hm
                obtain ⟨P, hP, bl, br, cl, cr, hM, rfl⟩ := matchInst_some E _ _ _ _ _ hmi
                intro m hmm
                rcases List.mem_append.1 hmm with hmm | hmm
                · exact hs1 m hmm
                · rw [List.mem_singleton] at hmm
                  subst hmm
                  exact hQ _ _ _ _ _ _ _ _ hP hM
              · rw [(matchValue_some E _ _ _ _ _ hm).1]; exact hs1
    · split at h
      · exact nomatch h
      · cases h; exact hs

/-! ### Termination -/

theorem skipPart_le (s : CSt) (f : Bool) (b k i : Nat) : i ≤ skipPart s f b k i ∧ skipPart s f b k i ≤ i + k := by
  induction k generalizing i with
  | zero => exact ⟨Nat.le_refl _, Nat.le_refl _⟩
  | succ n ih =>
    unfold skipPart
    have := ih (i + 1)
    split <;> omega

theorem skipPart_lt (s : CSt) (f : Bool) (b k i : Nat) (hk : 0 < k) (hp : s.part f b i = true) :
    i + 1 ≤ skipPart s f b k i := by
  cases k with
  | zero => omega
  | succ n =>
    unfold skipPart
    rw [if_pos hp]
    exact (skipPart_le s f b n (i + 1)).1

theorem part_iff (s : CSt) (f : Bool) (b i : Nat) : s.part f b i = true ↔ (f, CusVal.inst b i) ∈ s.all := by
  unfold CSt.part; exact decide_eq_true_iff

/-- If every match at two positions contains one of them, the comparison of two blocks ends. -/
theorem cmpBlock_ends (E : CusEnv) (b b' : Nat)
    (hM : ∀ i j s s', i < (E.fnL.block b).length → j < (E.fnR.block b').length →
      E.matchPattern (b, i) (b', j) s = some s' →
      (true, CusVal.inst b i) ∈ s'.all ∨ (false, CusVal.inst b' j) ∈ s'.all)
    (fuel i j : Nat) (done : List (Pos × Pos)) (s : CSt) (hi : i ≤ (E.fnL.block b).length)
    (hj : j ≤ (E.fnR.block b').length)
    (hf : 2 * ((E.fnL.block b).length - i + ((E.fnR.block b').length - j))
      + (if s.part true b i || s.part false b' j then 0 else 1) < fuel) :
    E.cmpBlock b b' fuel i j done s ≠ none := by
  induction fuel generalizing i j done s with
  | zero => omega
  | succ n ih =>
    unfold CusEnv.cmpBlock
    dsimp only
    split
    · rename_i hlt
      split
      · rename_i hp
        rw [if_pos hp] at hf
        have a1 := skipPart_le s true b ((E.fnL.block b).length - i) i
        have a2 := skipPart_le s false b' ((E.fnR.block b').length - j) j
        simp only [Bool.or_eq_true] at hp
        refine ih _ _ _ _ (by omega) (by omega) ?_
        have hub : (if s.part true b (skipPart s true b ((E.fnL.block b).length - i) i) ||
            s.part false b' (skipPart s false b' ((E.fnR.block b').length - j) j) then 0 else 1) ≤ 1 := by
          split <;> omega
        rcases hp with hp | hp
        · have := skipPart_lt s true b ((E.fnL.block b).length - i) i (by omega) hp
          omega
        · have := skipPart_lt s false b' ((E.fnR.block b').length - j) j (by omega) hp
          omega
      · rename_i hp
        rw [if_neg hp] at hf
        split
        · rename_i s1 heq
          refine ih _ _ _ _ (by omega) (by omega) ?_
          have hub : (if s1.part true b (i + 1) || s1.part false b' (j + 1) then 0 else 1) ≤ 1 := by
            split <;> omega
          omega
        · rename_i s1 heq
          split
          · exact fun h => nomatch h
          · split
            · exact fun h => nomatch h
            · rename_i s2 hm
              have hin := hM i j s1 s2 hlt.1 hlt.2 hm
              refine ih _ _ _ _ (by omega) (by omega) ?_
              have hall : (createMapping (s2.undo (b, i) (b', j)).mappings (s2.undo (b, i) (b', j))).all = s2.all :=
                (createMapping_fields _ _).1
              have hp2 : ((createMapping (s2.undo (b, i) (b', j)).mappings (s2.undo (b, i) (b', j))).part true b i ||
                  (createMapping (s2.undo (b, i) (b', j)).mappings (s2.undo (b, i) (b', j))).part false b' j) = true := by
                rw [Bool.or_eq_true, part_iff, part_iff, hall]; exact hin
              rw [if_pos hp2]
              omega
    · split <;> exact fun h => nomatch h

end DK
