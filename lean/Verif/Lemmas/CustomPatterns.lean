import Verif.Spec.CustomPatterns

/-! Lemmas on the matching of a pattern: inputs stay mapped to the same values. -/

set_option autoImplicit false

namespace DK

section maps
variable {α β : Type} [DecidableEq α]

theorem plookup_append (k : α) (a b : List (α × β)) :
    (a ++ b).lookup k = (a.lookup k).or (b.lookup k) := by
  induction a with
  | nil => simp
  | cons x t ih =>
    obtain ⟨x1, x2⟩ := x
    by_cases h : k = x1
    · subst h; simp [List.lookup]
    · have : (k == x1) = false := by simpa using h
      simp [List.lookup, this, ih]

theorem plookup_filter (k : α) (f : α → Bool) (m : List (α × β)) :
    (m.filter fun p => f p.1).lookup k = if f k then m.lookup k else none := by
  induction m with
  | nil => simp
  | cons x t ih =>
    obtain ⟨x1, x2⟩ := x
    by_cases h : k = x1
    · subst h
      by_cases hf : f k
      · simp [hf]
      · simp [hf] at ih ⊢
        exact ih
    · have hb : (k == x1) = false := by simpa using h
      by_cases hf : f x1
      · simp [hf, List.lookup, hb, ih]
      · simp [hf, List.lookup, hb, ih]

theorem plookup_mapSet (k k' : α) (v : β) (m : List (α × β)) :
    (mapSet k v m).lookup k' = if k' = k then some v else m.lookup k' := by
  unfold mapSet
  rw [plookup_append, plookup_filter k' (fun x => decide (x ≠ k))]
  by_cases h : k' = k
  · subst h; simp
  · have hb : (k' == k) = false := by simpa using h
    simp [h, List.lookup, hb]

theorem plookup_eraseKeys (ks : List α) (k : α) (m : List (α × β)) :
    (eraseKeys ks m).lookup k = if k ∈ ks then none else m.lookup k := by
  unfold eraseKeys
  rw [plookup_filter k (fun x => decide (x ∉ ks))]
  by_cases h : k ∈ ks <;> simp [h]

theorem mem_mapSet (k : α) (v : β) (m : List (α × β)) (p : α × β) :
    p ∈ mapSet k v m ↔ (p ∈ m ∧ p.1 ≠ k) ∨ p = (k, v) := by
  unfold mapSet; simp

theorem plookup_mem {k : α} {v : β} {m : List (α × β)} (h : m.lookup k = some v) : (k, v) ∈ m := by
  induction m with
  | nil => simp at h
  | cons x t ih =>
    obtain ⟨x1, x2⟩ := x
    by_cases hk : k = x1
    · subst hk
      simp [List.lookup] at h
      simp [h]
    · have hb : (k == x1) = false := by simpa using hk
      simp [List.lookup, hb] at h
      exact List.mem_cons_of_mem _ (ih h)

end maps

/-! ### Inputs -/

/-- Entries stay. -/
def PinExt (a b : List (CusVal × CusVal)) : Prop := ∀ p m, a.lookup p = some m → b.lookup p = some m

theorem PinExt.refl (a : List (CusVal × CusVal)) : PinExt a a := fun _ _ h => h

theorem PinExt.trans {a b c : List (CusVal × CusVal)} (h : PinExt a b) (h' : PinExt b c) : PinExt a c :=
  fun p m e => h' p m (h p m e)

/-- What the comparison of an instruction does to the inputs: entries of `pin` stay, and only others are
new. -/
def InKeep (pin : List (CusVal × CusVal)) (s : PCmp) : Prop :=
  PinExt pin s.patIn ∧ ∀ p ∈ s.newPatIn, pin.lookup p = none

theorem InKeep.erase {pin : List (CusVal × CusVal)} {s : PCmp} (h : InKeep pin s) :
    PinExt pin s.eraseNew.patIn := by
  intro p m e
  show (eraseKeys s.newPatIn s.patIn).lookup p = some m
  rw [plookup_eraseKeys]
  have : p ∉ s.newPatIn := fun hp => by rw [h.2 p hp] at e; exact nomatch e
  rw [if_neg this]
  exact h.1 p m e

/-- The pushing of operands. -/
theorem push_mem (pin : List (CusVal × CusVal)) (l : List (CusVal × CusVal)) (ws : List (CusVal × CusVal) × List CusVal) :
    ∀ q ∈ (l.foldl (fun (ws : List (CusVal × CusVal) × List CusVal) q =>
      if (pin.lookup q.2).isSome || decide (q.1 ∈ ws.2) then ws
      else (q :: ws.1, q.1 :: ws.2)) ws).1, q ∈ ws.1 ∨ pin.lookup q.2 = none := by
  induction l generalizing ws with
  | nil => intro q hq; exact .inl hq
  | cons x t ih =>
    intro q hq
    rw [List.foldl_cons] at hq
    rcases ih _ q hq with h | h
    · split at h
      · exact .inl h
      · rename_i hc
        rcases List.mem_cons.1 h with h | h
        · subst h
          refine .inr ?_
          simp only [Bool.or_eq_true, decide_eq_true_eq, not_or] at hc
          exact Option.not_isSome_iff_eq_none.1 hc.1
        · exact .inl h
    · exact .inr h

theorem mapInputLoop_keep (E : PEnv) (fuel : Nat) (work : List (CusVal × CusVal)) (seen : List CusVal) (s : PCmp)
    (pin : List (CusVal × CusVal)) (hk : InKeep pin s) (hw : ∀ q ∈ work, pin.lookup q.2 = none) :
    InKeep pin (E.mapInputLoop fuel work seen s).2 := by
  induction fuel generalizing work seen s with
  | zero => exact hk
  | succ n ih =>
    match work with
    | [] => exact hk
    | (m, p) :: work =>
      unfold PEnv.mapInputLoop
      have hp : pin.lookup p = none := hw (m, p) (List.mem_cons_self ..)
      have hw' : ∀ q ∈ work, pin.lookup q.2 = none := fun q h => hw q (List.mem_cons_of_mem _ h)
      split
      · exact ih work seen s hk hw'
      · have hk' : InKeep pin { s with
            patIn := mapSet p m s.patIn, modIn := mapSet m p s.modIn,
            newModIn := s.newModIn ++ [m], newPatIn := s.newPatIn ++ [p] } := by
          refine ⟨?_, ?_⟩
          · intro q v e
            show (mapSet p m s.patIn).lookup q = some v
            rw [plookup_mapSet]
            have : q ≠ p := fun h => by subst h; rw [hp] at e; exact nomatch e
            rw [if_neg this]
            exact hk.1 q v e
          · intro q hq
            rcases List.mem_append.1 hq with h | h
            · exact hk.2 q h
            · rw [List.mem_singleton.1 h]; exact hp
        dsimp only
        split
        · split
          · exact hk'
          · refine ih _ _ _ hk' ?_
            intro q hq
            rcases push_mem _ _ _ q hq with h | h
            · exact hw' q h
            · cases e : pin.lookup q.2 with
              | none => rfl
              | some v => rw [hk'.1 q.2 v e] at h; exact nomatch h
        · exact ih _ _ _ hk' hw'

theorem mapInputLoop_stay (E : PEnv) (fuel : Nat) (work : List (CusVal × CusVal)) (seen : List CusVal) (s : PCmp)
    (p0 m0 : CusVal) (h0 : s.patIn.lookup p0 = some m0) (hw : ∀ q ∈ work, q.2 ≠ p0) :
    (E.mapInputLoop fuel work seen s).2.patIn.lookup p0 = some m0 := by
  induction fuel generalizing work seen s with
  | zero => exact h0
  | succ n ih =>
    match work with
    | [] => exact h0
    | (m, p) :: work =>
      unfold PEnv.mapInputLoop
      have hp : p ≠ p0 := hw (m, p) (List.mem_cons_self ..)
      have hw' : ∀ q ∈ work, q.2 ≠ p0 := fun q h => hw q (List.mem_cons_of_mem _ h)
      split
      · exact ih work seen s h0 hw'
      · have h0' : (mapSet p m s.patIn).lookup p0 = some m0 := by
          rw [plookup_mapSet, if_neg (fun h => hp h.symm)]; exact h0
        dsimp only
        split
        · split
          · exact h0'
          · refine ih _ _ _ h0' ?_
            intro q hq
            rcases push_mem _ _ _ q hq with h | h
            · exact hw' q h
            · intro e; rw [e, h0'] at h; exact nomatch h
        · exact ih _ _ _ h0' hw'

/-- `mapInputLoop` changes only the inputs. -/
theorem mapInputLoop_fields (E : PEnv) (fuel : Nat) (work : List (CusVal × CusVal)) (seen : List CusVal) (s : PCmp) :
    (E.mapInputLoop fuel work seen s).2.matched = s.matched ∧
    (E.mapInputLoop fuel work seen s).2.snL = s.snL ∧
    (E.mapInputLoop fuel work seen s).2.snR = s.snR ∧
    (E.mapInputLoop fuel work seen s).2.modPos = s.modPos ∧
    (E.mapInputLoop fuel work seen s).2.patPos = s.patPos ∧
    (E.mapInputLoop fuel work seen s).2.depth = s.depth := by
  induction fuel generalizing work seen s with
  | zero => exact ⟨rfl, rfl, rfl, rfl, rfl, rfl⟩
  | succ n ih =>
    match work with
    | [] => exact ⟨rfl, rfl, rfl, rfl, rfl, rfl⟩
    | (m, p) :: work =>
      unfold PEnv.mapInputLoop
      split
      · exact ih work seen s
      · dsimp only
        split
        · split
          · exact ⟨rfl, rfl, rfl, rfl, rfl, rfl⟩
          · exact ih _ _ _
        · exact ih _ _ _

theorem mapInput_fields (E : PEnv) (s : PCmp) (m p : CusVal) :
    (E.mapInput s m p).2.matched = s.matched ∧ (E.mapInput s m p).2.snL = s.snL ∧
    (E.mapInput s m p).2.snR = s.snR ∧ (E.mapInput s m p).2.modPos = s.modPos ∧
    (E.mapInput s m p).2.patPos = s.patPos ∧ (E.mapInput s m p).2.depth = s.depth := by
  unfold PEnv.mapInput
  split
  · exact ⟨rfl, rfl, rfl, rfl, rfl, rfl⟩
  · exact mapInputLoop_fields E _ _ _ _

theorem mapInput_keep (E : PEnv) (s : PCmp) (m p : CusVal) (pin : List (CusVal × CusVal)) (hk : InKeep pin s) :
    InKeep pin (E.mapInput s m p).2 := by
  unfold PEnv.mapInput
  split
  · exact hk
  · rename_i h
    refine mapInputLoop_keep E _ _ _ _ pin hk ?_
    intro q hq
    rw [List.mem_singleton.1 hq]
    cases e : pin.lookup p with
    | none => rfl
    | some v => rw [hk.1 p v e] at h; exact nomatch h

theorem mapInput_ext (E : PEnv) (s : PCmp) (m p : CusVal) : PinExt s.patIn (E.mapInput s m p).2.patIn := by
  unfold PEnv.mapInput
  split
  · exact PinExt.refl _
  · rename_i h
    intro q v e
    refine mapInputLoop_stay E _ _ _ _ q v e ?_
    intro w hw
    rw [List.mem_singleton.1 hw]
    intro e'
    dsimp only at e'
    rw [e', e] at h
    exact nomatch h

theorem mapInput_self (E : PEnv) (s : PCmp) (m p : CusVal) (hp : p ∈ E.side.input)
    (hr : (E.mapInput s m p).1 = true) : (E.mapInput s m p).2.patIn.lookup p = some m := by
  unfold PEnv.mapInput at hr ⊢
  split at hr
  · rename_i m' h
    simp only [decide_eq_true_eq] at hr
    subst hr
    exact h
  · rename_i h
    show (E.mapInputLoop (E.modFn.operands + 1 + 1) [(m, p)] [m] s).2.patIn.lookup p = some m
    unfold PEnv.mapInputLoop
    have hn : ¬ (p ∉ E.side.input) := fun h => h hp
    rw [if_neg hn]
    have h0 : (mapSet p m s.patIn).lookup p = some m := by rw [plookup_mapSet, if_pos rfl]
    dsimp only
    split
    · split
      · exact h0
      · refine mapInputLoop_stay E _ _ _ _ p m h0 ?_
        intro q hq
        rcases push_mem _ _ _ q hq with h | h
        · exact nomatch h
        · intro e; rw [e, h0] at h; exact nomatch h
    · exact mapInputLoop_stay E _ _ _ _ p m h0 (fun q hq => nomatch hq)

/-! ### Instructions -/

/-- Values that `FunctionComparator::cmpValues` may find equal. -/
def BaseOk (E : PEnv) (a b : CusVal) : Prop :=
  (∃ v w, a = .glob E.modFn.name v ∧ b = .glob E.side.fn.name w) ∨
  (a.isConst = true ∧ b.isConst = true ∧ constMatch E.isLeft a b = true) ∨
  (a.isConst = false ∧ b.isConst = false)

theorem selfGlob {a : CusVal} {n : Str}
    (h : a.hasName n = true) : ∃ v, a = .glob n v := by
  cases a <;> simp [CusVal.hasName] at h
  subst h
  exact ⟨_, rfl⟩

theorem baseValues_ok (E : PEnv) (s : PCmp) (a b : CusVal) (h : (E.baseValues s a b).1 = true) : BaseOk E a b := by
  unfold PEnv.baseValues at h
  dsimp only at h
  split at h
  · simp only [Bool.and_eq_true] at h
    obtain ⟨v, hv⟩ := selfGlob h.1
    obtain ⟨w, hw⟩ := selfGlob h.2
    exact .inl ⟨v, w, hv, hw⟩
  · split at h
    · rename_i hc
      simp only [Bool.and_eq_true] at hc
      exact .inr (.inl ⟨hc.1, hc.2, h⟩)
    · split at h
      · exact nomatch h
      · rename_i hc
        simp only [Bool.or_eq_true, not_or, Bool.not_eq_true] at hc
        exact .inr (.inr hc)

theorem baseValues_fields (E : PEnv) (s : PCmp) (a b : CusVal) :
    (E.baseValues s a b).2.patIn = s.patIn ∧ (E.baseValues s a b).2.newPatIn = s.newPatIn ∧
    (E.baseValues s a b).2.matched = s.matched ∧ (E.baseValues s a b).2.modPos = s.modPos ∧
    (E.baseValues s a b).2.patPos = s.patPos ∧ (E.baseValues s a b).2.depth = s.depth := by
  unfold PEnv.baseValues
  dsimp only
  split
  · exact ⟨rfl, rfl, rfl, rfl, rfl, rfl⟩
  · split
    · exact ⟨rfl, rfl, rfl, rfl, rfl, rfl⟩
    · split
      · exact ⟨rfl, rfl, rfl, rfl, rfl, rfl⟩
      · exact ⟨rfl, rfl, rfl, rfl, rfl, rfl⟩

/-- What an operand of a matched instruction satisfies. -/
def ArgOk (E : PEnv) (pin : List (CusVal × CusVal)) (a b : CusVal) : Prop :=
  BaseOk E a b ∧ (b ∈ E.side.input → pin.lookup b = some a)

theorem ArgOk.mono {E : PEnv} {pin pin' : List (CusVal × CusVal)} {a b : CusVal} (h : ArgOk E pin a b)
    (e : PinExt pin pin') : ArgOk E pin' a b := ⟨h.1, fun hb => e _ _ (h.2 hb)⟩

theorem cmpVal_spec (E : PEnv) (s : PCmp) (a b : CusVal) :
    (E.cmpVal s a b).2.matched = s.matched ∧ (E.cmpVal s a b).2.modPos = s.modPos ∧
    (E.cmpVal s a b).2.patPos = s.patPos ∧ (E.cmpVal s a b).2.depth = s.depth ∧
    PinExt s.patIn (E.cmpVal s a b).2.patIn ∧
    (∀ pin, InKeep pin s → InKeep pin (E.cmpVal s a b).2) ∧
    ((E.cmpVal s a b).1 = true → ArgOk E (E.cmpVal s a b).2.patIn a b) := by
  unfold PEnv.cmpVal
  have hf := baseValues_fields E s a b
  have hb := baseValues_ok E s a b
  cases hB : E.baseValues s a b with
  | mk r s1 =>
    rw [hB] at hf hb
    dsimp only at hf hb
    cases r with
    | false =>
      refine ⟨hf.2.2.1, hf.2.2.2.1, hf.2.2.2.2.1, hf.2.2.2.2.2, ?_, ?_, fun h => nomatch h⟩
      · dsimp only; rw [hf.1]; exact PinExt.refl _
      · intro pin hk
        exact ⟨hf.1 ▸ hk.1, hf.2.1 ▸ hk.2⟩
    | true =>
      dsimp only
      generalize hs2 : ({ s1 with
          snL := numInsert a 0 s1.snL
          snR := numInsert b 0 s1.snR
          newL := if (numInsert a 0 s1.snL).lookup a = some ((numInsert a 0 s1.snL).length - 1)
            then s1.newL ++ [a] else s1.newL
          newR := if (numInsert b 0 s1.snR).lookup b = some ((numInsert b 0 s1.snR).length - 1)
            then s1.newR ++ [b] else s1.newR } : PCmp) = s2
      have e1 : s2.patIn = s.patIn := by rw [← hs2]; exact hf.1
      have e2 : s2.newPatIn = s.newPatIn := by rw [← hs2]; exact hf.2.1
      have e3 : s2.matched = s.matched := by rw [← hs2]; exact hf.2.2.1
      have e4 : s2.modPos = s.modPos := by rw [← hs2]; exact hf.2.2.2.1
      have e5 : s2.patPos = s.patPos := by rw [← hs2]; exact hf.2.2.2.2.1
      have e6 : s2.depth = s.depth := by rw [← hs2]; exact hf.2.2.2.2.2
      have mf := mapInput_fields E s2 a b
      refine ⟨mf.1.trans e3, mf.2.2.2.1.trans e4, mf.2.2.2.2.1.trans e5, mf.2.2.2.2.2.trans e6, ?_, ?_, ?_⟩
      · rw [← e1]; exact mapInput_ext E s2 a b
      · intro pin hk
        refine mapInput_keep E s2 a b pin ⟨?_, ?_⟩
        · rw [e1]; exact hk.1
        · rw [e2]; exact hk.2
      · intro hr
        exact ⟨hb rfl, fun hp => mapInput_self E s2 a b hp hr⟩

theorem cmpArgs_spec (E : PEnv) (l : List (CusVal × CusVal)) (s : PCmp) :
    (E.cmpArgs l s).2.matched = s.matched ∧ (E.cmpArgs l s).2.modPos = s.modPos ∧
    (E.cmpArgs l s).2.patPos = s.patPos ∧ (E.cmpArgs l s).2.depth = s.depth ∧
    PinExt s.patIn (E.cmpArgs l s).2.patIn ∧
    (∀ pin, InKeep pin s → InKeep pin (E.cmpArgs l s).2) ∧
    ((E.cmpArgs l s).1 = true → ∀ q ∈ l, ArgOk E (E.cmpArgs l s).2.patIn q.1 q.2) := by
  induction l generalizing s with
  | nil => exact ⟨rfl, rfl, rfl, rfl, PinExt.refl _, fun _ h => h, fun _ q hq => nomatch hq⟩
  | cons x t ih =>
    obtain ⟨a, b⟩ := x
    unfold PEnv.cmpArgs
    have hv := cmpVal_spec E s a b
    cases hB : E.cmpVal s a b with
    | mk r s1 =>
      rw [hB] at hv
      dsimp only at hv
      obtain ⟨h1, h2, h3, h4, h5, h6, h7⟩ := hv
      cases r with
      | false => exact ⟨h1, h2, h3, h4, h5, h6, fun h => nomatch h⟩
      | true =>
        dsimp only
        obtain ⟨i1, i2, i3, i4, i5, i6, i7⟩ := ih s1
        refine ⟨i1.trans h1, i2.trans h2, i3.trans h3, i4.trans h4, h5.trans i5, fun pin hk => i6 pin (h6 pin hk), ?_⟩
        intro hr q hq
        rcases List.mem_cons.1 hq with e | e
        · rw [e]; exact (h7 rfl).mono i5
        · exact i7 hr q e

/-- What a matched instruction satisfies. -/
def GoodInst (E : PEnv) (pin : List (CusVal × CusVal)) (pp mp : Pos) : Prop :=
  ∃ ip im, E.side.fn.instAt pp.1 pp.2 = some ip ∧ E.modFn.instAt mp.1 mp.2 = some im ∧
    im.op = ip.op ∧ im.args.length = ip.args.length ∧
    ArgOk E pin (.inst mp.1 mp.2) (.inst pp.1 pp.2) ∧ ∀ q ∈ im.args.zip ip.args, ArgOk E pin q.1 q.2

theorem GoodInst.mono {E : PEnv} {pin pin' : List (CusVal × CusVal)} {pp mp : Pos} (h : GoodInst E pin pp mp)
    (e : PinExt pin pin') : GoodInst E pin' pp mp := by
  obtain ⟨ip, im, a, b, c, d, f, g⟩ := h
  exact ⟨ip, im, a, b, c, d, f.mono e, fun q hq => (g q hq).mono e⟩

/-- All matched instructions are good. -/
def PInv (E : PEnv) (s : PCmp) : Prop := ∀ x ∈ s.matched, GoodInst E s.patIn x.1 x.2

theorem cmpInst_spec (E : PEnv) (s : PCmp) (mp pp : Pos) :
    (E.cmpInst s mp pp).2.modPos = s.modPos ∧ (E.cmpInst s mp pp).2.patPos = s.patPos ∧
    (E.cmpInst s mp pp).2.depth = s.depth ∧
    PinExt s.patIn (E.cmpInst s mp pp).2.patIn ∧ InKeep s.patIn (E.cmpInst s mp pp).2 ∧
    ((E.cmpInst s mp pp).1 = false → (E.cmpInst s mp pp).2.matched = s.matched) ∧
    ((E.cmpInst s mp pp).1 = true → (E.cmpInst s mp pp).2.matched = mapSet pp mp s.matched ∧
      GoodInst E (E.cmpInst s mp pp).2.patIn pp mp) := by
  unfold PEnv.cmpInst
  generalize hs0 : ({ s with newL := [], newR := [], newModIn := [], newPatIn := [] } : PCmp) = s0
  have e1 : s0.patIn = s.patIn := by rw [← hs0]
  have e2 : s0.newPatIn = [] := by rw [← hs0]
  have e3 : s0.matched = s.matched := by rw [← hs0]
  have e4 : s0.modPos = s.modPos := by rw [← hs0]
  have e5 : s0.patPos = s.patPos := by rw [← hs0]
  have e6 : s0.depth = s.depth := by rw [← hs0]
  have k0 : InKeep s.patIn s0 := ⟨by rw [e1]; exact PinExt.refl _, by rw [e2]; exact fun p hp => nomatch hp⟩
  dsimp only
  cases hm : E.modFn.instAt mp.1 mp.2 with
  | none => exact ⟨e4, e5, e6, by rw [e1]; exact PinExt.refl _, k0, fun _ => e3, fun h => nomatch h⟩
  | some im =>
    cases hp : E.side.fn.instAt pp.1 pp.2 with
    | none => exact ⟨e4, e5, e6, by rw [e1]; exact PinExt.refl _, k0, fun _ => e3, fun h => nomatch h⟩
    | some ip =>
      dsimp only
      have hv := cmpVal_spec E s0 (.inst mp.1 mp.2) (.inst pp.1 pp.2)
      cases hB : E.cmpVal s0 (.inst mp.1 mp.2) (.inst pp.1 pp.2) with
      | mk r s1 =>
        rw [hB] at hv
        dsimp only at hv
        obtain ⟨h1, h2, h3, h4, h5, h6, h7⟩ := hv
        have x1 : PinExt s.patIn s1.patIn := by rw [← e1]; exact h5
        cases r with
        | false =>
          exact ⟨h2.trans e4, h3.trans e5, h4.trans e6, x1, h6 _ k0, fun _ => h1.trans e3, fun h => nomatch h⟩
        | true =>
          dsimp only
          split
          · exact ⟨h2.trans e4, h3.trans e5, h4.trans e6, x1, h6 _ k0, fun _ => h1.trans e3, fun h => nomatch h⟩
          · rename_i hop
            simp only [ne_eq, not_or, not_not] at hop
            have ha := cmpArgs_spec E (im.args.zip ip.args) s1
            cases hA : E.cmpArgs (im.args.zip ip.args) s1 with
            | mk r2 s2 =>
              rw [hA] at ha
              dsimp only at ha
              obtain ⟨a1, a2, a3, a4, a5, a6, a7⟩ := ha
              cases r2 with
              | false =>
                exact ⟨a2.trans (h2.trans e4), a3.trans (h3.trans e5), a4.trans (h4.trans e6), x1.trans a5,
                  a6 _ (h6 _ k0), fun _ => a1.trans (h1.trans e3), fun h => nomatch h⟩
              | true =>
                refine ⟨a2.trans (h2.trans e4), a3.trans (h3.trans e5), a4.trans (h4.trans e6), x1.trans a5,
                  a6 _ (h6 _ k0), (fun h => nomatch h), fun _ => ⟨?_, ?_⟩⟩
                · dsimp only; rw [a1, h1, e3]
                · exact ⟨ip, im, hp, hm, hop.1, hop.2, (h7 rfl).mono a5, fun q hq => a7 rfl q hq⟩

theorem cmpInst_inv (E : PEnv) (s : PCmp) (mp pp : Pos) (hi : PInv E s) (hr : (E.cmpInst s mp pp).1 = true) :
    PInv E (E.cmpInst s mp pp).2 := by
  obtain ⟨_, _, _, h4, _, _, h7⟩ := cmpInst_spec E s mp pp
  obtain ⟨hm, hg⟩ := h7 hr
  intro x hx
  rw [hm] at hx
  rcases (mem_mapSet _ _ _ _).1 hx with h | h
  · exact (hi x h.1).mono h4
  · rw [h]; exact hg

theorem cmpInst_inv_erase (E : PEnv) (s : PCmp) (mp pp : Pos) (hi : PInv E s)
    (hr : (E.cmpInst s mp pp).1 = false) : PInv E (E.cmpInst s mp pp).2.eraseNew := by
  obtain ⟨_, _, _, _, h5, h6, _⟩ := cmpInst_spec E s mp pp
  intro x hx
  have hx' : x ∈ (E.cmpInst s mp pp).2.matched := hx
  rw [h6 hr] at hx'
  exact (hi x hx').mono h5.erase

/-- Matched instructions of the pattern stay matched. -/
def Kept (a b : List (Pos × Pos)) : Prop := ∀ p m, (p, m) ∈ a → ∃ m', (p, m') ∈ b

theorem Kept.refl (a : List (Pos × Pos)) : Kept a a := fun _ m h => ⟨m, h⟩

theorem Kept.trans {a b c : List (Pos × Pos)} (h : Kept a b) (h' : Kept b c) : Kept a c := by
  intro p m e
  obtain ⟨m', e'⟩ := h p m e
  exact h' p m' e'

theorem Kept.set (p m : Pos) (a : List (Pos × Pos)) : Kept a (mapSet p m a) := by
  intro q n h
  by_cases e : q = p
  · subst e; exact ⟨m, (mem_mapSet _ _ _ _).2 (.inr rfl)⟩
  · exact ⟨n, (mem_mapSet _ _ _ _).2 (.inl ⟨h, e⟩)⟩

/-- The invariant together with the growth of the input map and of the matched instructions. -/
def PGrow (E : PEnv) (s s' : PCmp) : Prop :=
  PInv E s' ∧ PinExt s.patIn s'.patIn ∧ Kept s.matched s'.matched

theorem PGrow.refl {E : PEnv} {s : PCmp} (h : PInv E s) : PGrow E s s := ⟨h, PinExt.refl _, Kept.refl _⟩

theorem PGrow.trans {E : PEnv} {a b c : PCmp} (h : PGrow E a b) (h' : PGrow E b c) : PGrow E a c :=
  ⟨h'.1, h.2.1.trans h'.2.1, h.2.2.trans h'.2.2⟩

theorem cmpInst_grow (E : PEnv) (s : PCmp) (mp pp : Pos) (hi : PInv E s) (hr : (E.cmpInst s mp pp).1 = true) :
    PGrow E s (E.cmpInst s mp pp).2 := by
  obtain ⟨_, _, _, h4, _, _, h7⟩ := cmpInst_spec E s mp pp
  refine ⟨cmpInst_inv E s mp pp hi hr, h4, ?_⟩
  rw [(h7 hr).1]
  exact Kept.set _ _ _

theorem cmpInst_grow_erase (E : PEnv) (s : PCmp) (mp pp : Pos) (hi : PInv E s)
    (hr : (E.cmpInst s mp pp).1 = false) : PGrow E s (E.cmpInst s mp pp).2.eraseNew := by
  obtain ⟨_, _, _, _, h5, h6, _⟩ := cmpInst_spec E s mp pp
  refine ⟨cmpInst_inv_erase E s mp pp hi hr, h5.erase, ?_⟩
  show Kept s.matched (E.cmpInst s mp pp).2.matched
  rw [h6 hr]
  exact Kept.refl _

theorem cmpVal_grow (E : PEnv) (s : PCmp) (a b : CusVal) (hi : PInv E s) : PGrow E s (E.cmpVal s a b).2 := by
  obtain ⟨h1, _, _, _, h5, _, _⟩ := cmpVal_spec E s a b
  refine ⟨?_, h5, ?_⟩
  · intro x hx
    rw [h1] at hx
    exact (hi x hx).mono h5
  · rw [h1]; exact Kept.refl _

/-! ### Blocks -/

theorem cmpBlock_grow (E : PEnv) (mb pb first : Nat) (ms : List CusInst) (i j : Nat) (s : PCmp) (hi : PInv E s) :
    PGrow E s (E.cmpBlock mb pb first ms i j s).2 := by
  induction ms generalizing i j s with
  | nil => exact PGrow.refl hi
  | cons m rest ih =>
    unfold PEnv.cmpBlock
    split
    · exact PGrow.refl hi
    · dsimp only
      have hi1 : ∀ x, PInv E { s with modPos := x, patPos := (pb, j) } := fun x => hi
      have tr : ∀ x s2, PGrow E { s with modPos := x, patPos := (pb, j) } s2 → PGrow E s s2 := fun _ _ h => h
      split
      · exact PGrow.refl hi
      · split
        · exact PGrow.refl hi
        · split
          · split
            · exact PGrow.refl hi
            · split
              · rename_i s2 heq
                have := cmpInst_grow_erase E _ _ _ (hi1 _) (by rw [heq])
                rw [heq] at this
                exact tr _ _ this
              · rename_i s2 heq
                have := cmpInst_grow E _ _ _ (hi1 _) (by rw [heq])
                rw [heq] at this
                exact tr _ _ this
          · split
            · rename_i s2 heq
              have := cmpInst_grow_erase E _ _ _ (hi1 _) (by rw [heq])
              rw [heq] at this
              have := tr _ _ this
              split
              · exact this
              · exact this.trans (ih _ _ _ this.1)
            · rename_i s2 heq
              have := cmpInst_grow E _ _ _ (hi1 _) (by rw [heq])
              rw [heq] at this
              have h2 : PGrow E s (s2.group (E.side.meta pb j)) := tr _ _ this
              exact h2.trans (ih _ _ _ h2.1)

theorem chain_grow (E : PEnv) (fuel mb pb : Nat) (v : Visit) (s : PCmp) (hi : PInv E s) :
    PGrow E s (E.chain fuel mb pb v s).2 := by
  induction fuel generalizing mb pb v s with
  | zero => exact PGrow.refl hi
  | succ n ih =>
    unfold PEnv.chain
    dsimp only
    generalize hs0 : ({ s with modPos := if s.modPos.1 ≠ mb then (mb, 0) else s.modPos
                               patPos := if s.patPos.1 ≠ pb then (pb, 0) else s.patPos } : PCmp) = s0
    have hi0 : PGrow E s s0 := by rw [← hs0]; exact PGrow.refl hi
    have hc : PGrow E s (E.cmpBlocks mb pb s0).2 := hi0.trans (cmpBlock_grow E _ _ _ _ _ _ _ hi0.1)
    split
    · rename_i s1 heq
      rw [heq] at hc
      split
      · split
        · exact hc
        · rename_i nx _ _
          have h1 : PGrow E s { s1 with modPos := (nx, 0) } := hc
          exact h1.trans (ih _ _ _ _ h1.1)
      · exact hc
    · rename_i s1 heq
      rw [heq] at hc
      split
      · split
        · exact hc
        · split
          · exact hc
          · rename_i nx _ _ _
            have h1 : PGrow E s { s1 with patPos := (nx, 0) } := hc
            exact h1.trans (ih _ _ _ _ h1.1)
      · exact hc

theorem walk_grow (E : PEnv) (fuel : Nat) (work : List (Nat × Nat)) (v : Visit) (s : PCmp) (hi : PInv E s) :
    PGrow E s (E.walk fuel work v s).2 := by
  induction fuel generalizing work v s with
  | zero => exact PGrow.refl hi
  | succ n ih =>
    match work with
    | [] => exact PGrow.refl hi
    | (mb, pb) :: work =>
      unfold PEnv.walk
      have hv := cmpVal_grow E s (.blk mb) (.blk pb) hi
      split
      · rename_i s1 heq; rw [heq] at hv; exact hv
      · rename_i s1 heq
        rw [heq] at hv
        have h1 : PGrow E s { s1 with depth := 0 } := hv
        have hc := h1.trans
          (chain_grow E (E.modFn.blocks.length + E.side.fn.blocks.length + 2) mb pb v { s1 with depth := 0 } h1.1)
        split
        · rename_i s2 heq2; rw [heq2] at hc; exact hc
        · rename_i mb' pb' v' s2 heq2
          rw [heq2] at hc
          dsimp only
          split
          · exact hc.trans (ih _ _ _ hc.1)
          · exact hc.trans (ih _ _ _ hc.1)

theorem checkArgs_grow (E : PEnv) (ns : List Nat) (s : PCmp) (hi : PInv E s) : PGrow E s (E.checkArgs ns s).2 := by
  induction ns generalizing s with
  | nil => exact PGrow.refl hi
  | cons n r ih =>
    unfold PEnv.checkArgs
    split
    · exact ih s hi
    · rename_i m _
      have hv := cmpVal_grow E s m (.arg n) hi
      split
      · rename_i s1 heq; rw [heq] at hv; exact hv.trans (ih s1 hv.1)
      · rename_i s1 heq; rw [heq] at hv; exact hv

/-- After a failed comparison of a block of inputs nothing is known, and the match is given up. -/
theorem checkInsts_grow (E : PEnv) (pb k j : Nat) (s : PCmp) (hi : PInv E s) (b : Bool)
    (hr : (E.checkInsts pb k j s).1 = some b) : PGrow E s (E.checkInsts pb k j s).2 := by
  induction k generalizing j s with
  | zero => exact PGrow.refl hi
  | succ n ih =>
    unfold PEnv.checkInsts at hr ⊢
    split
    · exact PGrow.refl hi
    · rename_i h1
      rw [if_neg h1] at hr
      split
      · rename_i h2
        rw [if_pos h2] at hr
        exact ih _ _ hi hr
      · rename_i h2
        rw [if_neg h2] at hr
        have key : ∀ x s1, E.cmpVal s x (.inst pb j) = (true, s1) → PGrow E s s1 := by
          intro x s1 heq
          have := cmpVal_grow E s x (.inst pb j) hi
          rw [heq] at this
          exact this
        cases hl : s.patIn.lookup (.inst pb j) with
        | none =>
          rw [hl] at hr
          exact ih _ _ hi hr
        | some m =>
          rw [hl] at hr
          cases m with
          | inst b' i' =>
            dsimp only at hr ⊢
            cases hc : E.cmpInst s (b', i') (pb, j) with
            | mk r s1 =>
              rw [hc] at hr
              cases r with
              | false => exact nomatch hr
              | true =>
                have := cmpInst_grow E s (b', i') (pb, j) hi (by rw [hc])
                rw [hc] at this
                exact this.trans (ih _ _ this.1 hr)
          | _ =>
            dsimp only at hr ⊢
            split at hr
            · rename_i s1 heq
              have := key _ _ heq
              exact this.trans (ih _ _ this.1 hr)
            · exact nomatch hr

theorem checkWalk_grow (E : PEnv) (fuel : Nat) (work seen : List Nat) (s : PCmp) (hi : PInv E s)
    (hr : (E.checkWalk fuel work seen s).1 = true) : PGrow E s (E.checkWalk fuel work seen s).2 := by
  induction fuel generalizing work seen s with
  | zero => exact PGrow.refl hi
  | succ n ih =>
    match work with
    | [] => exact PGrow.refl hi
    | pb :: work =>
      unfold PEnv.checkWalk at hr ⊢
      have hc := checkInsts_grow E pb (E.side.fn.block pb).length 0 s hi
      cases he : E.checkInsts pb (E.side.fn.block pb).length 0 s with
      | mk r s1 =>
        rw [he] at hr hc
        cases r with
        | none => exact nomatch hr
        | some b =>
          have hc := hc b rfl
          cases b with
          | true => exact hc.trans (ih _ _ _ hc.1 hr)
          | false => exact hc.trans (ih _ _ _ hc.1 hr)

/-- A successful comparison: what the match gives, and that the check of the inputs only adds to it. -/
theorem compare_grow (E : PEnv) (start : Pos) (hr : (E.compare start).1 = true) :
    (E.matchPattern start {}).1 = true ∧ PInv E (E.matchPattern start {}).2 ∧
    PGrow E (E.matchPattern start {}).2 (E.compare start).2 := by
  unfold PEnv.compare at hr ⊢
  have h0 : PGrow E _ (E.matchPattern start {}).2 := walk_grow E _ _ _ _ (fun x hx => nomatch hx)
  cases hm : E.matchPattern start {} with
  | mk r s =>
    rw [hm] at hr h0
    cases r with
    | false => exact nomatch hr
    | true =>
      dsimp only at hr ⊢
      have h1 : PGrow E s s.begin := PGrow.refl h0.1
      unfold PEnv.checkInput at hr ⊢
      have h2 := checkArgs_grow E (List.range E.side.fn.params.length) s.begin h1.1
      cases ha : E.checkArgs (List.range E.side.fn.params.length) s.begin with
      | mk r2 s2 =>
        rw [ha] at hr h2
        cases r2 with
        | false => exact nomatch hr
        | true => exact ⟨rfl, h0.1, h1.trans (h2.trans (checkWalk_grow E _ _ _ _ h2.1 hr))⟩

/-! ### Inputs mapped later -/

theorem userLoop_inv (E : PEnv) (all : List Pos) (fuel : Nat) (ms ps : List Pos) (seen : List CusVal)
    (work : List (CusVal × CusVal)) (s : PCmp) (hi : PInv E s) :
    PGrow E s (E.userLoop all fuel ms ps seen work s).2.2.2 := by
  induction fuel generalizing ms ps seen work s with
  | zero => exact PGrow.refl hi
  | succ n ih =>
    match ms, ps with
    | [], _ => exact PGrow.refl hi
    | _ :: _, [] => exact PGrow.refl hi
    | m :: ms, p :: ps =>
      have tr : ∀ (s1 : PCmp), PGrow E s s1 → ∀ ms ps seen work,
          PGrow E s (E.userLoop all n ms ps seen work s1).2.2.2 := by
        intro s1 h1 ms ps seen work
        have := ih ms ps seen work s1 h1.1
        exact h1.trans this
      have r0 : PGrow E s s := PGrow.refl hi
      unfold PEnv.userLoop
      dsimp only
      split
      · exact tr _ r0 _ _ _ _
      · split
        · split
          · exact tr _ r0 _ _ _ _
          · split <;> exact tr _ r0 _ _ _ _
        · split
          · split
            · exact tr _ r0 _ _ _ _
            · exact r0
          · split
            · rename_i s1 heq
              have := cmpInst_grow_erase E s m p hi (by rw [heq])
              rw [heq] at this
              exact tr _ this _ _ _ _
            · rename_i s1 heq
              have := cmpInst_grow E s m p hi (by rw [heq])
              rw [heq] at this
              split <;> exact tr _ this _ _ _ _

theorem PinExt.set {pin : List (CusVal × CusVal)} {p m : CusVal} (h : ∀ m', pin.lookup p = some m' → m' = m) :
    PinExt pin (mapSet p m pin) := by
  intro k v hk
  rw [plookup_mapSet]
  split
  · rename_i e; subst e; rw [h _ hk]
  · exact hk

theorem inputLoop_inv (E : PEnv) (mv pv : CusVal) (fuel : Nat) (work : List (CusVal × CusVal)) (seen : List CusVal)
    (s : PCmp) (hi : PInv E s) (hp : ∀ m', s.patIn.lookup pv = some m' → m' = mv) :
    PGrow E s (E.inputLoop mv pv fuel work seen s).2 := by
  induction fuel generalizing work seen s with
  | zero => exact PGrow.refl hi
  | succ n ih =>
    match work with
    | [] => exact PGrow.refl hi
    | (m, p) :: work =>
      unfold PEnv.inputLoop
      dsimp only
      generalize hs1 : ({ s with patIn := mapSet pv mv s.patIn, modIn := mapSet mv pv s.modIn } : PCmp) = s1
      have e1 : PinExt s.patIn s1.patIn := by rw [← hs1]; exact PinExt.set hp
      have hl : s1.patIn.lookup pv = some mv := by rw [← hs1]; dsimp only; rw [plookup_mapSet]; simp
      have hi1 : PGrow E s s1 := by
        refine ⟨?_, e1, ?_⟩
        · intro x hx
          have : x ∈ s.matched := by rw [← hs1] at hx; exact hx
          exact (hi x this).mono e1
        · rw [← hs1]; exact Kept.refl _
      have hu := hi1.trans (userLoop_inv E (E.modFn.users m) ((E.modFn.users m).length + (E.side.fn.users p).length)
        (E.modFn.users m) (E.side.fn.users p) (mv :: seen) work s1 hi1.1)
      have hu2 := (userLoop_inv E (E.modFn.users m) ((E.modFn.users m).length + (E.side.fn.users p).length)
        (E.modFn.users m) (E.side.fn.users p) (mv :: seen) work s1 hi1.1).2.1
      split
      · have := fun w v => ih w v _ hu.1 (fun m' h => by rw [hu2 _ _ hl] at h; exact (Option.some.inj h).symm)
        exact hu.trans (this _ _)
      · exact hu

theorem cmpInput_inv (E : PEnv) (s : PCmp) (mv : Option CusVal) (pv : CusVal) (hi : PInv E s) :
    PGrow E s (E.cmpInput s mv pv).2 := by
  unfold PEnv.cmpInput
  split
  · exact PGrow.refl hi
  · split
    · exact PGrow.refl hi
    · rename_i h
      have hi' : PGrow E s s.begin := PGrow.refl hi
      exact hi'.trans (inputLoop_inv E _ _ _ _ _ _ hi'.1 (fun m' h' => by
        have : s.begin.patIn = s.patIn := rfl
        rw [this, h] at h'; exact nomatch h'))

theorem inputsValid_inv (EL ER : PEnv) (s : CSt) (ns : List Nat) (cl cr : PCmp) (hl : PInv EL cl) (hr : PInv ER cr) :
    PGrow EL cl (inputsValid EL ER s ns cl cr).2.1 ∧ PGrow ER cr (inputsValid EL ER s ns cl cr).2.2 := by
  induction ns generalizing cl cr with
  | nil => exact ⟨PGrow.refl hl, PGrow.refl hr⟩
  | cons n r ih =>
    unfold inputsValid
    split
    · split
      · exact ih cl cr hl hr
      · exact ⟨PGrow.refl hl, PGrow.refl hr⟩
    · rename_i l _ _
      have := cmpInput_inv ER cr (s.other l true) (.arg n) hr
      split
      · rename_i cr1 heq
        rw [heq] at this
        have h2 := ih cl cr1 hl this.1
        exact ⟨h2.1, this.trans h2.2⟩
      · rename_i cr1 heq
        rw [heq] at this
        exact ⟨PGrow.refl hl, this⟩
    · rename_i r' _ _
      have := cmpInput_inv EL cl (s.other r' false) (.arg n) hl
      split
      · rename_i cr1 heq
        rw [heq] at this
        have h2 := ih cr1 cr this.1 hr
        exact ⟨this.trans h2.1, h2.2⟩
      · rename_i cr1 heq
        rw [heq] at this
        exact ⟨this, PGrow.refl hr⟩
    · exact ih cl cr hl hr

/-! ### Loading of one side -/

theorem mem_positions (F : CusFun) (b i : Nat) (x : CusInst) :
    (b, i, x) ∈ F.positions ↔ F.instAt b i = some x := by
  unfold CusFun.positions CusFun.instAt CusFun.block
  constructor
  · intro h
    obtain ⟨l, hl, hx⟩ := List.mem_flatten.1 h
    obtain ⟨p, hp, rfl⟩ := List.mem_map.1 hl
    obtain ⟨q, hq, e⟩ := List.mem_map.1 hx
    obtain ⟨b1, i1⟩ := p
    obtain ⟨x1, j1⟩ := q
    simp only [Prod.mk.injEq] at e
    obtain ⟨rfl, rfl, rfl⟩ := e
    have h1 := List.mem_zipIdx_iff_getElem?.1 hp
    have h2 := List.mem_zipIdx_iff_getElem?.1 hq
    rw [List.getD_eq_getElem?_getD, h1]
    exact h2
  · intro h
    rw [List.getD_eq_getElem?_getD] at h
    cases hb : F.blocks[b]? with
    | none => rw [hb] at h; simp at h
    | some B =>
      rw [hb] at h
      refine List.mem_flatten.2 ⟨_, List.mem_map.2 ⟨(B, b), List.mem_zipIdx_iff_getElem?.2 hb, rfl⟩, ?_⟩
      exact List.mem_map.2 ⟨(x, i), List.mem_zipIdx_iff_getElem?.2 h, rfl⟩

theorem sideStep_input (F : CusFun) (s : SideSt) (p : Nat × Nat × CusInst) : ∀ v ∈ s.input, v ∈ (sideStep F s p).input := by
  intro v hv
  unfold sideStep
  dsimp only
  cases p.2.2.metadata <;> dsimp only <;> repeat' split
  all_goals first
    | exact hv
    | exact List.mem_append_left _ hv

theorem sideFold_input (F : CusFun) (l : List (Nat × Nat × CusInst)) (s : SideSt) :
    ∀ v ∈ s.input, v ∈ (l.foldl (sideStep F) s).input := by
  induction l generalizing s with
  | nil => exact fun _ h => h
  | cons p t ih => intro v hv; exact ih _ v (sideStep_input F s p v hv)

theorem initSide_fn (F : CusFun) : (initSide F).fn = F := rfl

theorem initSide_arg (F : CusFun) (n : Nat) (h : n < F.params.length) : CusVal.arg n ∈ (initSide F).input :=
  sideFold_input F _ _ _ (List.mem_map.2 ⟨n, List.mem_range.2 h, rfl⟩)

/-- No mark in the metadata of an instruction. -/
def NoMark (i : CusInst) : Prop := ∀ m, i.metadata = some m → m.start = false ∧ m.notInput = false

theorem sideStep_nomark (F : CusFun) (s : SideSt) (p : Nat × Nat × CusInst) (hs : s.start = none) (hm : NoMark p.2.2) :
    (sideStep F s p).start = none ∧
    (F.isTerm p.1 p.2.1 = false → .inst p.1 p.2.1 ∈ (sideStep F s p).input) := by
  unfold sideStep
  dsimp only
  cases h : p.2.2.metadata with
  | none =>
    dsimp only
    simp only [hs, Option.isNone_none, Option.map_none, Option.getD_none, Bool.not_false, Bool.true_and, Bool.and_true]
    constructor
    · repeat' split
      all_goals first | exact hs | rfl
    · intro ht
      simp only [ht, Bool.not_false, if_true]
      split <;> simp
  | some m =>
    obtain ⟨h1, h2⟩ := hm m h
    dsimp only
    simp only [hs, h1, Bool.false_and, Option.isNone_none, Option.map_some, Option.getD_some, h2, Bool.not_false,
      Bool.true_and, Bool.and_true]
    constructor
    · repeat' split
      all_goals first | exact hs | rfl | simp_all
    · intro ht
      simp only [ht, Bool.not_false]
      simp
      split <;> simp

theorem sideFold_nomark (F : CusFun) (l : List (Nat × Nat × CusInst)) (s : SideSt) (hs : s.start = none)
    (hm : ∀ p ∈ l, NoMark p.2.2) :
    (l.foldl (sideStep F) s).start = none ∧
    ∀ p ∈ l, F.isTerm p.1 p.2.1 = false → .inst p.1 p.2.1 ∈ (l.foldl (sideStep F) s).input := by
  induction l generalizing s with
  | nil => exact ⟨hs, fun p hp => nomatch hp⟩
  | cons p t ih =>
    have h1 := sideStep_nomark F s p hs (hm p (List.mem_cons_self ..))
    have h2 := ih _ h1.1 (fun q hq => hm q (List.mem_cons_of_mem _ hq))
    refine ⟨h2.1, fun q hq ht => ?_⟩
    rcases List.mem_cons.1 hq with e | e
    · subst e; exact sideFold_input F t _ _ (h1.2 ht)
    · exact h2.2 q e ht

theorem readMeta_start (l : List (Option Str)) (m m' : PMeta) (h : readMeta l m = some m')
    (hl : some (str! "pattern-start") ∉ l ∧ some (str! "not-an-input") ∉ l) (hs : m.start = false)
    (hn : m.notInput = false) : m'.start = false ∧ m'.notInput = false := by
  induction l generalizing m with
  | nil => cases h; exact ⟨hs, hn⟩
  | cons x t ih =>
    cases x with
    | none => exact nomatch h
    | some s =>
      unfold readMeta at h
      simp only [List.mem_cons, not_or] at hl
      obtain ⟨⟨n1, t1⟩, ⟨n2, t2⟩⟩ := hl
      have n1 : s ≠ str! "pattern-start" := fun e => n1 (by rw [e])
      have n2 : s ≠ str! "not-an-input" := fun e => n2 (by rw [e])
      split at h
      · rename_i m1 hm
        unfold setMeta at hm
        rw [if_neg n1] at hm
        refine ih m1 h ⟨t1, t2⟩ ?_ ?_
        · repeat' split at hm
          all_goals first
            | (cases hm; exact hs)
            | exact nomatch hm
        · rw [if_neg n2] at hm
          repeat' split at hm
          all_goals first
            | (cases hm; exact hn)
            | exact nomatch hm
      · exact nomatch h

theorem unmarked_noMark {F : CusFun} (h : Spec.Unmarked F) (b i : Nat) (x : CusInst) (hx : F.instAt b i = some x) :
    NoMark x := by
  intro m hm
  unfold CusInst.metadata at hm
  split at hm
  · exact nomatch hm
  · rename_i l hl
    exact readMeta_start l {} m hm (h (b, i) x l hx hl) rfl rfl

theorem initSide_unmarked {F : CusFun} (h : Spec.Unmarked F) :
    (initSide F).start = (0, 0) ∧
    ∀ b j, j + 1 < (F.block b).length → .inst b j ∈ (initSide F).input := by
  have := sideFold_nomark F F.positions { input := (List.range F.params.length).map .arg } rfl
    (fun p hp => unmarked_noMark h p.1 p.2.1 p.2.2 ((mem_positions F _ _ _).1 hp))
  constructor
  · show (List.foldl (sideStep F) _ F.positions).start.getD (0, 0) = (0, 0)
    rw [this.1]; rfl
  · intro b j hj
    have hx : F.instAt b j = some ((F.block b)[j]'(by omega)) := by
      unfold CusFun.instAt; exact List.getElem?_eq_getElem _
    refine this.2 (b, j, _) ((mem_positions F _ _ _).2 hx) ?_
    unfold CusFun.isTerm
    simp only [decide_eq_false_iff_not]
    omega

theorem sideStep_startIn (F : CusFun) (s : SideSt) (p : Nat × Nat × CusInst) (Q : Pos → Prop)
    (hs : ∀ x, s.start = some x → Q x) (hp : Q (p.1, p.2.1)) : ∀ x, (sideStep F s p).start = some x → Q x := by
  intro x hx
  unfold sideStep at hx
  dsimp only at hx
  cases h : p.2.2.metadata with
  | none =>
    rw [h] at hx
    dsimp only at hx
    repeat' split at hx
    all_goals exact hs x hx
  | some m =>
    rw [h] at hx
    dsimp only at hx
    repeat' split at hx
    all_goals first
      | exact hs x hx
      | (cases hx; exact hp)

theorem sideFold_startIn (F : CusFun) (l : List (Nat × Nat × CusInst)) (s : SideSt) (Q : Pos → Prop)
    (hs : ∀ x, s.start = some x → Q x) (hl : ∀ p ∈ l, Q (p.1, p.2.1)) :
    ∀ x, (l.foldl (sideStep F) s).start = some x → Q x := by
  induction l generalizing s with
  | nil => exact hs
  | cons p t ih =>
    exact ih _ (sideStep_startIn F s p Q hs (hl p (List.mem_cons_self ..))) (fun q hq => hl q (List.mem_cons_of_mem _ hq))

theorem initSide_start_block (F : CusFun) (h : F.blocks.length = 1) : (initSide F).start.1 = 0 := by
  have := sideFold_startIn F F.positions { input := (List.range F.params.length).map .arg } (fun p => p.1 = 0)
    (fun x hx => nomatch hx) (by
      intro p hp
      have hx := (mem_positions F p.1 p.2.1 p.2.2).1 hp
      show p.1 = 0
      by_contra hne
      unfold CusFun.instAt CusFun.block at hx
      have hn : F.blocks[p.1]? = none := List.getElem?_eq_none (by omega)
      rw [List.getD_eq_getElem?_getD, hn] at hx
      simp at hx)
  show ((List.foldl (sideStep F) _ F.positions).start.getD (0, 0)).1 = 0
  cases hs : (List.foldl (sideStep F) { input := (List.range F.params.length).map .arg } F.positions).start with
  | none => rfl
  | some x => exact this x hs

end DK
